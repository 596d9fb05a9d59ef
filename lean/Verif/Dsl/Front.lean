import Verif.Dsl.Run
import Verif.Dsl.Spec
/-!
# The operations of the front end do what the source says
-/
namespace Nbdl.Dsl

variable {σ V : Type}

/-! ### Blocks -/

/-- No terminator in the block. -/
def NoTerms (l : List Op) : Prop := ∀ o ∈ l, o.isTerm = false

/-- The last operation is a terminator and no other one is. -/
def TermLast : List Op → Prop
  | [] => False
  | [o] => o.isTerm = true
  | o :: p :: os => o.isTerm = false ∧ TermLast (p :: os)

theorem TermLast.cons {o : Op} {os : List Op} (h : o.isTerm = false) (ht : TermLast os) : TermLast (o :: os) := by
  cases os with
  | nil => exact ht.elim
  | cons p os => exact ⟨h, ht⟩

theorem TermLast.append {a b : List Op} (h : NoTerms a) (ht : TermLast b) : TermLast (a ++ b) := by
  induction a with
  | nil => exact ht
  | cons o os ih =>
    exact (ih fun p hp => h p (by simp [hp])).cons (h o (by simp))

theorem TermLast.ends : ∀ {l : List Op}, TermLast l → endsTerm l = true
  | [], h => h.elim
  | [_], h => h
  | _ :: p :: os, h => TermLast.ends (l := p :: os) h.2

theorem TermLast.ne_nil {l : List Op} (h : TermLast l) : l ≠ [] := by
  rintro rfl; exact h

theorem NoTerms.ends : ∀ {l : List Op}, NoTerms l → endsTerm l = false
  | [], _ => rfl
  | [o], h => h o (by simp)
  | _ :: p :: os, h => NoTerms.ends (l := p :: os) fun q hq => h q (by simp [List.mem_cons.1 hq])

theorem NoTerms.snoc {l : List Op} {o : Op} (h : NoTerms l) (ho : o.isTerm = false) : NoTerms (l ++ [o]) := by
  intro p hp
  rcases List.mem_append.1 hp with hp | hp
  · exact h p hp
  · simp at hp; subst hp; exact ho

theorem NoTerms.nil : NoTerms [] := by intro o h; simp at h

theorem TermLast.elseOk {l : List Op} (h : TermLast l) : elseOk l := by
  rcases l with - | ⟨o, os⟩
  · trivial
  · cases o <;> try trivial
    rcases os with - | ⟨p, os⟩
    · rfl
    · exact absurd h.1 (by simp [Op.isTerm])

theorem wfOps.append {lo mid hi : Nat} {a b : List Op} (h1 : wfOps lo mid a) (h2 : wfOps mid hi b) :
    wfOps lo hi (a ++ b) := by
  induction a generalizing lo with
  | nil =>
    simp only [wfOps] at h1
    cases b with
    | nil => simp only [List.append_nil, wfOps] at h2 ⊢; omega
    | cons o os =>
      simp only [wfOps, List.nil_append] at h2 ⊢
      obtain ⟨m, h3, h4⟩ := h2
      refine ⟨m, ?_, h4⟩
      exact wfOp_lo h1 h3
  | cons o os ih =>
    simp only [wfOps, List.cons_append] at h1 ⊢
    obtain ⟨m, h3, h4⟩ := h1
    exact ⟨m, h3, ih h4⟩
where
  wfOverloads_lo {lo lo' hi : Nat} (h : lo ≤ lo') : ∀ {os : List Overload}, wfOverloads lo' hi os →
      wfOverloads lo hi os
    | [], h2 => by simp only [wfOverloads] at h2 ⊢; omega
    | .mk _ _ _ :: _, h2 => by
      simp only [wfOverloads] at h2 ⊢
      obtain ⟨m, h3, h4⟩ := h2
      exact ⟨m, by omega, h4⟩
  wfOp_lo {lo lo' hi : Nat} (h : lo ≤ lo') : ∀ {o : Op}, wfOp lo' hi o → wfOp lo hi o
    | .get _ _ _, h2 => by simp only [wfOp] at h2 ⊢; exact ⟨by omega, h2.2⟩
    | .visit _ _ _ _, h2 => by simp only [wfOp] at h2 ⊢; exact ⟨by omega, h2.2⟩
    | .compose _ _ _ _, h2 => by simp only [wfOp] at h2 ⊢; exact ⟨by omega, h2.2⟩
    | .matchOp _ _ os, h2 => by simp only [wfOp] at h2 ⊢; exact wfOverloads_lo h h2
    | .matchIf _ t e, h2 => by
      simp only [wfOp] at h2 ⊢
      obtain ⟨⟨m, h3, h4⟩, h5⟩ := h2
      exact ⟨⟨m, wfOps_lo h h3, h4⟩, h5⟩
    | .scope b, h2 => by simp only [wfOp] at h2 ⊢; exact wfOps_lo h h2
    | .pure, h2 => by simp only [wfOp] at h2 ⊢; omega
    | .const _, h2 => by simp only [wfOp] at h2 ⊢; omega
    | .empty, h2 => by simp only [wfOp] at h2 ⊢; omega
    | .discard, h2 => by simp only [wfOp] at h2 ⊢; omega
    | .noop _, h2 => by simp only [wfOp] at h2 ⊢; omega
  wfOps_lo {lo lo' hi : Nat} (h : lo ≤ lo') : ∀ {os : List Op}, wfOps lo' hi os → wfOps lo hi os
    | [], h2 => by simp only [wfOps] at h2 ⊢; omega
    | o :: _, h2 => by
      simp only [wfOps] at h2 ⊢
      obtain ⟨m, h3, h4⟩ := h2
      exact ⟨m, wfOp_lo h h3, h4⟩

theorem execOps_append (w : World σ V) (a b : List Op) (env : Env Nat V) (s : σ) :
    execOps w env s (a ++ b) = (execOps w env s a).bind fun r => execOps w r.1 r.2 b := by
  induction a generalizing env s with
  | nil => simp [execOps]
  | cons x xs ih =>
    simp only [List.cons_append, execOps]
    rcases execOp w env s x with - | ⟨env', s'⟩ <;> simp [ih]

/-! ### Environments -/

/-- The environments agree below `n`. -/
def Agree (n : Nat) (a b : Env Nat V) : Prop := ∀ i, i < n → a i = b i

theorem agree_set {n r : Nat} (env : Env Nat V) (v : V) (h : n ≤ r) : Agree n env (env.set r v) := by
  intro i hi
  have : i ≠ r := by omega
  simp [Env.set, this]

theorem evalVal_agree (w : World σ V) {n : Nat} {a b : Env Nat V} (h : Agree n a b) :
    ∀ v : Val, v.under n → evalVal w a v = evalVal w b v
  | .id i, hv => h i hv
  | .lit (.int _), _ => rfl
  | .lit (.str _), _ => rfl
  | .cexpr _, _ => rfl
  | .const v, hv => by simp only [evalVal, evalVal_agree w h v hv]
  | .member _, _ => rfl
  | .unit, _ => rfl

theorem evalVals_agree (w : World σ V) {n : Nat} {a b : Env Nat V} (h : Agree n a b) :
    ∀ vs : List Val, (∀ v ∈ vs, v.under n) → evalVals w a vs = evalVals w b vs
  | [], _ => rfl
  | v :: vs, hv => by
    simp only [evalVals, evalVal_agree w h v (hv v (by simp)),
      evalVals_agree w h vs fun u hu => hv u (by simp [hu])]

/-- The values the front end computes with. -/
def Val.plain : Val → Prop
  | .id _ => True
  | .lit _ => True
  | .cexpr _ => True
  | _ => False

theorem evalKey_plain (w : World σ V) (env : Env Nat V) {v : Val} (h : v.plain) :
    evalKey w env (some v) = (evalVal w env v).map some := by
  cases v <;> first | rfl | exact h.elim

/-- What the variables of the source refer to. -/
def src (Γ : Env Nat Nat) (env : Env Nat V) : Env Nat V := fun x => (Γ x).bind env

/-- The variables are bound to identities below `n`. -/
def GammaOk (n : Nat) (Γ : Env Nat Nat) : Prop := ∀ x i, Γ x = some i → i < n

theorem src_agree {n : Nat} {Γ : Env Nat Nat} (hΓ : GammaOk n Γ) {a b : Env Nat V} (h : Agree n a b) :
    src Γ a = src Γ b := by
  funext x
  simp only [src]
  rcases hx : Γ x with - | i
  · rfl
  · exact h i (hΓ x i hx)

theorem src_set {n : Nat} {Γ : Env Nat Nat} (hΓ : GammaOk n Γ) (env : Env Nat V) {r : Nat} (hr : n ≤ r) (x : Nat)
    (v : V) : src (Γ.set x r) (env.set r v) = (src Γ env).set x v := by
  funext y
  by_cases hy : y = x
  · simp [src, Env.set, hy]
  · have := congrFun (src_agree hΓ (agree_set env v hr)) y
    simp only [src] at this
    simp only [src, Env.set, if_neg hy] at this ⊢
    exact this.symm

/-! ### Steps that finish a block -/

/-- From a block without terminator the step adds operations, the last one a terminator, that do what `F` says
when the callback is `f`, bound to the identity `c`, provided that `P`. -/
def Good (w : World σ V) (P : Prop) (c : Nat) (f : V) (n : Nat) (m : M) (F : Env Nat V → σ → Option σ) : Prop :=
  ∀ st st', NoTerms st.cur → n ≤ st.next → m st = some st' →
    ∃ ops, st'.cur = st.cur ++ ops ∧ TermLast ops ∧ wfOps st.next st'.next ops ∧
      ∀ env s, P ∧ env c = some f → (execOps w env s ops).map Prod.snd = F env s

/-- A continuation that does what `K` says with the object its value stands for. -/
def GoodK (w : World σ V) (P : Prop) (c : Nat) (f : V) (n : Nat) (k : Val → M) (K : Env Nat V → σ → V → Option σ) : Prop :=
  ∀ n' v, n ≤ n' → v.under n' → v.plain → Good w P c f n' (k v) fun env s => (evalVal w env v).bind (K env s)

/-- The same for a list of values. -/
def GoodKs (w : World σ V) (P : Prop) (c : Nat) (f : V) (n : Nat) (k : List Val → M)
    (K : Env Nat V → σ → List V → Option σ) : Prop :=
  ∀ n' vs, n ≤ n' → (∀ v ∈ vs, v.under n') →
    Good w P c f n' (k vs) fun env s => (evalVals w env vs).bind (K env s)

/-- Only identities below `n` matter. -/
def Local {α : Type} (n : Nat) (K : Env Nat V → α) : Prop := ∀ a b, Agree n a b → K a = K b

theorem Local.mono {α : Type} {n n' : Nat} {K : Env Nat V → α} (h : Local n K) (hn : n ≤ n') : Local n' K :=
  fun a b hab => h a b fun i hi => hab i (by omega)

theorem Good.mono {w : World σ V} {P : Prop} {c : Nat} {f : V} {n n' : Nat} {m : M} {F : Env Nat V → σ → Option σ}
    (h : Good w P c f n m F) (hn : n ≤ n') : Good w P c f n' m F :=
  fun st st' h1 h2 h3 => h st st' h1 (by omega) h3

theorem GoodK.mono {w : World σ V} {P : Prop} {c : Nat} {f : V} {n n' : Nat} {k : Val → M}
    {K : Env Nat V → σ → V → Option σ} (h : GoodK w P c f n k K) (hn : n ≤ n') : GoodK w P c f n' k K :=
  fun m v h1 h2 h3 => h m v (by omega) h2 h3

theorem Good.congr {w : World σ V} {P : Prop} {c : Nat} {f : V} {n : Nat} {m : M} {F G : Env Nat V → σ → Option σ}
    (h : Good w P c f n m F) (hFG : ∀ env s, P ∧ env c = some f → F env s = G env s) : Good w P c f n m G := by
  intro st st' h1 h2 h3
  obtain ⟨ops, a, b, d, e⟩ := h st st' h1 h2 h3
  exact ⟨ops, a, b, d, fun env s hc => (e env s hc).trans (hFG env s hc)⟩

theorem emit_ok {st : St} (o : Op) (h : NoTerms st.cur) : emit o st = some { st with cur := st.cur ++ [o] } := by
  simp [emit, h.ends]

theorem closePrev_id {st : St} (h : NoTerms st.cur) : closePrev st = some st := by
  simp [closePrev, h.ends]

theorem good_close {w : World σ V} {P : Prop} {c : Nat} {f : V} {n : Nat} {m : M} {F : Env Nat V → σ → Option σ}
    (h : Good w P c f n m F) : Good w P c f n (M.then closePrev m) F := by
  intro st st' h1 h2 h3
  simp only [M.then, closePrev_id h1, Option.bind_some] at h3
  exact h st st' h1 h2 h3

theorem good_fail {w : World σ V} {P : Prop} {c : Nat} {f : V} {n : Nat} {F : Env Nat V → σ → Option σ} :
    Good w P c f n (fun _ => none) F := by
  intro st st' h1 h2 h3
  simp at h3

/-- An operation that is no terminator, then the rest. -/
theorem good_emit {w : World σ V} {P : Prop} {c : Nat} {f : V} {n : Nat} {o : Op} {m : M} {F G : Env Nat V → σ → Option σ}
    {st st' : St} (h1 : NoTerms st.cur) (ho : o.isTerm = false)
    {d : Nat} (hwf : wfOp st.next (st.next + d) o) (hn : n ≤ st.next + d)
    (h3 : (emit o { st with next := st.next + d }).bind m = some st') (h : Good w P c f n m F)
    (hx : ∀ env s ops, P ∧ env c = some f →
      (∀ env s, P ∧ env c = some f → (execOps w env s ops).map Prod.snd = F env s) →
      (execOps w env s (o :: ops)).map Prod.snd = G env s) :
    ∃ ops, st'.cur = st.cur ++ ops ∧ TermLast ops ∧ wfOps st.next st'.next ops ∧
      ∀ env s, P ∧ env c = some f → (execOps w env s ops).map Prod.snd = G env s := by
  rw [emit_ok (st := { st with next := st.next + d }) o h1, Option.bind_some] at h3
  obtain ⟨ops, a, b, e, g⟩ := h _ st' (h1.snoc ho) hn h3
  refine ⟨o :: ops, by rw [a]; simp, b.cons ho, ⟨st.next + d, hwf, e⟩, fun env s hc => ?_⟩
  exact hx env s ops hc g

theorem set_c {P : Prop} {env : Env Nat V} {c n r : Nat} {f v : V} (h : P ∧ env c = some f) (hc : c < n)
    (hr : n ≤ r) : P ∧ env.set r v c = some f := by
  rw [← agree_set env v hr c hc]; exact h

theorem overloadChoice_any (w : World σ V) (v : V) : overloadChoice w v [[]] = some 0 := rfl

theorem region_good {w : World σ V} {P : Prop} {c : Nat} {f : V} {n : Nat} {m : M} {F : Env Nat V → σ → Option σ}
    (h : Good w P c f n m F) {nx nx' : Nat} (hn : n ≤ nx) {body : List Op} (hr : region m nx = some (body, nx')) :
    TermLast body ∧ wfOps nx nx' body ∧
      ∀ env s, P ∧ env c = some f → (execOps w env s body).map Prod.snd = F env s := by
  simp only [region] at hr
  rcases hm : m ⟨[], nx⟩ with - | st'
  · simp [hm] at hr
  simp only [hm] at hr
  split at hr
  · simp only [Option.some.injEq, Prod.mk.injEq] at hr
    obtain ⟨rfl, rfl⟩ := hr
    obtain ⟨ops, a, b, d, e⟩ := h ⟨[], nx⟩ st' NoTerms.nil hn hm
    simp only [List.nil_append] at a
    subst a
    exact ⟨b, d, e⟩
  · simp at hr

/-- A terminator alone. -/
theorem good_last {w : World σ V} {P : Prop} {c : Nat} {f : V} {o : Op} {F : Env Nat V → σ → Option σ} {st st' : St}
    {hi : Nat} (h1 : NoTerms st.cur) (ho : o.isTerm = true) (hwf : wfOp st.next hi o)
    (h3 : emit o { st with next := hi } = some st')
    (hx : ∀ env s, P ∧ env c = some f → (execOp w env s o).map Prod.snd = F env s) :
    ∃ ops, st'.cur = st.cur ++ ops ∧ TermLast ops ∧ wfOps st.next st'.next ops ∧
      ∀ env s, P ∧ env c = some f → (execOps w env s ops).map Prod.snd = F env s := by
  rw [emit_ok o (by exact h1), Option.some.injEq] at h3
  subst h3
  refine ⟨[o], rfl, ho, ⟨hi, hwf, Nat.le_refl _⟩, fun env s hc => ?_⟩
  rw [← hx env s hc]
  rcases hh : execOp w env s o with - | r <;> simp [execOps, hh]

theorem good_matchKey {w : World σ V} {P : Prop} {c : Nat} {f : V} {n : Nat} (hcn : c < n) {store : Val} {key : Option Val}
    {k : Val → M} {K : Env Nat V → σ → V → Option σ} (hK : Local n K) (hk : GoodK w P c f n k K) :
    Good w P c f n (matchKey store key k) fun env s =>
      (evalVal w env store).bind fun x => (evalKey w env key).bind fun y =>
        K env (w.matchStore s x y).1 (w.matchStore s x y).2 := by
  intro st st' h1 h2 h3
  simp only [matchKey] at h3
  rcases hr : region (k (.id st.next)) (st.next + 1) with - | ⟨body, nx⟩
  · simp [hr] at h3
  simp only [hr] at h3
  obtain ⟨a, b, e⟩ := region_good (hk (st.next + 1) (.id st.next) (by omega) (Nat.lt_succ_self _) trivial)
    (Nat.le_refl _) hr
  refine good_last h1 rfl (hi := nx) ?_ h3 fun env s hc => ?_
  · refine ⟨nx, Nat.le_refl _, b, Nat.le_refl _⟩
  · simp only [execOp, List.map_cons, List.map_nil, Overload.type]
    rcases hx : evalVal w env store with - | x
    · rfl
    rcases hy : evalKey w env key with - | y
    · rfl
    simp only [overloadChoice_any, execPick, Option.map_map, Option.bind_some]
    have := e (env.set st.next (w.matchStore s x y).2) (w.matchStore s x y).1 (set_c hc hcn h2)
    simp only [evalVal, Env.set, if_true, Option.bind_some] at this
    rw [hK env _ (agree_set env (w.matchStore s x y).2 h2)]
    refine Eq.trans ?_ this
    rcases execOps w (env.set st.next (w.matchStore s x y).2) (w.matchStore s x y).1 body with - | r <;> rfl

theorem good_get {w : World σ V} {P : Prop} {c : Nat} {f : V} {n : Nat} (hcn : c < n) {store : Val} {m : Text}
    (hst : store.under n)
    {k : Val → M} {K : Env Nat V → σ → V → Option σ} (hK : Local n K) (hk : GoodK w P c f n k K) :
    Good w P c f n (buildGet store (.member m) k) fun env s =>
      (evalVal w env store).bind fun x => K env s (w.member s x m) := by
  intro st st' h1 h2 h3
  simp only [buildGet] at h3
  refine good_emit (n := st.next + 1) h1 rfl (d := 1) ?_ (by omega) h3
    (hk (st.next + 1) (.id st.next) (by omega) (Nat.lt_succ_self _) trivial) fun env s ops hc hops => ?_
  · exact ⟨Nat.le_refl _, by omega, below_mono h2 hst, trivial⟩
  · simp only [execOps, execOp]
    rcases hx : evalVal w env store with - | x
    · rfl
    simp only [Option.bind_some]
    rw [hops _ _ (set_c hc hcn h2), hK env _ (agree_set env (w.member s x m) h2)]
    simp [evalVal, Env.set]

theorem good_visit {w : World σ V} {P : Prop} {c : Nat} {f : V} {n : Nat} (hcn : c < n) {fn : Val} {vs : List Val}
    (hf : fn.under n) (hfp : fn.plain) (hvs : ∀ v ∈ vs, v.under n)
    {k : Val → M} {K : Env Nat V → σ → V → Option σ} (hK : Local n K) (hk : GoodK w P c f n k K) :
    Good w P c f n (buildVisit fn vs k) fun env s =>
      (evalVal w env fn).bind fun x => (evalVals w env vs).bind fun xs =>
        K env (w.call s x xs).1 (w.call s x xs).2 := by
  intro st st' h1 h2 h3
  simp only [buildVisit] at h3
  refine good_emit (n := st.next + 1) h1 rfl (d := 1) ?_ (by omega) h3
    (hk (st.next + 1) (.id st.next) (by omega) (Nat.lt_succ_self _) trivial) fun env s ops hc hops => ?_
  · exact ⟨Nat.le_refl _, by omega, below_mono h2 hf, fun a ha => below_mono h2 (hvs a ha)⟩
  · have hop : execOp w env s (.visit st.next false fn vs) = (match evalVal w env fn with
        | none => none
        | some f =>
          match evalVals w env vs with
          | none => none
          | some xs => some (setRes env false st.next (w.call s f xs).2, (w.call s f xs).1)) := by
      cases fn <;> first | exact hfp.elim | (simp only [execOp]; rfl)
    simp only [execOps, hop]
    rcases hx : evalVal w env fn with - | x
    · rfl
    rcases hy : evalVals w env vs with - | xs
    · rfl
    simp only [Option.bind_some, setRes, Bool.false_eq_true, if_false]
    rw [hops _ _ (set_c hc hcn h2), hK env _ (agree_set env (w.call s x xs).2 h2)]
    simp [evalVal, Env.set]

theorem good_mvisit {w : World σ V} {P : Prop} {c : Nat} {f : V} {n : Nat} (hcn : c < n) {m : Text} {vs : List Val}
    (hvs : ∀ v ∈ vs, v.under n)
    {k : Val → M} {K : Env Nat V → σ → V → Option σ} (hK : Local n K) (hk : GoodK w P c f n k K) :
    Good w P c f n (buildVisit (.member m) vs k) fun env s =>
      (evalVals w env vs).bind fun xs => match xs with
        | [] => none
        | x :: xs => K env (w.memberCall s x m xs).1 (w.memberCall s x m xs).2 := by
  intro st st' h1 h2 h3
  simp only [buildVisit] at h3
  refine good_emit (n := st.next + 1) h1 rfl (d := 1) ?_ (by omega) h3
    (hk (st.next + 1) (.id st.next) (by omega) (Nat.lt_succ_self _) trivial) fun env s ops hc hops => ?_
  · exact ⟨Nat.le_refl _, by omega, trivial, fun a ha => below_mono h2 (hvs a ha)⟩
  · simp only [execOps, execOp]
    rcases hy : evalVals w env vs with - | xs
    · rfl
    rcases xs with - | ⟨x, xs⟩
    · rfl
    simp only [Option.bind_some, setRes, Bool.false_eq_true, if_false]
    rw [hops _ _ (set_c hc hcn h2), hK env _ (agree_set env (w.memberCall s x m xs).2 h2)]
    simp [evalVal, Env.set]

theorem good_discard {w : World σ V} {P : Prop} {c : Nat} {f : V} {n : Nat} :
    Good w P c f n (emit .discard) fun _ s => some s := by
  intro st st' h1 h2 h3
  exact good_last h1 rfl (Nat.le_refl _) h3 fun env s hc => rfl

theorem good_call {w : World σ V} {P : Prop} {c : Nat} {f : V} {n : Nat} {fn : Val} {vs : List Val}
    (hf : fn.under n) (hfp : fn.plain) (hvs : ∀ v ∈ vs, v.under n) :
    Good w P c f n (buildCall fn vs) fun env s =>
      (evalVal w env fn).bind fun x => (evalVals w env vs).bind fun xs => some (w.call s x xs).1 := by
  intro st st' h1 h2 h3
  simp only [buildCall] at h3
  refine good_emit (n := st.next + 1) h1 rfl (d := 1) ?_ (by omega) h3 good_discard
    fun env s ops hc hops => ?_
  · exact ⟨Nat.le_refl _, by omega, below_mono h2 hf, fun a ha => below_mono h2 (hvs a ha)⟩
  · have hop : execOp w env s (.visit st.next true fn vs) = (match evalVal w env fn with
        | none => none
        | some f =>
          match evalVals w env vs with
          | none => none
          | some xs => some (setRes env true st.next (w.call s f xs).2, (w.call s f xs).1)) := by
      cases fn <;> first | exact hfp.elim | (simp only [execOp]; rfl)
    simp only [execOps, hop]
    rcases hx : evalVal w env fn with - | x
    · rfl
    rcases hy : evalVals w env vs with - | xs
    · rfl
    simp only [Option.bind_some, setRes, if_true]
    rw [hops _ _ hc]

theorem good_mcall {w : World σ V} {P : Prop} {c : Nat} {f : V} {n : Nat} {m : Text} {vs : List Val}
    (hvs : ∀ v ∈ vs, v.under n) :
    Good w P c f n (buildCall (.member m) vs) fun env s =>
      (evalVals w env vs).bind fun xs => match xs with
        | [] => none
        | x :: xs => some (w.memberCall s x m xs).1 := by
  intro st st' h1 h2 h3
  simp only [buildCall] at h3
  refine good_emit (n := st.next + 1) h1 rfl (d := 1) ?_ (by omega) h3 good_discard
    fun env s ops hc hops => ?_
  · exact ⟨Nat.le_refl _, by omega, trivial, fun a ha => below_mono h2 (hvs a ha)⟩
  · simp only [execOps, execOp]
    rcases hy : evalVals w env vs with - | xs
    · rfl
    rcases xs with - | ⟨x, xs⟩
    · rfl
    simp only [Option.bind_some, setRes, if_true]
    rw [hops _ _ hc]

theorem good_var {w : World σ V} {P : Prop} {c : Nat} {f : V} {n : Nat} {Γ : Env Nat Nat} (hΓ : GammaOk n Γ) (x : Nat)
    {k : Val → M} {K : Env Nat V → σ → V → Option σ} (hk : GoodK w P c f n k K) :
    Good w P c f n (withVar Γ x k) fun env s => (src Γ env x).bind (K env s) := by
  intro st st' h1 h2 h3
  simp only [withVar] at h3
  rcases hx : Γ x with - | i
  · simp [hx] at h3
  simp only [hx] at h3
  obtain ⟨ops, a, b, d, e⟩ := hk n (.id i) (Nat.le_refl _) (hΓ x i hx) trivial st st' h1 h2 h3
  exact ⟨ops, a, b, d, fun env s hc => by rw [e env s hc]; simp [src, hx, evalVal]⟩

/-- A constant, then the rest. -/
theorem good_const {w : World σ V} {P : Prop} {c : Nat} {f : V} {n : Nat} {plus : Bool} {e : Expr} {k : Val → M}
    {F : Env Nat V → σ → Option σ} (h : ∀ v, constant plus e = some v → Good w P c f n (k v) F) :
    Good w P c f n (withConstant plus e k) F := by
  intro st st' h1 h2 h3
  simp only [withConstant] at h3
  rcases hv : constant plus e with - | v
  · simp [hv] at h3
  simp only [hv] at h3
  exact good_emit (o := .pure) (d := 0) h1 rfl (Nat.le_refl _) h2 h3 (h v hv) fun env s ops hc hops =>
    hops env s hc

end Nbdl.Dsl
