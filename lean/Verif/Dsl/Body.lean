import Verif.Dsl.Source
/-!
# The operations of the front end do what the source says: statements and functions
-/
namespace Nbdl.Dsl

variable {σ V : Type}

/-- What a block looks like between statements. -/
def Blk (l : List Op) : Prop := l = [] ∨ TermLast l

/-- From a block between statements the step leads to such a block, and the block now does what it did before and
then what `F` says. -/
def GoodS (w : World σ V) (P : Prop) (c : Nat) (f : V) (n : Nat) (m : M) (F : Env Nat V → σ → Option σ) : Prop :=
  ∀ st st' lo, Blk st.cur → wfOps lo st.next st.cur → n ≤ st.next → m st = some st' →
    Blk st'.cur ∧ wfOps lo st'.next st'.cur ∧ st.next ≤ st'.next ∧
      ∀ env s, P ∧ env c = some f →
        (execOps w env s st'.cur).map Prod.snd = ((execOps w env s st.cur).map Prod.snd).bind (F env)

/-- The step begins by closing the previous scope. -/
def Closed (m : M) : Prop := M.then closePrev m = m

/-- The step is refused after a statement. -/
def Refused (m : M) : Prop := ∀ st, endsTerm st.cur = true → m st = none

theorem wfOps_le : ∀ {os : List Op} {lo hi : Nat}, wfOps lo hi os → lo ≤ hi
  | [], lo, hi, h => h
  | o :: os, lo, hi, h => by
    simp only [wfOps] at h
    obtain ⟨m, h1, h2⟩ := h
    exact Nat.le_trans (op h1) (wfOps_le h2)
where
  ops : ∀ {os : List Op} {lo hi : Nat}, wfOps lo hi os → lo ≤ hi
  | [], lo, hi, h => h
  | o :: os, lo, hi, h => by
    simp only [wfOps] at h
    obtain ⟨m, h1, h2⟩ := h
    exact Nat.le_trans (op h1) (ops h2)
  op : ∀ {o : Op} {lo hi : Nat}, wfOp lo hi o → lo ≤ hi
    | .get _ _ _, lo, hi, h => by simp only [wfOp] at h; omega
    | .visit _ _ _ _, lo, hi, h => by simp only [wfOp] at h; omega
    | .compose _ _ _ _, lo, hi, h => by simp only [wfOp] at h; omega
    | .matchOp _ _ os, lo, hi, h => by simp only [wfOp] at h; exact ovs h
    | .matchIf _ t e, lo, hi, h => by
      simp only [wfOp] at h
      obtain ⟨⟨m, h1, h2⟩, -⟩ := h
      exact Nat.le_trans (ops h1) (ops h2)
    | .scope b, lo, hi, h => by simp only [wfOp] at h; exact ops h
    | .pure, lo, hi, h => h
    | .const _, lo, hi, h => h
    | .empty, lo, hi, h => h
    | .discard, lo, hi, h => h
    | .noop _, lo, hi, h => h
  ovs : ∀ {os : List Overload} {lo hi : Nat}, wfOverloads lo hi os → lo ≤ hi
    | [], lo, hi, h => h
    | .mk _ _ b :: os, lo, hi, h => by
      simp only [wfOverloads] at h
      obtain ⟨m, h1, h2, h3⟩ := h
      have a := ops h2
      have b := ovs h3
      omega

theorem goodS_of {w : World σ V} {P : Prop} {c : Nat} {f : V} {n : Nat} {m : M} {F : Env Nat V → σ → Option σ}
    (h : Good w P c f n m F) (hc : Closed m ∨ Refused m) : GoodS w P c f n m F := by
  intro st st' lo hb hw hn hm
  rcases hb with hb | hb
  · obtain ⟨ops, a, b, d, e⟩ := h st st' (by rw [hb]; exact NoTerms.nil) hn hm
    rw [hb, List.nil_append] at a
    rw [hb] at hw ⊢
    rw [a]
    have := hw.append d
    rw [List.nil_append] at this
    exact ⟨.inr b, this, wfOps_le d, fun env s hcf => by rw [e env s hcf]; rfl⟩
  · rcases hc with hc | hc
    · rw [← hc] at hm
      simp only [M.then, closePrev, hb.ends, if_true, Option.bind_some] at hm
      obtain ⟨ops, a, b, d, e⟩ := h ⟨[.scope st.cur], st.next⟩ st'
        (by intro o ho; simp at ho; subst ho; rfl) hn hm
      have hsc : wfOps lo st.next [.scope st.cur] := ⟨st.next, hw, Nat.le_refl _⟩
      rw [a]
      refine ⟨.inr (b.cons rfl), hsc.append d, wfOps_le d, fun env s hcf => ?_⟩
      simp only [List.cons_append, List.nil_append, execOps, execOp]
      rcases execOps w env s st.cur with - | r
      · rfl
      · exact e env r.2 hcf
    · rw [hc st hb.ends] at hm
      simp at hm

theorem region_goodS {w : World σ V} {P : Prop} {c : Nat} {f : V} {n : Nat} {m : M} {F : Env Nat V → σ → Option σ}
    (h : GoodS w P c f n m F) {nx nx' : Nat} (hn : n ≤ nx) {body : List Op} (hr : region m nx = some (body, nx')) :
    TermLast body ∧ wfOps nx nx' body ∧
      ∀ env s, P ∧ env c = some f → (execOps w env s body).map Prod.snd = F env s := by
  simp only [region] at hr
  rcases hm : m ⟨[], nx⟩ with - | st'
  · simp [hm] at hr
  simp only [hm] at hr
  split at hr
  · rename_i hends
    simp only [Option.some.injEq, Prod.mk.injEq] at hr
    obtain ⟨rfl, rfl⟩ := hr
    obtain ⟨a, b, -, e⟩ := h ⟨[], nx⟩ st' nx (.inl rfl) (Nat.le_refl _) hn hm
    rcases a with a | a
    · rw [a] at hends; simp [endsTerm] at hends
    · exact ⟨a, b, fun env s hcf => by rw [e env s hcf]; rfl⟩
  · simp at hr

/-! ### Which steps close the previous scope -/

theorem closePrev_twice (m : M) : M.then closePrev (M.then closePrev m) = M.then closePrev m := by
  funext st
  simp only [M.then, closePrev]
  by_cases h : endsTerm st.cur = true
  · simp [h, endsTerm, Op.isTerm, M.then, closePrev]
  · simp [h, M.then, closePrev]

theorem closed_close (m : M) : Closed (M.then closePrev m) := closePrev_twice m

theorem closed_fail : Closed fun _ => none := by
  funext st
  simp only [M.then, closePrev]
  by_cases h : endsTerm st.cur = true <;> simp [h]

theorem closed_var {Γ : Env Nat Nat} (x : Nat) {k : Val → M} (h : ∀ v, Closed (k v)) : Closed (withVar Γ x k) := by
  simp only [Closed]
  rcases hx : Γ x with - | i
  · have : withVar Γ x k = fun _ => none := by funext st; simp [withVar, hx]
    rw [this]; exact closed_fail
  · have : withVar Γ x k = k (.id i) := by funext st; simp [withVar, hx]
    rw [this]; exact h _

theorem closed_pathNode (Γ : Env Nat Nat) (store : Val) (k : Val → M) : ∀ key : Expr,
    Closed (pathNode Γ store key k)
  | .sym _ => by simp only [pathNode]; exact closed_close _
  | .num _ => by simp only [pathNode]; exact closed_close _
  | .str _ => by simp only [pathNode]; exact closed_close _
  | .var _ => by simp only [pathNode]; exact closed_close _
  | .path _ [] => by simp only [pathNode]; exact closed_close _
  | .path _ (_ :: _) => by simp only [pathNode]; exact closed_close _
  | .visit _ _ => by simp only [pathNode]; exact closed_fail

theorem refused_emit (o : Op) : Refused (emit o) := by
  intro st h
  simp [emit, h]

theorem refused_var {Γ : Env Nat Nat} (x : Nat) {k : Val → M} (h : ∀ v, Refused (k v)) :
    Refused (withVar Γ x k) := by
  intro st hs
  simp only [withVar]
  rcases Γ x with - | i
  · rfl
  · exact h _ st hs

theorem refused_const (plus : Bool) (e : Expr) (k : Val → M) : Refused (withConstant plus e k) := by
  intro st hs
  simp only [withConstant]
  rcases constant plus e with - | v
  · rfl
  · simp [emit, hs]

theorem closed_or_refused (Γ : Env Nat Nat) (plus : Bool) {k : Val → M} (hk : ∀ v, Refused (k v)) : ∀ e : Expr,
    Closed (resolve Γ plus e k) ∨ Refused (resolve Γ plus e k)
  | .var x => by simp only [resolve]; exact .inr (refused_var x hk)
  | .sym _ => by simp only [resolve]; exact .inr (refused_const _ _ _)
  | .num _ => by simp only [resolve]; exact .inr (refused_const _ _ _)
  | .str _ => by simp only [resolve]; exact .inr (refused_const _ _ _)
  | .path x [] => by simp only [resolve]; exact .inr (refused_var x hk)
  | .path x (key :: keys) => by
    simp only [resolve, pathNodes]
    exact .inl (closed_var x fun v => closed_pathNode Γ v _ key)
  | .visit _ _ => by simp only [resolve]; exact .inl (closed_close _)

theorem closed_path (Γ : Env Nat Nat) (plus : Bool) {k : Val → M} (hk : ∀ v, Closed (k v)) : ∀ e : Expr,
    e.isPath = true → Closed (resolve Γ plus e k)
  | .var x, _ => by simp only [resolve]; exact closed_var x hk
  | .path x [], _ => by simp only [resolve]; exact closed_var x hk
  | .path x (key :: keys), _ => by
    simp only [resolve, pathNodes]
    exact closed_var x fun v => closed_pathNode Γ v _ key
  | .sym _, h => by simp [Expr.isPath] at h
  | .num _, h => by simp [Expr.isPath] at h
  | .str _, h => by simp [Expr.isPath] at h
  | .visit _ _, h => by simp [Expr.isPath] at h

/-! ### Clauses -/

/-- The first type that accepts the object. -/
def firstType (w : World σ V) (v : V) : List Text → Option Nat
  | [] => none
  | t :: ts => if t.isEmpty || w.is v t then some 0 else (firstType w v ts).map (· + 1)

theorem positions_succ (p : Text → Bool) (i : Nat) (ts : List Text) :
    positions p (i + 1) ts = (positions p i ts).map (· + 1) := by
  induction ts generalizing i with
  | nil => rfl
  | cons t ts ih =>
    simp only [positions]
    split <;> simp [ih (i + 1)]

theorem positions_none {p : Text → Bool} {ts : List Text} (h : ∀ t ∈ ts, p t = false) (i : Nat) :
    positions p i ts = [] := by
  induction ts generalizing i with
  | nil => rfl
  | cons t ts ih =>
    simp [positions, h t (by simp), ih (fun u hu => h u (by simp [hu]))]

theorem overloadChoice_first (w : World σ V) (v : V) (ts : List Text) (h : typesOk w ts) :
    overloadChoice w v ts = firstType w v ts := by
  induction ts with
  | nil => rfl
  | cons t ts ih =>
    obtain ⟨h1, h2, h3⟩ := h
    by_cases ht : t = []
    · subst ht
      rw [h1 rfl]
      rfl
    · have hte : t.isEmpty = false := by cases t <;> simp_all
      by_cases hi : w.is v t = true
      · have : positions (fun t => !t.isEmpty && w.is v t) 1 ts = [] := by
          refine positions_none (fun u hu => ?_) 1
          by_cases hu0 : u = []
          · simp [hu0]
          · have := h2 u hu hu0 v
            simp only [hi, true_and] at this
            simp [this]
        simp [overloadChoice, positions, hte, hi, this, firstType]
      · have hi' : w.is v t = false := by simpa using hi
        simp only [firstType, hte, hi', Bool.or_self, Bool.false_eq_true, if_false, ← ih h3]
        simp only [overloadChoice, positions, hte, hi', Bool.not_false, Bool.and_false, Bool.false_eq_true, if_false,
          positions_succ _ 0]
        rcases positions (fun t => !t.isEmpty && w.is v t) 0 ts with - | ⟨a, - | ⟨b, l⟩⟩
        · simp only [List.map_nil]
          rcases positions (fun t => t.isEmpty) 0 ts with - | ⟨a, - | ⟨b, l⟩⟩ <;> rfl
        · rfl
        · rfl

/-! ### Statements -/

theorem gammaOk_set {n : Nat} {Γ : Env Nat Nat} (h : GammaOk n Γ) {r : Nat} (hr : n ≤ r) (x : Nat) :
    GammaOk (r + 1) (Γ.set x r) := by
  intro y i hi
  simp only [Env.set] at hi
  split at hi
  · simp only [Option.some.injEq] at hi; omega
  · have := h y i hi; omega

theorem GoodS.mono {w : World σ V} {P : Prop} {c : Nat} {f : V} {n n' : Nat} {m : M} {F : Env Nat V → σ → Option σ}
    (h : GoodS w P c f n m F) (hn : n ≤ n') : GoodS w P c f n' m F :=
  fun st st' lo h1 h2 h3 h4 => h st st' lo h1 h2 (by omega) h4

mutual
theorem stmt_good {w : World σ V} {P : Prop} {c : Nat} {f : V} : ∀ (st : Stmt) (Γ : Env Nat Nat) (n : Nat), c < n →
    GammaOk n Γ → (P → st.ok w) →
    GoodS w P c f n (compileStmt Γ (.id c) st) fun env s => runStmt w f (src Γ env) s st
  | .call args, Γ, n, hc, hΓ, hs => by
    simp only [compileStmt]
    split
    · exact goodS_of good_fail (.inl closed_fail)
    · refine goodS_of (good_close ?_) (.inl (closed_close _))
      simp only [Stmt.ok] at hs
      refine (resolveAll_good args n _ (fun env s xs => some (w.call s f xs).1) hc hΓ hs (fun a b _ => rfl)
        fun n' vs hn hvs => ?_).congr fun env s hcf => ?_
      · refine (good_call (fn := .id c) (Nat.lt_of_lt_of_le hc hn) trivial hvs).congr fun env s hcf => ?_
        simp [evalVal, hcf.2]
      · simp only [runStmt]
        rcases evalArgs w (src Γ env) s args with - | ⟨s1, xs⟩ <;> rfl
  | .visit callee args, Γ, n, hc, hΓ, hs => by
    simp only [compileStmt]
    refine goodS_of (good_close ?_) (.inl (closed_close _))
    simp only [Stmt.ok] at hs
    rcases hcm : calleeMember callee with - | m
    · refine (resolve_good callee n true _ (fun env s x =>
        (evalArgs w (src Γ env) s args).bind fun q => some (w.call q.1 x q.2).1)
        hc hΓ (fun p => (hs p).1) (fun _ => hcm) (fun a b hab => ?_) fun n' v hn hv hp => ?_).congr fun env s _ => ?_
      · dsimp only; rw [src_agree hΓ hab]
      · refine (resolveAll_good args n' _ (fun env s xs => (evalVal w env v).bind fun x =>
          some (w.call s x xs).1) (by omega)
          (fun x i hx => Nat.lt_of_lt_of_le (hΓ x i hx) hn) (fun p => (hs p).2) (fun a b hab => ?_)
          fun n'' vs hn' hvs => ?_).congr fun env s _ => ?_
        · dsimp only; rw [evalVal_agree w hab v hv]
        · refine (good_call (below_mono hn' hv) hp hvs).congr fun env s _ => ?_
          dsimp only
          rcases evalVal w env v with - | x
          · rcases evalVals w env vs with - | xs <;> rfl
          · rcases evalVals w env vs with - | xs <;> rfl
        · dsimp only
          rcases evalVal w env v with - | x
          · rcases evalArgs w (src Γ env) s args with - | q <;> rfl
          · rcases evalArgs w (src Γ env) s args with - | q <;> rfl
      · simp only [runStmt, evalExpr, hcm]
        rcases evalExpr w (src Γ env) s callee with - | ⟨s1, x⟩
        · rfl
        simp only [Option.bind_some]
        rcases evalArgs w (src Γ env) s1 args with - | ⟨s2, xs⟩ <;> rfl
    · have hce : callee = .sym ('.' :: m) := by
        cases callee with
        | sym t =>
          simp only [calleeMember, memberName] at hcm
          split at hcm
          · simp only [Option.some.injEq] at hcm; rw [hcm]
          · simp at hcm
        | _ => simp [calleeMember] at hcm
      subst hce
      simp only [resolve]
      refine good_const fun v hv => ?_
      simp only [constant, if_true, Option.some.injEq] at hv
      subst hv
      refine (resolveAll_good args n _ (fun env s xs => match xs with
        | [] => none
        | x :: xs => some (w.memberCall s x m xs).1) hc hΓ (fun p => (hs p).2) (fun a b hab => rfl)
          fun n'' vs hn' hvs => ?_).congr fun env s _ => ?_
      · exact good_mcall hvs
      · simp only [runStmt, evalExpr, calleeMember, memberName_cons]
        rcases evalArgs w (src Γ env) s args with - | ⟨s1, xs⟩
        · rfl
        rcases xs with - | ⟨x, xs⟩ <;> rfl
  | .matchPath path clauses, Γ, n, hc, hΓ, hs => by
    simp only [compileStmt]
    split
    · exact goodS_of good_fail (.inl closed_fail)
    · rename_i hpath
      simp only [Bool.or_eq_true, not_or, Bool.not_eq_true', Bool.not_eq_true] at hpath
      have hp : path.isPath = true := by
        cases h : path.isPath
        · simp [h] at hpath
        · rfl
      simp only [Stmt.ok] at hs
      refine goodS_of ?_ (.inl (closed_path Γ false (fun v => closed_close _) path hp))
      refine (resolve_good path n false _ (fun env s x =>
        runClauses w f (src Γ env) (w.matchStore s x none).1 (w.matchStore s x none).2 clauses)
        hc hΓ (fun p => (hs p).1) (by simp) (fun a b hab => ?_) fun n' v hn hv hvp => good_close ?_).congr fun env s _ => ?_
      · dsimp only; rw [src_agree hΓ hab]
      · intro st st' h1 h2 h3
        rcases hcl : compileClauses Γ (.id c) clauses st.next with - | ⟨os, nx⟩
        · simp [hcl] at h3
        simp only [hcl] at h3
        obtain ⟨a, b, d⟩ := clauses_good clauses Γ n st.next nx os hc hΓ (by omega) (fun p => (hs p).2.2) hcl
        refine good_last (o := .matchOp v none os) h1 rfl (hi := nx) a h3 fun env s hcf => ?_
        simp only [execOp, evalKey]
        rcases evalVal w env v with - | x
        · rfl
        simp only [Option.bind_some, b, overloadChoice_first w _ _ (hs hcf.1).2.1]
        rw [← d env (w.matchStore s x none).1 (w.matchStore s x none).2 hcf]
        rcases firstType w (w.matchStore s x none).2 (clauses.map Clause.type) with - | i
        · rfl
        simp only [Option.bind_some, Option.map_map]
        rcases execPick w env (w.matchStore s x none).1 (w.matchStore s x none).2 i os with - | s2 <;> rfl
      · simp only [runStmt]
        rcases evalExpr w (src Γ env) s path with - | ⟨s1, x⟩ <;> rfl
  | .matchIf cond thn els, Γ, n, hc, hΓ, hs => by
    simp only [compileStmt]
    simp only [Stmt.ok] at hs
    refine goodS_of ?_ (closed_or_refused Γ false (fun v st hst => ?_) cond)
    · refine (resolve_good cond n false _ (fun env s x =>
        if w.truth s x then runStmts w f (src Γ env) s thn else runStmts w f (src Γ env) s els)
        hc hΓ (fun p => (hs p).1) (by simp) (fun a b hab => ?_) fun n' v hn hv hvp => ?_).congr fun env s _ => ?_
      · dsimp only; rw [src_agree hΓ hab]
      · intro st st' h1 h2 h3
        rcases ht : region (compileStmts Γ (.id c) thn) st.next with - | ⟨t, n1⟩
        · simp [ht] at h3
        rcases he : region (compileStmts Γ (.id c) els) n1 with - | ⟨e, n2⟩
        · simp [ht, he] at h3
        simp only [ht, he] at h3
        obtain ⟨a1, a2, a3⟩ := region_goodS (stmts_good (f := f) thn Γ n hc hΓ fun p => (hs p).2.1) (by omega) ht
        have := wfOps_le a2
        obtain ⟨b1, b2, b3⟩ := region_goodS (stmts_good (f := f) els Γ n hc hΓ fun p => (hs p).2.2) (by omega) he
        refine good_last (o := .matchIf v t e) h1 rfl (hi := n2) ⟨⟨n1, a2, b2⟩, b1.elseOk⟩ h3 fun env s hcf => ?_
        simp only [execOp]
        rcases evalVal w env v with - | x
        · rfl
        simp only [Option.bind_some]
        split
        · rw [← a3 env s hcf]
          rcases execOps w env s t with - | r <;> rfl
        · rw [← b3 env s hcf]
          rcases execOps w env s e with - | r <;> rfl
      · simp only [runStmt]
        rcases evalExpr w (src Γ env) s cond with - | ⟨s1, x⟩ <;> rfl
    · rcases ht : region (compileStmts Γ (.id c) thn) st.next with - | ⟨t, n1⟩
      · rfl
      rcases he : region (compileStmts Γ (.id c) els) n1 with - | ⟨e, n2⟩
      · simp [he]
      · simp [he, emit, hst]
  | .noop x, Γ, n, hc, hΓ, hs => by
    simp only [compileStmt]
    refine goodS_of ?_ (.inr (refused_var x fun v => refused_emit _))
    refine (good_var hΓ x (K := fun _ s _ => some s) fun n' v hn hv hp => ?_).congr fun env s _ => ?_
    · intro st st' h1 h2 h3
      refine good_last h1 rfl (Nat.le_refl _) h3 fun env s hcf => ?_
      simp only [execOp]
      rcases evalVal w env v with - | y <;> rfl
    · simp only [runStmt]
      rcases src Γ env x with - | y <;> rfl

theorem stmts_good {w : World σ V} {P : Prop} {c : Nat} {f : V} : ∀ (ss : List Stmt) (Γ : Env Nat Nat) (n : Nat), c < n →
    GammaOk n Γ → (P → stmtsOk w ss) →
    GoodS w P c f n (compileStmts Γ (.id c) ss) fun env s => runStmts w f (src Γ env) s ss
  | [], Γ, n, hc, hΓ, hs => by
    intro st st' lo h1 h2 h3 h4
    simp only [compileStmts, Option.some.injEq] at h4
    subst h4
    refine ⟨h1, h2, Nat.le_refl _, fun env s _ => ?_⟩
    simp only [runStmts]
    rcases (execOps w env s st.cur).map Prod.snd with - | r <;> rfl
  | a :: ss, Γ, n, hc, hΓ, hs => by
    simp only [stmtsOk] at hs
    intro st st' lo h1 h2 h3 h4
    simp only [compileStmts, M.then] at h4
    rcases hm : compileStmt Γ (.id c) a st with - | st1
    · simp [hm] at h4
    simp only [hm, Option.bind_some] at h4
    obtain ⟨x1, x2, x3, x4⟩ := stmt_good (f := f) a Γ n hc hΓ (fun p => (hs p).1) st st1 lo h1 h2 h3 hm
    obtain ⟨y1, y2, y3, y4⟩ := stmts_good (f := f) ss Γ n hc hΓ (fun p => (hs p).2) st1 st' lo x1 x2 (by omega) h4
    refine ⟨y1, y2, by omega, fun env s hcf => ?_⟩
    rw [y4 env s hcf, x4 env s hcf]
    simp only [runStmts]
    rcases (execOps w env s st.cur).map Prod.snd with - | r
    · rfl
    simp only [Option.bind_some]
    rcases runStmt w f (src Γ env) r a with - | q <;> rfl

theorem clauses_good {w : World σ V} {P : Prop} {c : Nat} {f : V} : ∀ (cs : List Clause) (Γ : Env Nat Nat) (n nx nx' : Nat)
    (os : List Overload), c < n → GammaOk n Γ → n ≤ nx → (P → clausesOk w cs) →
    compileClauses Γ (.id c) cs nx = some (os, nx') →
    wfOverloads nx nx' os ∧ os.map Overload.type = cs.map Clause.type ∧
      ∀ env s v, P ∧ env c = some f → (firstType w v (cs.map Clause.type)).bind (fun i => execPick w env s v i os) =
        runClauses w f (src Γ env) s v cs
  | [], Γ, n, nx, nx', os, hc, hΓ, hn, hs, h => by
    simp only [compileClauses, Option.some.injEq, Prod.mk.injEq] at h
    obtain ⟨rfl, rfl⟩ := h
    exact ⟨Nat.le_refl _, rfl, fun env s v _ => rfl⟩
  | .mk type x body :: cs, Γ, n, nx, nx', os, hc, hΓ, hn, hs, h => by
    simp only [clausesOk] at hs
    simp only [compileClauses] at h
    rcases hr : region (compileStmts (Γ.set x nx) (.id c) body) (nx + 1) with - | ⟨b, n1⟩
    · simp [hr] at h
    rcases hcl : compileClauses Γ (.id c) cs n1 with - | ⟨os', n2⟩
    · simp [hr, hcl] at h
    simp only [hr, hcl, Option.some.injEq, Prod.mk.injEq] at h
    obtain ⟨rfl, rfl⟩ := h
    obtain ⟨a1, a2, a3⟩ := region_goodS
      (stmts_good (f := f) body (Γ.set x nx) (nx + 1) (by omega) (gammaOk_set hΓ hn x) fun p => (hs p).1) (Nat.le_refl _) hr
    have := wfOps_le a2
    obtain ⟨b1, b2, b3⟩ := clauses_good (f := f) cs Γ n n1 n2 os' hc hΓ (by omega) (fun p => (hs p).2) hcl
    refine ⟨⟨n1, Nat.le_refl _, a2, b1⟩, by simp [Overload.type, Clause.type, b2], fun env s v hcf => ?_⟩
    simp only [List.map_cons, firstType, Clause.type, runClauses]
    split
    · simp only [Option.bind_some, execPick]
      rw [a3 (env.set nx v) s (set_c hcf hc hn), src_set hΓ env hn x v]
    · rw [← b3 env s v hcf]
      rcases firstType w v (cs.map Clause.type) with - | i <;> rfl
end

end Nbdl.Dsl
