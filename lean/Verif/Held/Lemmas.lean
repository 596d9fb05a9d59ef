import Verif.Held.Spec
namespace Nbdl.Held
variable {V : Type}

theorem chained_append {v w x : V} : ∀ {a b : List (Touch V)}, Chained v a w → Chained w b x → Chained v (a ++ b) x
  | [], b, h, k => by rw [Chained] at h; subst h; exact k
  | t :: a, b, h, k => ⟨h.1, chained_append h.2 k⟩

theorem touches_append (i : Nat) (a b : List (Touch V)) : touches i (a ++ b) = touches i a ++ touches i b := by
  simp [touches]

/-- What a piece of a run does to the cells: every value goes through the accesses. -/
def Moves (m m' : Cells V) (t : List (Touch V)) : Prop :=
  (∀ i v, m i = some v → ∃ w, m' i = some w ∧ Chained v (touches i t) w) ∧ (∀ i, m i = none → m' i = none)

theorem moves_refl (m : Cells V) : Moves m m [] := ⟨fun _ v h => ⟨v, h, rfl⟩, fun _ h => h⟩

theorem moves_trans {m m' m'' : Cells V} {t u : List (Touch V)} (h : Moves m m' t) (k : Moves m' m'' u) :
    Moves m m'' (t ++ u) := by
  refine ⟨fun i v hv => ?_, fun i hi => k.2 i (h.2 i hi)⟩
  obtain ⟨w, hw, c⟩ := h.1 i v hv
  obtain ⟨x, hx, d⟩ := k.1 i w hw
  exact ⟨x, hx, by rw [touches_append]; exact chained_append c d⟩

theorem access_moves {m m' : Cells V} {who : Nat} {a a' : Arg V} {f : V → V} {t : List (Touch V)}
    (h : access m who a f = .ok (m', a', t)) :
    Moves m m' t ∧ (∀ i, a' = .held i ↔ a = .held i) ∧
      ∀ x ∈ t, x.who = who ∧ a = .held x.cell ∧ x.left = f x.saw := by
  unfold access at h
  cases a with
  | temp v => cases h; exact ⟨moves_refl _, fun i => by simp, by simp⟩
  | held i =>
    cases e : m i with
    | none => simp only [e] at h; cases h
    | some v =>
      simp only [e] at h
      cases h
      refine ⟨⟨fun j w hw => ?_, fun j hj => ?_⟩, fun i => by simp, by simp⟩
      · by_cases hj : j = i
        · subst hj
          rw [e] at hw
          cases hw
          exact ⟨f v, by simp, by simp [touches, Chained]⟩
        · refine ⟨w, by simp [hj, hw], ?_⟩
          have : ¬ i = j := fun h => hj h.symm
          simp [touches, Chained, this]
      · have hi : j ≠ i := fun h => by subst h; rw [e] at hj; cases hj
        simp [hi, hj]

/-- What is referred to is there. -/
def Valid (m : Cells V) (a : Arg V) : Prop := ∀ i, a = .held i → m i ≠ none

theorem Moves.some {m m' : Cells V} {t : List (Touch V)} (h : Moves m m' t) {i : Nat} (hi : m i ≠ none) : m' i ≠ none := by
  cases e : m i with
  | none => exact absurd e hi
  | some v =>
    obtain ⟨w, hw, _⟩ := h.1 i v e
    rw [hw]; simp

theorem access_ok {m : Cells V} {a : Arg V} (h : Valid m a) (who : Nat) (f : V → V) :
    ∃ m' a' t, access m who a f = .ok (m', a', t) ∧ Valid m' a' := by
  unfold access
  cases a with
  | temp v => exact ⟨_, _, _, rfl, fun i e => by cases e⟩
  | held i =>
    have := h i rfl
    cases e : m i with
    | none => exact absurd e this
    | some v =>
      simp only [e]
      refine ⟨_, _, _, rfl, fun j k => ?_⟩
      cases k
      simp

theorem look_ok {m : Cells V} {a : Arg V} (h : Valid m a) : ∃ v, look m a = .ok v := by
  unfold look
  cases a with
  | temp v => exact ⟨v, rfl⟩
  | held i =>
    have := h i rfl
    cases e : m i with
    | none => exact absurd e this
    | some v => exact ⟨v, by simp only [e]⟩

/-- Every access was made by a step that may. -/
def Told (steps : List (Step V)) (ds : List (Done V)) (t : List (Touch V)) : Prop :=
  ∀ x ∈ t, Does steps ds x.who x.saw x.left

theorem pass_moves (all : List (Step V)) (ds : List (Done V)) : ∀ (rest : List (Step V)) (i : Nat) (m : Cells V)
    (a : Arg V) {m' : Cells V} {o : Out V} {t : List (Touch V)}, all.drop i = rest →
    pass rest i m a = .ok (m', o, t) → Moves m m' t ∧ Told all ds t := by
  intro rest
  induction rest with
  | nil => intro i m a m' o t _ h; cases h; exact ⟨moves_refl _, by simp [Told]⟩
  | cons s rest ih =>
    intro i m a m' o t hd h
    have hs : all[i]? = some s := by
      have := congrArg (·[0]?) hd
      simpa using this
    have hr : all.drop (i + 1) = rest := by
      have := congrArg (·.drop 1) hd
      simpa [List.drop_drop] using this
    cases s with
    | hold v => rw [pass] at h; exact ih _ _ _ hr h
    | op => rw [pass] at h; cases h; exact ⟨moves_refl _, by simp [Told]⟩
    | tap f =>
      rw [pass] at h
      cases e : access m i a f with
      | ub => rw [e] at h; cases h
      | ok r =>
        obtain ⟨m1, a1, t1⟩ := r
        rw [e] at h
        cases e2 : pass rest (i + 1) m1 a1 with
        | ub => simp only [e2] at h; cases h
        | ok r =>
          obtain ⟨m2, o2, t2⟩ := r
          simp only [e2] at h
          cases h
          have h1 := access_moves e
          have h2 := ih _ _ _ hr e2
          refine ⟨moves_trans h1.1 h2.1, fun x hx => ?_⟩
          rcases List.mem_append.1 hx with hx | hx
          · have := h1.2.2 x hx
            exact .inl ⟨f, by rw [this.1]; exact hs, this.2.2⟩
          · exact h2.2 x hx
    | func f g =>
      rw [pass] at h
      cases e0 : look m a with
      | ub => rw [e0] at h; cases h
      | ok v =>
      cases e : access m i a f with
      | ub => rw [e0, e] at h; cases h
      | ok r =>
        obtain ⟨m1, a1, t1⟩ := r
        rw [e0, e] at h
        cases e2 : pass rest (i + 1) m1 (handOn a1 (g v)) with
        | ub => simp only [e2] at h; cases h
        | ok r =>
          obtain ⟨m2, o2, t2⟩ := r
          simp only [e2] at h
          cases h
          have h1 := access_moves e
          have h2 := ih _ _ _ hr e2
          refine ⟨moves_trans h1.1 h2.1, fun x hx => ?_⟩
          rcases List.mem_append.1 hx with hx | hx
          · have := h1.2.2 x hx
            exact .inr (.inl ⟨f, g, by rw [this.1]; exact hs, this.2.2⟩)
          · exact h2.2 x hx

/-- An invariant of a run. -/
structure Inv (c : Config V) (ds : List (Done V)) (s : St V) : Prop where
  moves : Moves (cells c.steps) s.cells s.log
  told : Told c.steps ds s.log
  op : ∀ i a, s.wait = some (i, a) → c.steps[i]? = some .op

theorem pass_op (all : List (Step V)) : ∀ (rest : List (Step V)) (i : Nat) (m : Cells V)
    (a : Arg V) {m' : Cells V} {j : Nat} {b : Arg V} {t : List (Touch V)}, all.drop i = rest →
    pass rest i m a = .ok (m', .waiting j b, t) → all[j]? = some .op := by
  intro rest
  induction rest with
  | nil => intro i m a m' j b t _ h; cases h
  | cons s rest ih =>
    intro i m a m' j b t hd h
    have hs : all[i]? = some s := by
      have := congrArg (·[0]?) hd
      simpa using this
    have hr : all.drop (i + 1) = rest := by
      have := congrArg (·.drop 1) hd
      simpa [List.drop_drop] using this
    cases s with
    | hold v => rw [pass] at h; exact ih _ _ _ hr h
    | op => rw [pass] at h; cases h; exact hs
    | tap f =>
      rw [pass] at h
      cases e : access m i a f with
      | ub => rw [e] at h; cases h
      | ok r =>
        obtain ⟨m1, a1, t1⟩ := r
        rw [e] at h
        cases e2 : pass rest (i + 1) m1 a1 with
        | ub => simp only [e2] at h; cases h
        | ok r =>
          obtain ⟨m2, o2, t2⟩ := r
          simp only [e2] at h
          cases h
          exact ih _ _ _ hr e2
    | func f g =>
      rw [pass] at h
      cases e0 : look m a with
      | ub => rw [e0] at h; cases h
      | ok v =>
      cases e : access m i a f with
      | ub => rw [e0, e] at h; cases h
      | ok r =>
        obtain ⟨m1, a1, t1⟩ := r
        rw [e0, e] at h
        cases e2 : pass rest (i + 1) m1 (handOn a1 (g v)) with
        | ub => simp only [e2] at h; cases h
        | ok r =>
          obtain ⟨m2, o2, t2⟩ := r
          simp only [e2] at h
          cases h
          exact ih _ _ _ hr e2

theorem told_append {steps : List (Step V)} {ds : List (Done V)} {t u : List (Touch V)} (h : Told steps ds t)
    (k : Told steps ds u) : Told steps ds (t ++ u) := fun x hx => (List.mem_append.1 hx).elim (h x) (k x)

theorem told_mono {steps : List (Step V)} {ds es : List (Done V)} (hm : ∀ d ∈ ds, d ∈ es) {t : List (Touch V)}
    (h : Told steps ds t) : Told steps es t := fun x hx => by
  rcases h x hx with h | h | ⟨h, d, hd, r⟩
  · exact .inl h
  · exact .inr (.inl h)
  · exact .inr (.inr ⟨h, d, hm d hd, r⟩)

theorem finish_inv (c : Config V) (ds : List (Done V)) {log : List (Touch V)} {m : Cells V} {i : Nat} {a : Arg V}
    {r : Cells V × Out V × List (Touch V)} {s : St V} (h0 : Moves (cells c.steps) m log) (ht : Told c.steps ds log)
    (hp : pass (c.steps.drop i) i m a = .ok r) (h : finish c log r = .ok s) : Inv c ds s := by
  obtain ⟨m', o, t⟩ := r
  have hm := pass_moves c.steps ds _ _ _ _ rfl hp
  cases o with
  | waiting j b =>
    rw [finish] at h
    cases h
    refine ⟨moves_trans h0 hm.1, told_append ht hm.2, fun k x e => ?_⟩
    cases e
    exact pass_op c.steps _ _ _ _ rfl hp
  | ended b =>
    unfold finish at h
    by_cases hl : c.loop = true
    · simp only [hl, if_true] at h
      cases e : pass c.steps 0 m' b with
      | ub => simp only [e] at h; cases h
      | ok r =>
        obtain ⟨m2, o2, t2⟩ := r
        cases o2 with
        | ended b2 => simp only [e] at h; cases h
        | waiting j b2 =>
          simp only [e] at h
          cases h
          have hm2 := pass_moves c.steps ds _ 0 _ _ (by simp) e
          refine ⟨moves_trans (moves_trans h0 hm.1) hm2.1, told_append (told_append ht hm.2) hm2.2, fun k x e2 => ?_⟩
          cases e2
          exact pass_op c.steps _ 0 _ _ (by simp) e
    · simp only [hl] at h
      cases h
      exact ⟨moves_trans h0 hm.1, told_append ht hm.2, fun k x e => by cases e⟩

theorem start_inv (c : Config V) (v : V) {s : St V} (h : start c v = .ok s) : Inv c [] s := by
  unfold start at h
  cases e : pass c.steps 0 (cells c.steps) (.temp v) with
  | ub => rw [e] at h; cases h
  | ok r =>
    rw [e] at h
    exact finish_inv c [] (i := 0) (moves_refl _) (by simp [Told]) e h

theorem use_moves {m : Cells V} {who : Nat} {a : Option Nat} {f : Option (V → V)} {r : Cells V × List (Touch V)}
    (h : use m who a f = .ok r) :
    Moves m r.1 r.2 ∧ ∀ x ∈ r.2, x.who = who ∧ a = some x.cell ∧ ∃ g, f = some g ∧ x.left = g x.saw := by
  cases f with
  | none => cases a <;> (rw [use] at h; cases h; exact ⟨moves_refl _, by simp⟩)
  | some g =>
    cases a with
    | none => rw [use] at h; cases h
    | some i =>
      rw [use] at h
      cases e : access m who (.held i) g with
      | ub => rw [e] at h; cases h
      | ok q =>
        obtain ⟨m', a', t⟩ := q
        rw [e] at h
        cases h
        have := access_moves e
        refine ⟨this.1, fun x hx => ?_⟩
        obtain ⟨p, q, r⟩ := this.2.2 x hx
        cases q
        exact ⟨p, rfl, g, rfl, r⟩

theorem settle_inv (c : Config V) (ds : List (Done V)) {s s' : St V} {d : Done V} (hi : Inv c ds s)
    (h : settle c s d = .ok s') : Inv c (ds ++ [d]) s' := by
  have told' : Told c.steps (ds ++ [d]) s.log := told_mono (fun x hx => by simp [hx]) hi.told
  unfold settle at h
  cases w : s.wait with
  | none => rw [w] at h; cases h; exact ⟨hi.moves, told', hi.op⟩
  | some p =>
    obtain ⟨i, a⟩ := p
    rw [w] at h
    cases u : use s.cells i a d.change with
    | ub => simp only [u] at h; cases h
    | ok r =>
      simp only [u, Cpp.bind] at h
      have hu := use_moves u
      have m0 : Moves (cells c.steps) r.1 (s.log ++ r.2) := moves_trans hi.moves hu.1
      have t0 : Told c.steps (ds ++ [d]) (s.log ++ r.2) := by
        refine told_append told' fun x hx => ?_
        obtain ⟨p, _, g, q, r⟩ := hu.2 x hx
        exact .inr (.inr ⟨by rw [p]; exact hi.op i a w, d, by simp, g, q, r⟩)
      cases n : d.next with
      | stop =>
        rw [n] at h
        cases h
        exact ⟨m0, t0, fun k x e => by cases e⟩
      | fresh v =>
        rw [n] at h
        cases e : pass (c.steps.drop (i + 1)) (i + 1) r.1 (.temp v) with
        | ub => simp only [e] at h; cases h
        | ok q =>
          simp only [e] at h
          exact finish_inv c _ m0 t0 e h
      | same =>
        rw [n] at h
        cases a with
        | none => cases h
        | some j =>
          cases e : pass (c.steps.drop (i + 1)) (i + 1) r.1 (.held j) with
          | ub => simp only [e] at h; cases h
          | ok q =>
            simp only [e] at h
            exact finish_inv c _ m0 t0 e h

theorem settles_inv (c : Config V) : ∀ (es ds : List (Done V)) {s s' : St V}, Inv c ds s →
    settles c es s = .ok s' → Inv c (ds ++ es) s'
  | [], ds, s, s', hi, h => by cases h; simpa using hi
  | e :: es, ds, s, s', hi, h => by
    rw [settles] at h
    cases q : settle c s e with
    | ub => rw [q] at h; cases h
    | ok s1 =>
      rw [q] at h
      have := settles_inv c es (ds ++ [e]) (settle_inv c ds hi q) h
      simpa using this

theorem run_inv (c : Config V) (v : V) (ds : List (Done V)) {s : St V} (h : run c v ds = .ok s) : Inv c ds s := by
  unfold run at h
  cases e : start c v with
  | ub => rw [e] at h; cases h
  | ok s0 =>
    rw [e] at h
    have := settles_inv c ds [] (start_inv c v e) h
    simpa using this

/-! ## Who is given what -/

def Near (c : Config V) (i : Nat) (a : Arg V) : Prop := ∀ j, a = .held j → Nearest c j i

theorem near_next {c : Config V} {i : Nat} {a : Arg V} (h : Near c i a) (hi : ¬ Holds c.steps i) : Near c (i + 1) a := by
  intro j e
  obtain ⟨hj, h⟩ := h j e
  refine ⟨hj, ?_⟩
  rcases h with ⟨hl, hk⟩ | ⟨hl, hk, hr⟩
  · refine .inl ⟨by omega, fun k a b => ?_⟩
    by_cases e : k = i
    · subst e; exact hi
    · exact hk k a (by omega)
  · refine .inr ⟨hl, fun k b => ?_, hr⟩
    by_cases e : k = i
    · subst e; exact hi
    · exact hk k (by omega)

theorem near_hold {c : Config V} {i : Nat} (hi : Holds c.steps i) : Near c (i + 1) (.held i) := by
  intro j e
  cases e
  exact ⟨hi, .inl ⟨by omega, fun k a b => by omega⟩⟩

theorem near_end {c : Config V} (hl : c.loop = true) {a : Arg V} (h : Near c c.steps.length a) : Near c 0 a := by
  intro j e
  obtain ⟨hj, h⟩ := h j e
  refine ⟨hj, .inr ⟨hl, fun k b => by omega, fun k a => ?_⟩⟩
  rcases h with ⟨_, hk⟩ | ⟨_, _, hr⟩
  · by_cases hb : k < c.steps.length
    · exact hk k a hb
    · rintro ⟨v, e⟩
      have := (List.getElem?_eq_some_iff.1 e).1
      omega
  · exact hr k a

theorem near_temp (c : Config V) (i : Nat) (v : V) : Near c i (.temp v) := fun _ e => by cases e

theorem near_access {c : Config V} {m m' : Cells V} {i : Nat} {a a' : Arg V} {f : V → V} {t : List (Touch V)}
    (h : Near c i a) (e : access m i a f = .ok (m', a', t)) :
    Near c i a' ∧ ∀ x ∈ t, Nearest c x.cell x.who := by
  have am := access_moves e
  refine ⟨fun j k => h j ((am.2.1 j).1 k), fun x hx => ?_⟩
  obtain ⟨p, q, _⟩ := am.2.2 x hx
  rw [p]
  exact h _ q

theorem pass_near (c : Config V) : ∀ (rest : List (Step V)) (i : Nat) (m : Cells V) (a : Arg V) {m' : Cells V} {o : Out V}
    {t : List (Touch V)}, c.steps.drop i = rest → i ≤ c.steps.length → Near c i a → pass rest i m a = .ok (m', o, t) →
    (∀ x ∈ t, Nearest c x.cell x.who) ∧ (∀ j b, o = .waiting j b → Near c j b) ∧
      (∀ b, o = .ended b → Near c c.steps.length b) := by
  intro rest
  induction rest with
  | nil =>
    intro i m a m' o t hd hle hn h
    cases h
    have : i = c.steps.length := by
      have := congrArg List.length hd
      simp at this
      omega
    subst this
    exact ⟨by simp, fun _ _ e => (by cases e), fun b e => by cases e; exact hn⟩
  | cons s rest ih =>
    intro i m a m' o t hd hle hn h
    have hs : c.steps[i]? = some s := by
      have := congrArg (·[0]?) hd
      simpa using this
    have hlt : i + 1 ≤ c.steps.length := (List.getElem?_eq_some_iff.1 hs).1
    have hr : c.steps.drop (i + 1) = rest := by
      have := congrArg (·.drop 1) hd
      simpa [List.drop_drop] using this
    cases s with
    | hold v => rw [pass] at h; exact ih _ _ _ hr hlt (near_hold ⟨v, hs⟩) h
    | op => rw [pass] at h; cases h; exact ⟨by simp, fun _ _ e => (by cases e; exact hn), fun b e => by cases e⟩
    | tap f =>
      have hh : ¬ Holds c.steps i := fun ⟨v, e⟩ => by rw [hs] at e; cases e
      rw [pass] at h
      cases e : access m i a f with
      | ub => rw [e] at h; cases h
      | ok r =>
        obtain ⟨m1, a1, t1⟩ := r
        rw [e] at h
        cases e2 : pass rest (i + 1) m1 a1 with
        | ub => simp only [e2] at h; cases h
        | ok r =>
          obtain ⟨m2, o2, t2⟩ := r
          simp only [e2] at h
          cases h
          have h1 := near_access hn e
          have h2 := ih _ _ _ hr hlt (near_next h1.1 hh) e2
          exact ⟨fun x hx => (List.mem_append.1 hx).elim (h1.2 x) (h2.1 x), h2.2⟩
    | func f g =>
      have hh : ¬ Holds c.steps i := fun ⟨v, e⟩ => by rw [hs] at e; cases e
      rw [pass] at h
      cases e0 : look m a with
      | ub => rw [e0] at h; cases h
      | ok v =>
      cases e : access m i a f with
      | ub => rw [e0, e] at h; cases h
      | ok r =>
        obtain ⟨m1, a1, t1⟩ := r
        rw [e0, e] at h
        cases e2 : pass rest (i + 1) m1 (handOn a1 (g v)) with
        | ub => simp only [e2] at h; cases h
        | ok r =>
          obtain ⟨m2, o2, t2⟩ := r
          simp only [e2] at h
          cases h
          have h1 := near_access hn e
          have hx : Near c (i + 1) (handOn a1 (g v)) := by
            cases g v with
            | fresh w => exact near_temp c _ w
            | same => exact near_next h1.1 hh
          have h2 := ih _ _ _ hr hlt hx e2
          exact ⟨fun x hx => (List.mem_append.1 hx).elim (h1.2 x) (h2.1 x), h2.2⟩

structure NearInv (c : Config V) (s : St V) : Prop where
  log : ∀ x ∈ s.log, Nearest c x.cell x.who
  wait : ∀ i j, s.wait = some (i, some j) → Nearest c j i

theorem near_kept {c : Config V} {i : Nat} {a : Arg V} (h : Near c i a) {j : Nat} (e : a.kept = some j) :
    Nearest c j i := by
  cases a with
  | temp v => cases e
  | held k => cases e; exact h j rfl

theorem finish_near (c : Config V) {log : List (Touch V)} {m : Cells V} {i : Nat} {a : Arg V}
    {r : Cells V × Out V × List (Touch V)} {s : St V} (hl : ∀ x ∈ log, Nearest c x.cell x.who) (hle : i ≤ c.steps.length)
    (hn : Near c i a) (hp : pass (c.steps.drop i) i m a = .ok r) (h : finish c log r = .ok s) : NearInv c s := by
  obtain ⟨m', o, t⟩ := r
  obtain ⟨pl, pw, pe⟩ := pass_near c _ _ _ _ rfl hle hn hp
  cases o with
  | waiting j b =>
    rw [finish] at h
    cases h
    refine ⟨fun x hx => (List.mem_append.1 hx).elim (hl x) (pl x), fun k x e => ?_⟩
    simp only [Option.some.injEq, Prod.mk.injEq] at e
    obtain ⟨rfl, e⟩ := e
    exact near_kept (pw _ _ rfl) e
  | ended b =>
    unfold finish at h
    by_cases hll : c.loop = true
    · simp only [hll, if_true] at h
      cases e : pass c.steps 0 m' b with
      | ub => simp only [e] at h; cases h
      | ok r =>
        obtain ⟨m2, o2, t2⟩ := r
        cases o2 with
        | ended b2 => simp only [e] at h; cases h
        | waiting j b2 =>
          simp only [e] at h
          cases h
          obtain ⟨ql, qw, _⟩ := pass_near c _ 0 _ _ (by simp) (by omega) (near_end hll (pe b rfl)) e
          refine ⟨fun x hx => (List.mem_append.1 hx).elim (fun hx => (List.mem_append.1 hx).elim (hl x) (pl x)) (ql x),
            fun k x e => ?_⟩
          simp only [Option.some.injEq, Prod.mk.injEq] at e
          obtain ⟨rfl, e⟩ := e
          exact near_kept (qw _ _ rfl) e
    · simp only [hll] at h
      cases h
      exact ⟨fun x hx => (List.mem_append.1 hx).elim (hl x) (pl x), fun k x e => by cases e⟩

theorem settle_near (c : Config V) {s s' : St V} {d : Done V} (hn : NearInv c s)
    (ho : ∀ i a, s.wait = some (i, a) → c.steps[i]? = some .op) (h : settle c s d = .ok s') : NearInv c s' := by
  unfold settle at h
  cases w : s.wait with
  | none => rw [w] at h; cases h; exact hn
  | some p =>
    obtain ⟨i, a⟩ := p
    have hop := ho i a w
    have hlt : i + 1 ≤ c.steps.length := (List.getElem?_eq_some_iff.1 hop).1
    have hh : ¬ Holds c.steps i := fun ⟨v, e⟩ => by rw [hop] at e; cases e
    rw [w] at h
    cases u : use s.cells i a d.change with
    | ub => simp only [u] at h; cases h
    | ok r =>
      simp only [u, Cpp.bind] at h
      have hu := use_moves u
      have l0 : ∀ x ∈ s.log ++ r.2, Nearest c x.cell x.who := fun x hx => by
        rcases List.mem_append.1 hx with hx | hx
        · exact hn.log x hx
        · obtain ⟨p, q, _⟩ := hu.2 x hx
          rw [p]
          exact hn.wait i _ (by rw [w, q])
      cases n : d.next with
      | stop =>
        rw [n] at h
        cases h
        exact ⟨l0, fun k x e => by cases e⟩
      | fresh v =>
        rw [n] at h
        cases e : pass (c.steps.drop (i + 1)) (i + 1) r.1 (.temp v) with
        | ub => simp only [e] at h; cases h
        | ok q =>
          simp only [e] at h
          exact finish_near c l0 hlt (near_temp c _ v) e h
      | same =>
        rw [n] at h
        cases a with
        | none => cases h
        | some j =>
          cases e : pass (c.steps.drop (i + 1)) (i + 1) r.1 (.held j) with
          | ub => simp only [e] at h; cases h
          | ok q =>
            simp only [e] at h
            exact finish_near c l0 hlt
              (near_next (a := .held j) (fun k e => by cases e; exact hn.wait i j w) hh) e h

theorem settles_near (c : Config V) : ∀ (es ds : List (Done V)) {s s' : St V}, Inv c ds s → NearInv c s →
    settles c es s = .ok s' → NearInv c s'
  | [], ds, s, s', hi, hn, h => by cases h; exact hn
  | e :: es, ds, s, s', hi, hn, h => by
    rw [settles] at h
    cases q : settle c s e with
    | ub => rw [q] at h; cases h
    | ok s1 =>
      rw [q] at h
      exact settles_near c es (ds ++ [e]) (settle_inv c ds hi q) (settle_near c hn hi.op q) h

theorem run_near (c : Config V) (v : V) (ds : List (Done V)) {s : St V} (h : run c v ds = .ok s) : NearInv c s := by
  unfold run at h
  cases e : start c v with
  | ub => rw [e] at h; cases h
  | ok s0 =>
    rw [e] at h
    have hn : NearInv c s0 := by
      unfold start at e
      cases e2 : pass c.steps 0 (cells c.steps) (.temp v) with
      | ub => rw [e2] at e; cases e
      | ok r =>
        rw [e2] at e
        exact finish_near c (i := 0) (by simp) (by omega) (near_temp c 0 v) e2 e
    exact settles_near c ds [] (start_inv c v e) hn h

/-! ## No use of what is gone -/

def Arg.isHeld : Arg V → Bool
  | .held _ => true
  | .temp _ => false

/-- All values of `hold` steps from `i` on are there. -/
def There (m : Cells V) (i : Nat) (rest : List (Step V)) : Prop :=
  ∀ j v, rest[j]? = some (.hold v) → m (i + j) ≠ none

theorem There.tail {m : Cells V} {i : Nat} {s : Step V} {rest : List (Step V)} (h : There m i (s :: rest)) :
    There m (i + 1) rest := fun j v e => by
  have := h (j + 1) v (by simpa using e)
  rwa [show i + (j + 1) = i + 1 + j by omega] at this

theorem There.moves {m m' : Cells V} {t : List (Touch V)} (k : Moves m m' t) {i : Nat} {rest : List (Step V)}
    (h : There m i rest) : There m' i rest := fun j v e => k.some (h j v e)

theorem good_weaken : ∀ (rest : List (Step V)), Good false rest → Good true rest
  | [], _ => trivial
  | .hold _ :: rest, h => h
  | .tap _ :: rest, h => good_weaken rest h
  | .func _ g :: rest, h => ⟨fun k => good_weaken rest (h.1 k), h.2⟩
  | .op :: rest, h => by simp [Good] at h

theorem good_mono {a b : Bool} (hab : a = true → b = true) {rest : List (Step V)} (h : Good a rest) : Good b rest := by
  cases a <;> cases b
  · exact h
  · exact good_weaken _ h
  · exact absurd (hab rfl) (by simp)
  · exact h

theorem good_drop : ∀ (rest : List (Step V)) (h : Bool) (i : Nat), Good h rest → rest[i]? = some .op →
    Good false (rest.drop (i + 1))
  | [], _, _, _, e => by simp at e
  | .op :: rest, h, 0, g, _ => by simpa using g.2
  | .hold _ :: rest, h, 0, g, e => by simp at e
  | .tap _ :: rest, h, 0, g, e => by simp at e
  | .func _ _ :: rest, h, 0, g, e => by simp at e
  | .op :: rest, h, i + 1, g, e => by simpa using good_drop rest false i g.2 (by simpa using e)
  | .hold _ :: rest, h, i + 1, g, e => by simpa using good_drop rest true i g (by simpa using e)
  | .tap _ :: rest, h, i + 1, g, e => by simpa using good_drop rest h i g (by simpa using e)
  | .func _ k :: rest, h, i + 1, g, e => by
    by_cases hk : ∀ v, k v = .same
    · simpa using good_drop rest h i (g.1 hk) (by simpa using e)
    · simpa using good_drop rest false i (g.2 hk) (by simpa using e)

theorem pass_good : ∀ (rest : List (Step V)) (i : Nat) (m : Cells V) (a : Arg V) (h : Bool),
    (h = true → a.isHeld = true) → Good h rest → Valid m a → There m i rest →
    ∃ m' o t, pass rest i m a = .ok (m', o, t) ∧
      (∀ j b, o = .waiting j b → Valid m' b ∧ b.isHeld = true) ∧ (∀ b, o = .ended b → Valid m' b)
  | [], i, m, a, h, ha, hg, hv, ht => ⟨m, _, _, rfl, ⟨fun _ _ e => (by cases e), fun b e => by cases e; exact hv⟩⟩
  | .hold v :: rest, i, m, a, h, ha, hg, hv, ht => by
    rw [pass]
    refine pass_good rest (i + 1) m (.held i) true (fun _ => rfl) hg (fun j e => ?_) ht.tail
    cases e
    have := ht 0 v (by simp)
    simpa using this
  | .op :: rest, i, m, a, h, ha, hg, hv, ht =>
    ⟨m, _, _, rfl, ⟨fun _ _ e => by cases e; exact ⟨hv, ha hg.1⟩, fun b e => by cases e⟩⟩
  | .tap f :: rest, i, m, a, h, ha, hg, hv, ht => by
    obtain ⟨m1, a1, t1, e, v1⟩ := access_ok hv i f
    have am := access_moves e
    have hh : h = true → a1.isHeld = true := fun hh => by
      cases a with
      | temp _ => exact absurd (ha hh) (by simp [Arg.isHeld])
      | held j => rw [(am.2.1 j).2 rfl]; rfl
    obtain ⟨m2, o, t2, e2, r⟩ := pass_good rest (i + 1) m1 a1 h hh hg v1 (ht.tail.moves am.1)
    exact ⟨m2, o, t1 ++ t2, by rw [pass, e]; simp only [e2]; rfl, r⟩
  | .func f g :: rest, i, m, a, h, ha, hg, hv, ht => by
    obtain ⟨v, e0⟩ := look_ok hv
    obtain ⟨m1, a1, t1, e, v1⟩ := access_ok hv i f
    have am := access_moves e
    have hh : h = true → a1.isHeld = true := fun hh => by
      cases a with
      | temp _ => exact absurd (ha hh) (by simp [Arg.isHeld])
      | held j => rw [(am.2.1 j).2 rfl]; rfl
    have v2 : Valid m1 (handOn a1 (g v)) := by
      cases g v with
      | fresh w => intro j k; cases k
      | same => exact v1
    have : ∃ m' o t, pass rest (i + 1) m1 (handOn a1 (g v)) = .ok (m', o, t) ∧
      (∀ j b, o = .waiting j b → Valid m' b ∧ b.isHeld = true) ∧ (∀ b, o = .ended b → Valid m' b) := by
      by_cases hk : ∀ v, g v = .same
      · have e3 : handOn a1 (g v) = a1 := by rw [hk v]; rfl
        exact pass_good rest (i + 1) m1 _ h (by rw [e3]; exact hh) (hg.1 hk) v2 (ht.tail.moves am.1)
      · exact pass_good rest (i + 1) m1 _ false (by simp) (hg.2 hk) v2 (ht.tail.moves am.1)
    obtain ⟨m2, o, t2, e2, r⟩ := this
    exact ⟨m2, o, t1 ++ t2, by rw [pass, e0, e]; simp only [e2]; rfl, r⟩

/-- A pass over a pipeline that has an operation comes to one. -/
theorem pass_waits : ∀ (rest : List (Step V)) (i : Nat) (m : Cells V) (a : Arg V) {m' : Cells V} {o : Out V}
    {t : List (Touch V)}, Step.op ∈ rest → pass rest i m a = .ok (m', o, t) → ∃ j b, o = .waiting j b := by
  intro rest
  induction rest with
  | nil => intro i m a m' o t h; simp at h
  | cons s rest ih =>
    intro i m a m' o t hop h
    cases s with
    | hold v => rw [pass] at h; exact ih _ _ _ (by simpa using hop) h
    | op => rw [pass] at h; cases h; exact ⟨_, _, rfl⟩
    | tap f =>
      rw [pass] at h
      cases e : access m i a f with
      | ub => rw [e] at h; cases h
      | ok r =>
        obtain ⟨m1, a1, t1⟩ := r
        rw [e] at h
        cases e2 : pass rest (i + 1) m1 a1 with
        | ub => simp only [e2] at h; cases h
        | ok r =>
          obtain ⟨m2, o2, t2⟩ := r
          simp only [e2] at h
          cases h
          exact ih _ _ _ (by simpa using hop) e2
    | func f g =>
      rw [pass] at h
      cases e0 : look m a with
      | ub => rw [e0] at h; cases h
      | ok v =>
      cases e : access m i a f with
      | ub => rw [e0, e] at h; cases h
      | ok r =>
        obtain ⟨m1, a1, t1⟩ := r
        rw [e0, e] at h
        cases e2 : pass rest (i + 1) m1 (handOn a1 (g v)) with
        | ub => simp only [e2] at h; cases h
        | ok r =>
          obtain ⟨m2, o2, t2⟩ := r
          simp only [e2] at h
          cases h
          exact ih _ _ _ (by simpa using hop) e2

/-- What is waited for can be completed. -/
structure Safe (c : Config V) (s : St V) : Prop where
  there : There s.cells 0 c.steps
  wait : ∀ i a, s.wait = some (i, a) → c.steps[i]? = some .op ∧ ∃ j, a = some j ∧ s.cells j ≠ none

theorem there_drop {m : Cells V} {steps : List (Step V)} (h : There m 0 steps) (i : Nat) : There m i (steps.drop i) :=
  fun j v e => by
    have := h (i + j) v (by simpa using e)
    simpa using this

theorem finish_safe (c : Config V) (hg : Good false c.steps) (hl : c.loop = true → Step.op ∈ c.steps) (log : List (Touch V))
    {m m0 : Cells V} {i : Nat} {a : Arg V} {o : Out V} {t : List (Touch V)}
    (ht : There m0 0 c.steps) (hp : pass (c.steps.drop i) i m0 a = .ok (m, o, t))
    (hw : ∀ j b, o = .waiting j b → Valid m b ∧ b.isHeld = true) (he : ∀ b, o = .ended b → Valid m b) :
    ∃ s, finish c log (m, o, t) = .ok s ∧ Safe c s := by
  have hm := pass_moves c.steps [] _ _ _ _ rfl hp
  have ht' : There m 0 c.steps := ht.moves hm.1
  have waits : ∀ {m : Cells V} {b : Arg V}, Valid m b → b.isHeld = true → ∃ j, b.kept = some j ∧ m j ≠ none := by
    intro m b hv hh
    cases b with
    | temp _ => exact absurd hh (by simp [Arg.isHeld])
    | held j => exact ⟨j, rfl, hv j rfl⟩
  cases o with
  | waiting j b =>
    refine ⟨_, rfl, ht', fun k x e => ?_⟩
    cases e
    exact ⟨pass_op c.steps _ _ _ _ rfl hp, waits (hw j b rfl).1 (hw j b rfl).2⟩
  | ended b =>
    unfold finish
    by_cases hll : c.loop = true
    · simp only [hll, if_true]
      obtain ⟨m2, o2, t2, e2, w2, _⟩ := pass_good c.steps 0 m b false (by simp) hg (he b rfl) ht'
      obtain ⟨j, b2, ho⟩ := pass_waits c.steps 0 m b (hl hll) e2
      subst ho
      simp only [e2]
      refine ⟨_, rfl, ht'.moves (pass_moves c.steps [] _ 0 _ _ (by simp) e2).1, fun k x e => ?_⟩
      cases e
      exact ⟨pass_op c.steps _ 0 _ _ (by simp) e2, waits (w2 j b2 rfl).1 (w2 j b2 rfl).2⟩
    · simp only [hll]
      exact ⟨_, rfl, ht', fun k x e => by cases e⟩

theorem there_cells (steps : List (Step V)) : There (cells steps) 0 steps := fun j v e => by
  simp [cells, e]

theorem start_safe (c : Config V) (hg : Good false c.steps) (hl : c.loop = true → Step.op ∈ c.steps) (v : V) :
    ∃ s, start c v = .ok s ∧ Safe c s := by
  obtain ⟨m, o, t, e, w, en⟩ := pass_good c.steps 0 (cells c.steps) (.temp v) false (by simp) hg
    (fun i k => by cases k) (there_cells _)
  obtain ⟨s, hs, h⟩ := finish_safe c hg hl [] (i := 0) (there_cells _) (by simpa using e) w en
  exact ⟨s, by rw [start, e]; exact hs, h⟩

theorem settle_safe (c : Config V) (hg : Good false c.steps) (hl : c.loop = true → Step.op ∈ c.steps) {s : St V}
    (hs : Safe c s) (d : Done V) : ∃ s', settle c s d = .ok s' ∧ Safe c s' := by
  unfold settle
  cases w : s.wait with
  | none => exact ⟨s, rfl, hs⟩
  | some p =>
    obtain ⟨i, a⟩ := p
    obtain ⟨hop, j, ha, hj⟩ := hs.wait i a w
    subst ha
    have : ∃ r, use s.cells i (some j) d.change = .ok r := by
      cases d.change with
      | none => exact ⟨_, rfl⟩
      | some f =>
        obtain ⟨m, a, t, e, _⟩ := access_ok (a := .held j) (fun k e => by cases e; exact hj) i f
        exact ⟨_, by rw [use, e]; rfl⟩
    obtain ⟨r, u⟩ := this
    have hu := (use_moves u).1
    have gd := good_drop c.steps false i hg hop
    have th := hs.there.moves hu
    simp only [u, Cpp.bind]
    cases n : d.next with
    | stop => exact ⟨_, rfl, th, fun k x e => by cases e⟩
    | fresh v =>
      obtain ⟨m, o, t, e, w, en⟩ := pass_good _ (i + 1) r.1 (.temp v) false (by simp) gd
        (fun i k => by cases k) (there_drop th (i + 1))
      simp only [e]
      exact finish_safe c hg hl _ th e w en
    | same =>
      obtain ⟨m, o, t, e, w, en⟩ := pass_good _ (i + 1) r.1 (.held j) false (by simp) gd
        (fun k x => by cases x; exact hu.some hj) (there_drop th (i + 1))
      simp only [e]
      exact finish_safe c hg hl _ th e w en

theorem settles_safe (c : Config V) (hg : Good false c.steps) (hl : c.loop = true → Step.op ∈ c.steps) :
    ∀ (ds : List (Done V)) {s : St V}, Safe c s → ∃ s', settles c ds s = .ok s' ∧ Safe c s'
  | [], s, h => ⟨s, rfl, h⟩
  | d :: ds, s, h => by
    obtain ⟨s1, e, h1⟩ := settle_safe c hg hl h d
    rw [settles, e]
    exact settles_safe c hg hl ds h1

end Nbdl.Held
