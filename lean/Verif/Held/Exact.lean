import Verif.Held.Props
/-!
# C141: exactly which pipelines hand nothing to an operation that is gone when it completes

In C++ it is settled by its type whether a function returns a value or a reference (`Uniform`).
-/
namespace Nbdl.Held
variable {V : Type}

/-- Each function always returns a value, or always a reference to its argument. -/
def Uniform (steps : List (Step V)) : Prop :=
  ∀ f g, Step.func f g ∈ steps → (∀ v, g v = .same) ∨ ∀ v, ∃ w, g v = .fresh w

theorem finish_append (c : Config V) (log t u : List (Touch V)) (m : Cells V) (o : Out V) :
    finish c log (m, o, t ++ u) = finish c (log ++ t) (m, o, u) := by
  cases o with
  | waiting i a => simp only [finish, List.append_assoc]
  | ended a => simp only [finish, List.append_assoc]

theorem map_finish (c : Config V) (log t : List (Touch V)) (r : Cpp (Cells V × Out V × List (Touch V))) :
    (r.map fun r => (r.1, r.2.1, t ++ r.2.2)).bind (finish c log) = r.bind (finish c (log ++ t)) := by
  cases r with
  | ub => rfl
  | ok r => exact finish_append c log t r.2.2 r.1 r.2.1

/-- The values that the steps hold are there. -/
def Full (steps : List (Step V)) (m : Cells V) : Prop := ∀ i x, steps[i]? = some (.hold x) → m i ≠ none

theorem access_held {m m' : Cells V} {who : Nat} {a a' : Arg V} {f : V → V} {t : List (Touch V)}
    (h : access m who a f = .ok (m', a', t)) : a'.isHeld = a.isHeld := by
  unfold access at h
  cases a with
  | temp v => cases h; rfl
  | held i =>
    cases e : m i with
    | none => simp only [e] at h; cases h
    | some v => simp only [e] at h; cases h; rfl

theorem access_full {steps : List (Step V)} {m m' : Cells V} {who : Nat} {a a' : Arg V} {f : V → V}
    {t : List (Touch V)} (h : access m who a f = .ok (m', a', t)) (hf : Full steps m) : Full steps m' :=
  fun i x hi => (access_moves h).1.some (hf i x hi)

/-- A pipeline that is not good goes wrong in some run, and does so in the first pass. -/
theorem not_good_fails (c : Config V) (v : V) (hu : Uniform c.steps) : ∀ (rest : List (Step V)) (i : Nat) (m : Cells V)
    (a : Arg V) (log : List (Touch V)), c.steps.drop i = rest → Full c.steps m → Valid m a → ¬ Good a.isHeld rest →
    ∃ ds, ((pass rest i m a).bind (finish c log)).bind (settles c ds) = .ub := by
  intro rest
  induction rest with
  | nil => intro i m a log _ _ _ hg; exact absurd trivial (by simpa [Good] using hg)
  | cons s rest ih =>
    intro i m a log hd hf hv hg
    have hs : c.steps[i]? = some s := by
      have := congrArg (·[0]?) hd
      simpa using this
    have hr : c.steps.drop (i + 1) = rest := by
      have := congrArg (·.drop 1) hd
      simpa [List.drop_drop] using this
    cases s with
    | hold x =>
      rw [Good] at hg
      rw [pass]
      exact ih (i + 1) m (.held i) log hr hf (fun j e => by cases e; exact hf i x hs) hg
    | op =>
      rw [Good] at hg
      cases a with
      | temp w => exact ⟨[⟨some id, .stop⟩], rfl⟩
      | held j =>
        obtain ⟨ds, h⟩ := ih (i + 1) m (.temp v) (log ++ [] ++ []) hr hf (fun j e => by cases e)
          (fun k => hg ⟨rfl, k⟩)
        refine ⟨⟨none, .fresh v⟩ :: ds, ?_⟩
        rw [← hr] at h
        exact h
    | tap f =>
      rw [Good] at hg
      rw [pass]
      obtain ⟨m', a', t, e, hv'⟩ := access_ok hv i f
      rw [e]
      simp only []
      rw [map_finish]
      exact ih (i + 1) m' a' (log ++ t) hr (access_full e hf) hv' (by rw [access_held e]; exact hg)
    | func f g =>
      rw [pass]
      obtain ⟨w, ew⟩ := look_ok hv
      obtain ⟨m', a', t, e, hv'⟩ := access_ok hv i f
      rw [ew, e]
      simp only []
      rw [map_finish]
      have hmem : Step.func f g ∈ c.steps := List.mem_of_getElem? hs
      rw [Good] at hg
      rcases hu f g hmem with h | h
      · rw [h w]
        refine ih (i + 1) m' _ (log ++ t) hr (access_full e hf) hv' ?_
        rw [show handOn a' (Ret.same : Ret V) = a' from rfl, access_held e]
        intro k
        exact hg ⟨fun _ => k, fun n => absurd h n⟩
      · obtain ⟨x, hx⟩ := h w
        rw [hx]
        refine ih (i + 1) m' _ (log ++ t) hr (access_full e hf) (fun j e => by cases e) ?_
        intro k
        refine hg ⟨fun n => ?_, fun _ => k⟩
        rw [n w] at hx
        cases hx

/-- Without operations a pass comes to its end. -/
theorem pass_no_op : ∀ (rest : List (Step V)) (i : Nat) (m : Cells V) (a : Arg V), Step.op ∉ rest →
    ∀ m' j b t, pass rest i m a ≠ .ok (m', .waiting j b, t) := by
  intro rest
  induction rest with
  | nil => intro i m a _ m' j b t h; cases h
  | cons s rest ih =>
    intro i m a hn m' j b t h
    have hn' : Step.op ∉ rest := fun k => hn (List.mem_cons_of_mem _ k)
    cases s with
    | hold v => rw [pass] at h; exact ih _ _ _ hn' _ _ _ _ h
    | op => exact hn List.mem_cons_self
    | tap f =>
      rw [pass] at h
      cases e : access m i a f with
      | ub => rw [e] at h; cases h
      | ok r =>
        obtain ⟨m1, a1, t1⟩ := r
        rw [e] at h
        cases e2 : pass rest (i + 1) m1 a1 with
        | ub => simp only [e2] at h; cases h
        | ok r =>
          obtain ⟨m2, o2, t2⟩ := r
          simp only [e2] at h
          cases h
          exact ih _ _ _ hn' _ _ _ _ e2
    | func f g =>
      rw [pass] at h
      cases e0 : look m a with
      | ub => rw [e0] at h; cases h
      | ok v =>
      cases e : access m i a f with
      | ub => rw [e0, e] at h; cases h
      | ok r =>
        obtain ⟨m1, a1, t1⟩ := r
        rw [e0, e] at h
        cases e2 : pass rest (i + 1) m1 (handOn a1 (g v)) with
        | ub => simp only [e2] at h; cases h
        | ok r =>
          obtain ⟨m2, o2, t2⟩ := r
          simp only [e2] at h
          cases h
          exact ih _ _ _ hn' _ _ _ _ e2

theorem loop_no_op (c : Config V) (hl : c.loop = true) (hn : Step.op ∉ c.steps) (v : V) : run c v [] = .ub := by
  have e : start c v = .ub := by
    rw [start]
    cases e1 : pass c.steps 0 (cells c.steps) (.temp v) with
    | ub => rfl
    | ok r =>
      obtain ⟨m, o, t⟩ := r
      cases o with
      | waiting j b => exact absurd e1 (pass_no_op _ _ _ _ hn _ _ _ _)
      | ended a =>
        simp only [Cpp.bind, finish, hl, if_true]
        cases e2 : pass c.steps 0 m a with
        | ub => rfl
        | ok r =>
          obtain ⟨m', o', t'⟩ := r
          cases o' with
          | waiting j b => exact absurd e2 (pass_no_op _ _ _ _ hn _ _ _ _)
          | ended a => rfl
  rw [run, e]
  rfl

/-- C141, exactly: the pipelines whose operations may complete in any way, and look at what they were given, are those
all of whose operations are given what the pipeline holds; a loop needs an operation, too.  What counts is the nearest
step before an operation that holds something, returns a value or is itself an operation: it has to be a `hold`. -/
theorem held_exact [Nonempty V] (c : Config V) (hu : Uniform c.steps) :
    (∀ v ds, ∃ s, run c v ds = .ok s) ↔ Good false c.steps ∧ (c.loop = true → Step.op ∈ c.steps) := by
  constructor
  · intro h
    obtain ⟨v⟩ := (inferInstance : Nonempty V)
    constructor
    · refine Classical.byContradiction fun hg => ?_
      have hf : Full c.steps (cells c.steps) := fun i x hi => by simp [cells, hi]
      obtain ⟨ds, e⟩ := not_good_fails c v hu c.steps 0 (cells c.steps) (.temp v) [] rfl hf (fun j e => by cases e) hg
      obtain ⟨s, k⟩ := h v ds
      rw [run, start, e] at k
      cases k
    · intro hl
      refine Classical.byContradiction fun hn => ?_
      obtain ⟨s, k⟩ := h v []
      rw [loop_no_op c hl hn v] at k
      cases k
  · intro h v ds
    exact held_safe_partial c h.1 h.2 v ds

/-- The pipeline that gathers messages, and one in which the second operation is given what the first one resolved with. -/
example : Uniform gather'.steps ∧ Uniform gather.steps ∧ ¬ ∀ v ds, ∃ s, run gather v ds = .ok s := by
  have u : Uniform gather.steps := by intro f g h; simp [gather] at h
  refine ⟨by intro f g h; simp [gather'] at h, u, fun h => ?_⟩
  have := ((held_exact gather u).1 h).1
  simp [gather, Good] at this

end Nbdl.Held
