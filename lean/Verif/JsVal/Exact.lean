import Verif.JsVal.Props
/-!
# Exactly what `js::val` objects show, self-moves included
-/
namespace Nbdl.JsVal

/-- What an operation does to independent variables: moving an object onto itself stores `undefined`
in it; every other operation does what it should. -/
def Spec.losing {V} : Op V → Op V
  | .moveAssign a s => if a = s then .transform a fun _ => none else .moveAssign a s
  | o => o

theorem self_move {V} (m : M V) (a : Nat) :
    step m (.moveAssign a a) = (step m (.transform a fun _ => none)).map fun m' =>
      delete m' a := by
  simp only [step]
  split <;> rename_i h
  · simp at h; simp [h, Cpp.map, delete, copy, set]
    funext i; by_cases hi : i = a <;> simp [hi]
  · simp at h; simp [h, Cpp.map]

theorem step_view_all {V} (m : M V) (o : Op V) (h : Tidy m) :
    (step m o).map Spec.view = Spec.step (Spec.view m) (Spec.losing o) := by
  by_cases hs : ∀ a, o ≠ .moveAssign a a
  · have e : Spec.losing o = o := by
      cases o with
      | moveAssign a s =>
        have : a ≠ s := by rintro rfl; exact hs a rfl
        simp [Spec.losing, this]
      | _ => rfl
    rw [e]; exact (step_view m o h hs).1
  · have ⟨a, ho⟩ : ∃ a, o = .moveAssign a a := by
      simpa [Classical.not_forall] using hs
    subst ho
    have e : Spec.losing (.moveAssign a a : Op V) = .transform a fun _ => none := by
      simp [Spec.losing]
    rw [e, self_move, ← (step_view m (.transform a fun _ => none) h (by simp)).1]
    simp only [step]
    split
    · simp only [Cpp.map, Cpp.ok.injEq]
      funext i
      by_cases hi : i = a
      · subst hi; simp [Spec.view, delete, set, get]
      · simp [Spec.view, delete, set, get, hi]
    · rfl

/-- C85, exactly, for all programs: each object shows the value last stored in it, where moving an
object onto itself counts as storing `undefined`; and exactly the programs which use an object
outside its lifetime are undefined. -/
theorem vals_exact {V} (os : List (Op V)) :
    (run os (init : M V)).map Spec.view = Spec.run (os.map Spec.losing) fun _ => none := by
  suffices ∀ m : M V, Tidy m →
      (run os m).map Spec.view = Spec.run (os.map Spec.losing) (Spec.view m) from
    this init (by simp [Tidy, init])
  induction os with
  | nil => intro m _; rfl
  | cons o os ih =>
    intro m h
    have h1 := step_view_all m o h
    cases hm : step m o with
    | ub => rw [hm] at h1; simp [run, Spec.run, hm, Cpp.bind, Cpp.map, ← h1]
    | ok m1 =>
      rw [hm] at h1
      simp [run, Spec.run, hm, Cpp.bind, ← h1, Cpp.map]
      exact ih m1 (step_tidy m o h m1 hm)

/-- C85, exactly: a self-move is harmless just where the value was `undefined`, and nowhere else.
So after any program the objects are what they should be, and one more self-move keeps them so, iff
the object holds nothing. -/
theorem self_move_exact {V} (os : List (Op V)) (m : M V) (h : run os init = .ok m) (a : Nat)
    (x : Option V) (hx : Spec.view m a = some x) :
    ∃ m', step m (.moveAssign a a) = .ok m' ∧ (Spec.view m' = Spec.view m ↔ x = none) ∧
      Spec.view m' a = some none := by
  have hl : m.live a = true := by
    cases hl : m.live a with
    | true => rfl
    | false => simp [Spec.view, hl] at hx
  have ht : Tidy m := vals_no_leak os m h
  have hv := step_view_all m (.moveAssign a a) ht
  have e : Spec.losing (.moveAssign a a : Op V) = .transform a fun _ => none := by
    simp [Spec.losing]
  rw [e] at hv
  simp only [Spec.step, hx] at hv
  cases hm : step m (.moveAssign a a) with
  | ub => rw [hm] at hv; simp [Cpp.map] at hv
  | ok m' =>
    rw [hm] at hv
    simp only [Cpp.map, Cpp.ok.injEq] at hv
    refine ⟨m', rfl, ⟨fun he => ?_, fun he => ?_⟩, by rw [hv]; simp [Spec.upd]⟩
    · rw [hv] at he
      have := congrFun he a
      simp [Spec.upd, hx] at this
      exact this.symm
    · subst he
      rw [hv]; funext i
      by_cases hi : i = a
      · subst hi; simp [Spec.upd, hx]
      · simp [Spec.upd, hi]

/-- A program with a self-move in the middle of it. -/
example : (match run (exOps ++ [.moveAssign 2 2, .makeCopy 3 2, .assign 1 0]) init with
    | .ok m => [Spec.view m 0, Spec.view m 1, Spec.view m 2, Spec.view m 3]
    | .ub => []) = [some (some 8), some (some 8), some none, some none] := by decide

end Nbdl.JsVal
