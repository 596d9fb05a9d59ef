import Verif.JsVal.Spec
/-!
# JavaScript values behave as values
-/
namespace Nbdl.JsVal

/-- The table has entries for live objects only. -/
def Tidy {V} (m : M V) : Prop := ∀ a, m.live a = false → m.table a = none

theorem step_view {V} (m : M V) (o : Op V) (h : Tidy m) (hs : ∀ a, o ≠ .moveAssign a a) :
    (step m o).map Spec.view = Spec.step (Spec.view m) o ∧
    ∀ m', step m o = .ok m' → Tidy m' := by
  cases o with
  | make a =>
    by_cases ha : m.live a = true
    · simp [step, ha, Cpp.map, Spec.step, Spec.view]
    · have ha' : m.live a = false := by simpa using ha
      simp [step, ha', Cpp.map, Spec.step, Spec.view]
      constructor
      · funext i; by_cases hi : i = a
        · subst hi; simp [setLive, Spec.view, Spec.upd, get, h _ ha']
        · simp [setLive, Spec.view, Spec.upd, hi, get]
      · intro i hi; simp only [setLive] at hi ⊢
        by_cases hia : i = a
        · simp [hia] at hi
        · simp [hia] at hi; exact h i hi
  | makeCopy a s =>
    by_cases ha : m.live a = true
    · simp [step, ha, Cpp.map, Spec.step, Spec.view]
    · have ha' : m.live a = false := by simpa using ha
      by_cases hb : m.live s = true
      · have hne : s ≠ a := by rintro rfl; exact ha hb
        simp [step, ha', hb, Cpp.map, Spec.step, Spec.view]
        constructor
        · funext i; by_cases hi : i = a
          · subst hi; simp [setLive, Spec.view, Spec.upd, get, copy, set]
          · simp [setLive, Spec.view, Spec.upd, hi, get, copy, set]
        · intro i hi; simp only [setLive, copy, set] at hi ⊢
          by_cases hia : i = a
          · simp [hia] at hi
          · simp [hia] at hi ⊢; exact h i hi
      · have hb' : m.live s = false := by simpa using hb
        simp [step, ha', hb', Cpp.map, Spec.step, Spec.view]
  | makeMove a s =>
    by_cases ha : m.live a = true
    · simp [step, ha, Cpp.map, Spec.step, Spec.view]
    · have ha' : m.live a = false := by simpa using ha
      by_cases hb : m.live s = true
      · have hne : s ≠ a := by rintro rfl; exact ha hb
        have hne' : a ≠ s := fun e => hne e.symm
        simp [step, ha', hb, Cpp.map, Spec.step, Spec.view]
        constructor
        · funext i; by_cases hi : i = a
          · subst hi; simp [setLive, Spec.view, Spec.upd, get, copy, set, delete, hne']
          · by_cases hi2 : i = s
            · subst hi2; simp [setLive, Spec.view, Spec.upd, get, copy, set, delete, hne, hb]
            · simp [setLive, Spec.view, Spec.upd, hi, hi2, get, copy, set, delete]
        · intro i hi; simp only [setLive, copy, set, delete] at hi ⊢
          by_cases hia : i = a
          · simp [hia] at hi
          · simp [hia] at hi ⊢
            intro _; exact h i hi
      · have hb' : m.live s = false := by simpa using hb
        simp [step, ha', hb', Cpp.map, Spec.step, Spec.view]
  | assign a s =>
    by_cases ha : m.live a = true
    · by_cases hb : m.live s = true
      · simp [step, ha, hb, Cpp.map, Spec.step, Spec.view]
        constructor
        · funext i; by_cases hi : i = a
          · subst hi; simp [Spec.view, Spec.upd, get, copy, set, ha]
          · simp [Spec.view, Spec.upd, hi, get, copy, set]
        · intro i hi; simp only [copy, set] at hi ⊢
          by_cases hia : i = a
          · subst hia; simp [ha] at hi
          · simp [hia]; exact h i hi
      · have hb' : m.live s = false := by simpa using hb
        simp [step, ha, hb', Cpp.map, Spec.step, Spec.view]
    · have ha' : m.live a = false := by simpa using ha
      simp [step, ha', Cpp.map, Spec.step, Spec.view]
  | moveAssign a s =>
    have hne' : a ≠ s := by rintro rfl; exact hs a rfl
    have hne : s ≠ a := fun e => hne' e.symm
    by_cases ha : m.live a = true
    · by_cases hb : m.live s = true
      · simp [step, ha, hb, Cpp.map, Spec.step, Spec.view]
        constructor
        · funext i; by_cases hi : i = a
          · subst hi; simp [Spec.view, Spec.upd, get, copy, set, delete, hne', ha]
          · by_cases hi2 : i = s
            · subst hi2; simp [Spec.view, Spec.upd, get, copy, set, delete, hne, hb]
            · simp [Spec.view, Spec.upd, hi, hi2, get, copy, set, delete]
        · intro i hi; simp only [copy, set, delete] at hi ⊢
          by_cases hia : i = a
          · subst hia; simp [ha] at hi
          · simp [hia]; intro _; exact h i hi
      · have hb' : m.live s = false := by simpa using hb
        simp [step, ha, hb', Cpp.map, Spec.step, Spec.view]
    · have ha' : m.live a = false := by simpa using ha
      simp [step, ha', Cpp.map, Spec.step, Spec.view]
  | transform a f =>
    by_cases ha : m.live a = true
    · simp [step, ha, Cpp.map, Spec.step, Spec.view]
      constructor
      · funext i; by_cases hi : i = a
        · subst hi; simp [Spec.view, Spec.upd, get, set, ha]
        · simp [Spec.view, Spec.upd, hi, get, set]
      · intro i hi; simp only [set] at hi ⊢
        by_cases hia : i = a
        · subst hia; simp [ha] at hi
        · simp [hia]; exact h i hi
    · have ha' : m.live a = false := by simpa using ha
      simp [step, ha', Cpp.map, Spec.step, Spec.view]
  | destroy a =>
    by_cases ha : m.live a = true
    · simp [step, ha, Cpp.map, Spec.step, Spec.view]
      constructor
      · funext i; by_cases hi : i = a
        · subst hi; simp [setLive, Spec.view, Spec.upd]
        · simp [setLive, Spec.view, Spec.upd, hi, get, delete]
      · intro i hi; simp only [setLive, delete] at hi ⊢
        by_cases hia : i = a
        · simp [hia]
        · simp [hia] at hi ⊢; exact h i hi
    · have ha' : m.live a = false := by simpa using ha
      simp [step, ha', Cpp.map, Spec.step, Spec.view]

theorem run_view {V} (os : List (Op V)) : ∀ (m : M V), Tidy m → Spec.NoSelfMove os →
    (run os m).map Spec.view = Spec.run os (Spec.view m) ∧ ∀ m', run os m = .ok m' → Tidy m' := by
  induction os with
  | nil => intro m h _; simp [run, Spec.run, Cpp.map]; exact h
  | cons o os ih =>
    intro m h hs
    obtain ⟨h1, h2⟩ := step_view m o h (hs o (by simp))
    cases hm : step m o with
    | ub =>
      rw [hm] at h1
      simp [run, Spec.run, hm, Cpp.bind, Cpp.map, ← h1]
    | ok m1 =>
      rw [hm] at h1
      have := ih m1 (h2 m1 hm) fun o ho => hs o (List.mem_cons_of_mem _ ho)
      simp [run, Spec.run, hm, Cpp.bind, ← h1, Cpp.map]
      exact this

/-- C85.  Whatever a program does with its `js::val`s, making, copying, moving, assigning,
transforming and destroying them, in any order and with addresses used again: what it sees is what
it would see if each held a value of its own, and it does something undefined only if it uses an
object outside its lifetime.  (Moving an object onto itself is the exception: see below.) -/
theorem vals_independent_partial {V} (os : List (Op V)) (hs : Spec.NoSelfMove os) :
    (run os (init : M V)).map Spec.view = Spec.run os fun _ => none := by
  have := (run_view os (init : M V) (by simp [Tidy, init]) hs).1
  rw [this]
  congr 1

theorem step_tidy {V} (m : M V) (o : Op V) (h : Tidy m) (m' : M V) (he : step m o = .ok m') :
    Tidy m' := by
  by_cases hs : ∀ a, o ≠ .moveAssign a a
  · exact (step_view m o h hs).2 m' he
  · have ⟨a, ho⟩ : ∃ a, o = .moveAssign a a := by
      simpa [Classical.not_forall] using hs
    subst ho
    simp only [step] at he
    split at he
    · injection he with he; subst he
      intro i hi
      simp only [copy, set, delete] at hi ⊢
      by_cases hia : i = a
      · simp [hia]
      · simp [hia]; exact h i hi
    · exact absurd he (by simp)

/-- C85.  The table holds nothing for an object which is gone; once all are gone it is empty. -/
theorem vals_no_leak {V} (os : List (Op V)) : ∀ (m : M V), run os init = .ok m →
    ∀ a, m.live a = false → m.table a = none := by
  suffices ∀ (m0 : M V), Tidy m0 → ∀ m, run os m0 = .ok m → Tidy m from
    fun m h => this init (by simp [Tidy, init]) m h
  induction os with
  | nil => intro m0 h m he; simp [run] at he; subst he; exact h
  | cons o os ih =>
    intro m0 h m he
    cases hm : step m0 o with
    | ub => simp [run, hm, Cpp.bind] at he
    | ok m1 =>
      simp [run, hm, Cpp.bind] at he
      exact ih m1 (step_tidy m0 o h m1 hm) m he

/-- C85.  An object made where another one was is `undefined`: it does not show the old value. -/
theorem val_fresh {V} (os : List (Op V)) (m m' : M V) (a : Nat) (h : run os init = .ok m)
    (h' : step m (.make a) = .ok m') : Spec.view m' a = some none := by
  have ht : Tidy m := vals_no_leak os m h
  simp only [step] at h'
  split at h'
  · exact absurd h' (by simp)
  · rename_i hl
    injection h' with h'
    subst h'
    simp at hl
    simp [Spec.view, setLive, get, ht a hl]

/-- C85 fails for moving an object onto itself (`x = std::move(x)`, as `std::swap`-less sorting and
erasing code may do): its value is lost. -/
theorem val_self_move_violated {V} (v : V) :
    let os := [Op.make 0, .transform 0 fun _ => some v, .moveAssign 0 0]
    (∃ m, run os (init : M V) = .ok m ∧ Spec.view m 0 = some none) ∧
    (∃ e, Spec.run os (fun _ => none) = .ok e ∧ e 0 = some (some v)) := by
  constructor
  · exact ⟨_, rfl, rfl⟩
  · exact ⟨_, rfl, rfl⟩

/-- C85.  Comparing two values compares what was stored in them. -/
theorem vals_equal_partial {V} (eq : Option V → Option V → Bool) (os : List (Op V))
    (hs : Spec.NoSelfMove os) (m : M V) (h : run os init = .ok m) (e : Spec.Vars V)
    (he : Spec.run os (fun _ => none) = .ok e) (a b : Nat) (x y : Option V)
    (hx : e a = some x) (hy : e b = some y) : equal eq m a b = .ok (eq x y) := by
  have h1 := vals_independent_partial os hs
  rw [h, he] at h1
  simp only [Cpp.map, Cpp.ok.injEq] at h1
  have ha := congrFun h1 a
  have hb := congrFun h1 b
  rw [hx] at ha; rw [hy] at hb
  simp only [Spec.view] at ha hb
  split at ha <;> simp at ha
  split at hb <;> simp at hb
  simp [equal, *]

/-- A program: two values, one moved into a third, its place used again. -/
def exOps : List (Op Nat) :=
  [.make 0, .transform 0 fun _ => some 7, .makeCopy 1 0, .transform 1 fun x => x.map (· + 1),
    .makeMove 2 0, .destroy 0, .make 0, .moveAssign 0 1]

example : Spec.NoSelfMove exOps := by
  intro o ho a; simp [exOps] at ho
  rcases ho with rfl | rfl | rfl | rfl | rfl | rfl | rfl | rfl <;> simp
  omega
example : (match run exOps init with
    | .ok m => [Spec.view m 0, Spec.view m 1, Spec.view m 2, Spec.view m 3]
    | .ub => []) = [some (some 8), some none, some (some 7), none] := by decide

end Nbdl.JsVal
