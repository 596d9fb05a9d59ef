import Verif.Refs.Props
/-! C126: exactly when a value that was handed to a callback stays as it is. -/
namespace Nbdl.Refs
open MapStore Spec
variable {P V : Type} [DecidableEq P]

/-- The message leaves the value `w` at path `p` as it is: it does not delete it, and if it sets it, then to `w`. -/
def Spec.Agrees (p : P) (w : Payload V) : Msg P V → Prop
  | .downCreate q w' | .downUpdate q w' => q = p → w' = w
  | .downDelete q => q ≠ p
  | _ => True

/-- What the messages set the path to, in order; `none`: deleted. -/
def Spec.sets (p : P) : List (Msg P V) → List (Option (Payload V))
  | [] => []
  | .downCreate q w :: ms | .downUpdate q w :: ms => if q = p then some w :: sets p ms else sets p ms
  | .downDelete q :: ms => if q = p then none :: sets p ms else sets p ms
  | _ :: ms => sets p ms

theorem sameKind_refl (w : Payload V) : sameKind w w = true := by cases w <;> rfl

theorem sameKind_trans (a b c : Payload V) (h : sameKind a b = true) : sameKind b c = sameKind a c := by
  cases a <;> cases b <;> cases c <;> first | rfl | cases h

/-- All of them values of the same kind as `w`. -/
def Spec.AllKind (w : Payload V) (os : List (Option (Payload V))) : Prop :=
  ∀ o ∈ os, ∃ w', o = some w' ∧ sameKind w w' = true

theorem allKind_cons (w w' : Payload V) (os : List (Option (Payload V))) :
    AllKind w (some w' :: os) ↔ sameKind w w' = true ∧ AllKind w' os := by
  constructor
  · intro h
    obtain ⟨x, e, k⟩ := h _ List.mem_cons_self
    cases e
    refine ⟨k, fun o ho => ?_⟩
    obtain ⟨y, e, k'⟩ := h o (List.mem_cons_of_mem _ ho)
    exact ⟨y, e, by rw [sameKind_trans w w' y k]; exact k'⟩
  · rintro ⟨k, h⟩ o ho
    rcases List.mem_cons.1 ho with e | ho
    · exact ⟨w', e, k⟩
    · obtain ⟨y, e, k'⟩ := h o ho
      exact ⟨y, e, by rw [← sameKind_trans w w' y k]; exact k'⟩

theorem follow_exact (p : P) (x : Payload V) : ∀ (ms : List (Msg P V)) (w : Payload V),
    follow p w ms = .ok x ↔ AllKind w (sets p ms) ∧ (sets p ms).getLastD (some w) = some x := by
  intro ms
  induction ms with
  | nil => intro w; simp [follow, sets, AllKind]
  | cons m ms ih =>
    intro w
    have set : ∀ (q : P) (w' : Payload V),
        ((if q = p then if sameKind w w' then follow p w' ms else .ub else follow p w ms) = Cpp.ok x ↔
        AllKind w (if q = p then some w' :: sets p ms else sets p ms) ∧
          (if q = p then some w' :: sets p ms else sets p ms).getLastD (some w) = some x) := by
      intro q w'
      by_cases hq : q = p
      · simp only [if_pos hq, allKind_cons, List.getLastD_cons]
        by_cases hk : sameKind w w' = true
        · rw [if_pos hk, ih w']; simp [hk]
        · simp [hk]
      · simp only [if_neg hq]; exact ih w
    cases m with
    | downCreate q w' => exact set q w'
    | downUpdate q w' => exact set q w'
    | downDelete q =>
      rw [follow, sets]
      by_cases hq : q = p
      · simp only [if_pos hq]
        constructor
        · intro h; cases h
        · rintro ⟨h, _⟩; obtain ⟨_, e, _⟩ := h none List.mem_cons_self; cases e
      · simp only [if_neg hq]; exact ih w
    | upRead q => exact ih w
    | downRead q w' => exact ih w
    | upCreate q v => exact ih w
    | upUpdate q v => exact ih w
    | upDelete q => exact ih w

/-- C126, exactly: after any messages the reference can be used if and only if none of them deleted the value or turned an
entity into `not_found` or back, not even for a while; and it then refers to what the path was last set to. -/
theorem reference_exact (h : Heap P V) (hs : Sound h) (p : P) (w : Payload V) (r : Ref P)
    (hr : handed h p = some (w, r)) (ms : List (Msg P V)) (x : Payload V) :
    deref (applyAll h ms) r = .ok x ↔ AllKind w (sets p ms) ∧ (sets p ms).getLastD (some w) = some x := by
  rw [reference_follows h hs p w r hr ms]
  exact follow_exact p x ms w

theorem follow_agree (p : P) (w : Payload V) : ∀ ms : List (Msg P V), (∀ m ∈ ms, Agrees p w m) → follow p w ms = .ok w := by
  intro ms
  induction ms with
  | nil => intro _; rfl
  | cons m ms ih =>
    intro h
    have k := h m List.mem_cons_self
    have ih := ih fun m hm => h m (List.mem_cons_of_mem _ hm)
    cases m with
    | downCreate q w' =>
      rw [follow]
      by_cases hq : q = p
      · rw [if_pos hq, k hq, sameKind_refl, if_pos rfl]; exact ih
      · rw [if_neg hq]; exact ih
    | downUpdate q w' =>
      rw [follow]
      by_cases hq : q = p
      · rw [if_pos hq, k hq, sameKind_refl, if_pos rfl]; exact ih
      · rw [if_neg hq]; exact ih
    | downDelete q => rw [follow, if_neg k]; exact ih
    | upRead q => exact ih
    | downRead q w' => exact ih
    | upCreate q v => exact ih
    | upUpdate q v => exact ih
    | upDelete q => exact ih

theorem agrees_of_follow (p : P) (w : Payload V) (m : Msg P V) (h : follow p w [m] = .ok w) : Agrees p w m := by
  cases m with
  | downCreate q w' =>
    intro hq
    rw [follow, if_pos hq] at h
    split at h
    · cases h; rfl
    · cases h
  | downUpdate q w' =>
    intro hq
    rw [follow, if_pos hq] at h
    split at h
    · cases h; rfl
    · cases h
  | downDelete q =>
    intro hq
    rw [follow, if_pos hq] at h
    cases h
  | _ => trivial

theorem follow_append (p : P) (ns : List (Msg P V)) : ∀ (ms : List (Msg P V)) (w : Payload V),
    follow p w (ms ++ ns) = (follow p w ms).bind fun x => follow p x ns := by
  intro ms
  induction ms with
  | nil => intro w; rfl
  | cons m ms ih =>
    intro w
    have set : ∀ (q : P) (w' : Payload V),
        (if q = p then if sameKind w w' then follow p w' (ms ++ ns) else .ub else follow p w (ms ++ ns)) =
        (if q = p then if sameKind w w' then follow p w' ms else .ub else follow p w ms : Cpp (Payload V)).bind
          fun x => follow p x ns := by
      intro q w'
      by_cases hq : q = p
      · simp only [if_pos hq]
        by_cases hk : sameKind w w' = true
        · simp only [if_pos hk]; exact ih w'
        · simp only [if_neg hk]; rfl
      · simp only [if_neg hq]; exact ih w
    cases m with
    | downCreate q w' => exact set q w'
    | downUpdate q w' => exact set q w'
    | downDelete q =>
      rw [List.cons_append, follow, follow]
      by_cases hq : q = p
      · simp only [if_pos hq]; rfl
      · simp only [if_neg hq]; exact ih w
    | upRead q => exact ih w
    | downRead q w' => exact ih w
    | upCreate q v => exact ih w
    | upUpdate q v => exact ih w
    | upDelete q => exact ih w

/-- C126, exactly: the callback finds the value it was handed whenever it looks, however many of the messages have been
applied by then, if and only if each message leaves it as it is: none deletes it, and those that set it set it to the
same value. -/
theorem value_kept_exact (h : Heap P V) (hs : Sound h) (p : P) (w : Payload V) (r : Ref P)
    (hr : handed h p = some (w, r)) (ms : List (Msg P V)) :
    (∀ n, deref (applyAll h (ms.take n)) r = .ok w) ↔ ∀ m ∈ ms, Agrees p w m := by
  constructor
  · intro k m hm
    obtain ⟨i, hi, e⟩ := List.mem_iff_getElem.1 hm
    have h1 := k i
    have h2 := k (i + 1)
    rw [reference_follows h hs p w r hr] at h1 h2
    rw [List.take_succ_eq_append_getElem hi, follow_append, h1] at h2
    rw [← e]
    exact agrees_of_follow p w _ h2
  · intro k n
    rw [reference_follows h hs p w r hr]
    exact follow_agree p w _ fun m hm => k m (List.mem_of_mem_take hm)

/-- An update with the same value leaves it; one with another does not, and neither does one that is undone. -/
example : Agrees (V := Nat) 5 (.value 1) (.downUpdate 5 (.value 1)) ∧ ¬ Agrees (V := Nat) 5 (.value 1) (.downUpdate 5 (.value 2))
    ∧ sets (V := Nat) 5 [.downUpdate 5 .notFound, .upRead 5, .downDelete 6, .downUpdate 5 (.value 1)] =
      [some .notFound, some (.value 1)]
    ∧ ¬ AllKind (.value 1) [some .notFound, some (Payload.value 1)] := by
  refine ⟨fun _ => rfl, fun h => ?_, rfl, fun h => ?_⟩
  · cases h rfl
  · obtain ⟨w, e, k⟩ := h (some .notFound) List.mem_cons_self
    cases e
    cases k

end Nbdl.Refs
