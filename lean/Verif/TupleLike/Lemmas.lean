import Verif.TupleLike.Spec
namespace Nbdl.TupleLike
open Spec

mutual
theorem Ty.same_iff : ∀ a b : Ty, Ty.same a b = true ↔ a = b
  | .leaf n, b => by cases b <;> simp [Ty.same]
  | .indexT n, b => by cases b <;> simp [Ty.same]
  | .typeT a, b => by cases b <;> simp [Ty.same, Ty.same_iff a]
  | .firstT, b => by cases b <;> simp [Ty.same]
  | .secondT, b => by cases b <;> simp [Ty.same]
  | .tuple as, b => by cases b <;> simp [Ty.same, Ty.sames_iff as]
  | .pair x y, b => by cases b <;> simp [Ty.same, Ty.same_iff x, Ty.same_iff y]
  | .array x n, b => by cases b <;> simp [Ty.same, Ty.same_iff x]
  | .seq as, b => by cases b <;> simp [Ty.same, Ty.sames_iff as]
  | .prod x y, b => by cases b <;> simp [Ty.same, Ty.same_iff x, Ty.same_iff y]
  | .ref x, b => by cases b <;> simp [Ty.same, Ty.same_iff x]
theorem Ty.sames_iff : ∀ as bs : List Ty, Ty.sames as bs = true ↔ as = bs
  | [], bs => by cases bs <;> simp [Ty.sames]
  | a :: as, bs => by cases bs <;> simp [Ty.sames, Ty.same_iff a, Ty.sames_iff as]
end

theorem same_false {a b : Ty} : Ty.same a b = false ↔ a ≠ b := by
  rw [ne_eq, ← Ty.same_iff]; simp

theorem impl_default (h : Headers) : ∀ v : Val, getImpl h v.ty = .default ↔ ¬ LeadsToCompound v
  | .leaf _ _ => by simp [Val.ty, getImpl, LeadsToCompound, Compound]
  | .indexV _ => by simp [Val.ty, getImpl, LeadsToCompound, Compound]
  | .typeV _ => by simp [Val.ty, getImpl, LeadsToCompound, Compound]
  | .firstV => by simp [Val.ty, getImpl, LeadsToCompound, Compound]
  | .secondV => by simp [Val.ty, getImpl, LeadsToCompound, Compound]
  | .tuple _ => by simp only [Val.ty, getImpl, LeadsToCompound, Compound]; split <;> simp
  | .pair _ _ => by simp only [Val.ty, getImpl, LeadsToCompound, Compound]; split <;> simp
  | .array _ _ => by simp only [Val.ty, getImpl, LeadsToCompound, Compound]; split <;> simp
  | .seq _ => by simp [Val.ty, getImpl, LeadsToCompound, Compound]
  | .prod _ _ => by simp [Val.ty, getImpl, LeadsToCompound, Compound]
  | .ref w => by
    have := impl_default h w
    simp only [Val.ty, getImpl, LeadsToCompound]
    rw [← this]
    split <;> simp_all

theorem impl_tupleLike (h : Headers) (v : Val) : getImpl h v.ty = .tupleLike ↔ Plain h v := by
  cases v <;> simp only [Val.ty, getImpl, Plain] <;> (try split) <;> simp_all

/-- Opening an element. -/
theorem open1_iff (h : Headers) (v x : Val) : open1 h v = some x ↔ ¬ Plain h v ∧ Reads v x := by
  rw [open1]
  by_cases hp : Plain h v
  · rw [(impl_tupleLike h v).2 hp]; simp [hp]
  · have hn : getImpl h v.ty ≠ .tupleLike := fun e => hp ((impl_tupleLike h v).1 e)
    by_cases hr : ∃ w, v = .ref w
    · obtain ⟨w, rfl⟩ := hr
      by_cases hl : LeadsToCompound w
      · have e : getImpl h (Val.ref w).ty = .wrapper := by
          have := mt (impl_default h w).1 (not_not_intro hl)
          simp only [Val.ty, getImpl]; rw [if_neg this]
        rw [e]
        simp only [Option.some.injEq]
        constructor
        · rintro rfl; exact ⟨hp, .wrapped _ hl⟩
        · rintro ⟨-, r⟩
          cases r with
          | wrapped => rfl
          | wrapper _ hn => exact absurd hl hn
          | element _ hn => exact absurd rfl (hn w)
      · have e : getImpl h (Val.ref w).ty = .default := by
          have := (impl_default h w).2 hl
          simp only [Val.ty, getImpl]; rw [if_pos this]
        rw [e]
        simp only [Option.some.injEq]
        constructor
        · rintro rfl; exact ⟨hp, .wrapper _ hl⟩
        · rintro ⟨-, r⟩
          cases r with
          | wrapped _ hn => exact absurd hn hl
          | wrapper => rfl
          | element => rfl
    · have hr : ∀ w, v ≠ .ref w := fun w e => hr ⟨w, e⟩
      have e : getImpl h v.ty ≠ .wrapper := by
        cases v <;> simp only [Val.ty, getImpl] <;> (try split) <;> simp_all
      have : open1 h v = some v := by
        rw [open1]
        cases e1 : getImpl h v.ty <;> simp_all
      rw [open1] at this
      rw [this]
      simp only [Option.some.injEq]
      constructor
      · rintro rfl; exact ⟨hp, .element _ hr⟩
      · rintro ⟨-, r⟩
        cases r with
        | wrapped w => exact absurd rfl (hr _)
        | wrapper w => exact absurd rfl (hr _)
        | element => rfl

theorem args_handed (emp : Ty → Bool) : ∀ vs, Handed emp vs (args emp vs)
  | [] => .nil
  | v :: vs => by
    have ih := args_handed emp vs
    rw [args] at ih
    rw [args, List.map_cons, List.filter_cons]
    by_cases hr : ∃ w, v = .ref w
    · obtain ⟨w, rfl⟩ := hr
      cases e : emp w.ty
      · simp only [unref, unwrap, e, Bool.not_false, if_true]; exact .argRef e ih
      · simp only [unref, unwrap, e, Bool.not_true, Bool.false_eq_true, if_false]; exact .emptyRef e ih
    · have hr : ∀ w, v ≠ .ref w := fun w e => hr ⟨w, e⟩
      have hu : unref v = v := by cases v <;> first | rfl | exact absurd rfl (hr _)
      rw [hu]
      cases e : emp v.ty
      · simp only [Bool.not_false, if_true]; exact .arg e hr ih
      · simp only [Bool.not_true, Bool.false_eq_true, if_false]; exact .empty e hr ih

theorem unref_not_ref {v : Val} (hr : ∀ w, v ≠ .ref w) : unref v = v := by
  cases v <;> first | rfl | exact absurd rfl (hr _)

theorem assigned_nil (emp : Ty → Bool) : ∀ vs, args emp vs = [] → Assigned emp vs [] (assigned emp vs [])
  | [], _ => .nil
  | v :: vs, h => by
    rw [args, List.map_cons, List.filter_cons] at h
    rw [assigned]
    cases e : emp (unref v).ty
    · simp [e] at h
    · simp only [e, Bool.not_true, Bool.false_eq_true, if_false] at h
      have ih := assigned_nil emp vs h
      by_cases hr : ∃ w, v = .ref w
      · obtain ⟨w, rfl⟩ := hr
        exact .emptyRef e ih
      · have hr : ∀ w, v ≠ .ref w := fun w e => hr ⟨w, e⟩
        rw [unref_not_ref hr] at e
        exact .empty e hr ih

theorem assigned_spec (emp : Ty → Bool) : ∀ vs new, new.length = (args emp vs).length →
    Assigned emp vs new (assigned emp vs new)
  | vs, [], h => assigned_nil emp vs (List.length_eq_zero_iff.1 h.symm)
  | [], x :: new, h => by simp [args] at h
  | v :: vs, x :: new, h => by
    rw [args, List.map_cons, List.filter_cons] at h
    rw [assigned]
    cases e : emp (unref v).ty
    · simp only [e, Bool.not_false, if_true, List.length_cons] at h
      have ih := assigned_spec emp vs new (by rw [args]; omega)
      simp only [Bool.false_eq_true, if_false]
      by_cases hr : ∃ w, v = .ref w
      · obtain ⟨w, rfl⟩ := hr
        exact .argRef e ih
      · have hr : ∀ w, v ≠ .ref w := fun w e => hr ⟨w, e⟩
        have ha : assignTo v x = x := by cases v <;> first | rfl | exact absurd rfl (hr _)
        rw [unref_not_ref hr] at e
        rw [ha]
        exact .arg e hr ih
    · simp only [e, Bool.not_true, Bool.false_eq_true, if_false] at h
      have ih := assigned_spec emp vs (x :: new) h
      simp only [if_true]
      by_cases hr : ∃ w, v = .ref w
      · obtain ⟨w, rfl⟩ := hr
        exact .emptyRef e ih
      · have hr : ∀ w, v ≠ .ref w := fun w e => hr ⟨w, e⟩
        rw [unref_not_ref hr] at e
        exact .empty e hr ih

theorem Spec.Handed.unique {emp : Ty → Bool} {vs as bs} (h : Handed emp vs as) (h' : Handed emp vs bs) : as = bs := by
  induction h generalizing bs with
  | nil => cases h'; rfl
  | empty e hr _ ih =>
    cases h' with
    | empty _ _ h => exact ih h
    | emptyRef => exact absurd rfl (hr _)
    | arg e' => rw [e] at e'; cases e'
    | argRef => exact absurd rfl (hr _)
  | emptyRef e _ ih =>
    cases h' with
    | empty _ hr => exact absurd rfl (hr _)
    | emptyRef _ h => exact ih h
    | arg _ hr => exact absurd rfl (hr _)
    | argRef e' => rw [e] at e'; cases e'
  | arg e hr _ ih =>
    cases h' with
    | empty e' => rw [e] at e'; cases e'
    | emptyRef => exact absurd rfl (hr _)
    | arg _ _ h => rw [ih h]
    | argRef => exact absurd rfl (hr _)
  | argRef e _ ih =>
    cases h' with
    | empty _ hr => exact absurd rfl (hr _)
    | emptyRef e' => rw [e] at e'; cases e'
    | arg _ hr => exact absurd rfl (hr _)
    | argRef _ h => rw [ih h]

theorem assigned_length (emp : Ty → Bool) : ∀ vs new, (assigned emp vs new).length = vs.length
  | [], _ => by rw [assigned]
  | v :: vs, [] => by rw [assigned]; simp [assigned_length emp vs]
  | v :: vs, x :: new => by
    rw [assigned]
    split <;> simp [assigned_length emp vs]

theorem elements_with (v : Val) (vs : List Val) (hc : Compound v) (hl : vs.length = (elements v).length) :
    elements (withElements v vs) = vs := by
  cases v <;> simp only [Compound] at hc <;> try rfl
  all_goals
    match vs, hl with
    | [a, b], _ => rfl

theorem bindable_iff (h : Headers) (v : Val) :
    bindable h v.ty = true ↔ Compound v ∧ ((∃ t vs, v = .array t vs) → h.array = false) := by
  cases v <;> simp [Val.ty, bindable, Compound]

end Nbdl.TupleLike
