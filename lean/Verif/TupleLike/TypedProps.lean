import Verif.TupleLike.BindProps
/-! C149: whether a read compiles, and the type of what it gives, depend on the types only. -/
namespace Nbdl.TupleLike
open Spec

/-- The elements of an array have its type. -/
def Spec.Formed : Val → Prop
  | .ref w => Formed w
  | .array t vs => ∀ e ∈ vs, e.ty = t
  | _ => True

/-- The types of the elements. -/
def elementTys : Ty → List Ty
  | .tuple ts => ts
  | .pair a b => [a, b]
  | .array t n => List.replicate n t
  | .seq ts => ts
  | .prod a b => [a, b]
  | _ => []

theorem elements_ty (v : Val) (hf : Formed v) : (elements v).map Val.ty = elementTys v.ty := by
  cases v
  case tuple => simp [elements, Val.ty, elementTys]
  case seq => simp [elements, Val.ty, elementTys]
  case array t vs =>
    simp only [elements, Val.ty, elementTys]
    rw [List.map_congr_left (g := fun _ => t) hf, List.map_const']
  all_goals simp [elements, Val.ty, elementTys]

theorem find_ty (t : Ty) (vs : List Val) :
    (vs.find? (fun e => e.ty.same t)).map Val.ty = (vs.map Val.ty).find? (fun u => u.same t) := by
  induction vs with
  | nil => rfl
  | cons a vs ih =>
    simp only [List.find?_cons, List.map_cons]
    cases a.ty.same t <;> simp [ih]

theorem single_ty (t : Ty) (vs : List Val) :
    (single (vs.filter (fun e => e.ty.same t))).map Val.ty
      = if ((vs.map Val.ty).filter (fun u => u.same t)).length = 1 then some t else none := by
  have hl : ((vs.map Val.ty).filter (fun u => u.same t)).length = (vs.filter (fun e => e.ty.same t)).length := by
    rw [List.filter_map, List.length_map]; rfl
  rw [hl]
  have hm : ∀ e ∈ vs.filter (fun e => e.ty.same t), e.ty = t := by
    intro e he
    exact (Ty.same_iff _ _).1 (List.mem_filter.1 he).2
  generalize vs.filter (fun e => e.ty.same t) = l at hm
  match l, hm with
  | [], _ => simp [single]
  | [a], hm =>
    have := hm a (by simp)
    simp [single, this]
  | a :: b :: l, _ => simp [single]

theorem key_same (k k' : Val) (h : k.ty = k'.ty) : k = k' ∨
    ((∀ i, k ≠ .indexV i) ∧ (∀ t, k ≠ .typeV t) ∧ k ≠ .firstV ∧ k ≠ .secondV ∧
     (∀ i, k' ≠ .indexV i) ∧ (∀ t, k' ≠ .typeV t) ∧ k' ≠ .firstV ∧ k' ≠ .secondV) := by
  cases k <;> cases k' <;> simp_all [Val.ty]

/-- The types that a read gives, from the types. -/
def applyTy (h : Headers) : Ty → Val → Option Ty
  | .ref w, k => if getImpl h (.ref w) = .wrapper then (applyTy h w k).bind fun t =>
      if getImpl h t = .tupleLike then none else if getImpl h t = .wrapper then
        match t with
        | .ref u => some u
        | _ => none
      else some t else none
  | t, k => match getImpl h t with
    | .tupleLike => match k with
      | .indexV i => (elementTys t)[i]?
      | .typeV u => match t with
        | .array _ _ => none
        | t => if ((elementTys t).filter (fun x => x.same u)).length = 1 then some u else none
      | _ => none
    | .sequence => (elementTys t).find? (fun u => u.same k.ty)
    | .product => match k with
      | .firstV => (elementTys t)[0]?
      | .secondV => (elementTys t)[1]?
      | _ => none
    | _ => none

theorem open_ty (h : Headers) (v : Val) : (open1 h v).map Val.ty =
    if getImpl h v.ty = .tupleLike then none else if getImpl h v.ty = .wrapper then
      match v.ty with
      | .ref u => some u
      | _ => none
    else some v.ty := by
  rw [open1]
  cases e : getImpl h v.ty <;> try simp
  have : ∃ w, v = .ref w := by
    cases v <;> simp only [Val.ty, getImpl] at e <;> (try split at e) <;> simp_all
  obtain ⟨w, rfl⟩ := this
  simp [unwrap, Val.ty]

theorem apply_ty (h : Headers) (k : Val) : ∀ (v : Val), Formed v → (applyKey h v k).map Val.ty = applyTy h v.ty k
  | .ref w, hf => by
    have ih := apply_ty h k w hf
    simp only [applyKey, Val.ty, applyTy]
    split
    · rw [← ih, Option.map_bind, Option.bind_map]
      congr 1
      funext e
      simp only [Function.comp]
      exact open_ty h e
    · rfl
  | .leaf _ _, _ => by simp [applyKey, Val.ty, getImpl, applyTy]
  | .indexV _, _ => by simp [applyKey, Val.ty, getImpl, applyTy]
  | .typeV _, _ => by simp [applyKey, Val.ty, getImpl, applyTy]
  | .firstV, _ => by simp [applyKey, Val.ty, getImpl, applyTy]
  | .secondV, _ => by simp [applyKey, Val.ty, getImpl, applyTy]
  | .tuple vs, hf => by
    have he := elements_ty (.tuple vs) hf
    simp only [Val.ty, elementTys, elements] at he
    simp only [applyKey, Val.ty, getImpl, applyTy, elements, elementTys]
    cases h.tuple
    · simp only [Bool.false_eq_true, if_false]
      cases k <;> simp [stdGetType, elements, single_ty]
      rfl
    · simp only [if_true]
      exact find_ty _ _
  | .pair a b, _ => by
    simp only [applyKey, Val.ty, getImpl, applyTy, elements, elementTys]
    cases h.pair
    · simp only [Bool.false_eq_true, if_false]
      cases k
      case indexV i => rw [← List.getElem?_map]; rfl
      case typeV t => simp only [stdGetType, elements, single_ty]; rfl
      all_goals rfl
    · simp only [if_true]
      cases k <;> rfl
  | .array t vs, hf => by
    have he := elements_ty (.array t vs) hf
    simp only [Val.ty, elementTys, elements] at he
    simp only [applyKey, Val.ty, getImpl, applyTy, elements, elementTys]
    cases h.array
    · simp only [Bool.false_eq_true, if_false]
      cases k
      case indexV i => rw [← he]; exact (List.getElem?_map ..).symm
      case typeV t => rfl
      all_goals rfl
    · simp
  | .seq vs, hf => by
    simp only [applyKey, Val.ty, getImpl, applyTy, elements, elementTys]
    exact find_ty _ _
  | .prod a b, _ => by
    simp only [applyKey, Val.ty, getImpl, applyTy, elements, elementTys]
    cases k <;> rfl

/-- C149: whether reading an element compiles, and the type of what is read, depend on the types of the object and the key only. -/
theorem get_typed (h : Headers) (v w k k' : Val) (hv : Formed v) (hw : Formed w) (ht : v.ty = w.ty) (hk : k.ty = k'.ty) :
    (get h v k).map Val.ty = (get h w k').map Val.ty := by
  have hkey : ∀ t : Ty, applyTy h t k = applyTy h t k' := by
    rcases key_same k k' hk with rfl | ⟨h1, h2, h3, h4, h5, h6, h7, h8⟩
    · intro _; rfl
    · have hno : ∀ t : Ty, (∀ u, t ≠ .ref u) → applyTy h t k = applyTy h t k' := by
        intro t hr
        cases t
        case ref u => exact absurd rfl (hr u)
        all_goals
          simp only [applyTy, hk]
      intro t
      have : ∀ (n : Nat) (t : Ty), sizeOf t < n → applyTy h t k = applyTy h t k' := by
        intro n
        induction n with
        | zero => intro t ht; omega
        | succ n ih =>
          intro t ht
          by_cases hr : ∃ u, t = .ref u
          · obtain ⟨u, rfl⟩ := hr
            simp only [applyTy]
            rw [ih u (by simp at ht; omega)]
          · exact hno t fun u e => hr ⟨u, e⟩
      exact this _ t (Nat.lt_succ_self _)
  have ha : (applyKey h v k).map Val.ty = (applyKey h w k').map Val.ty := by
    rw [apply_ty h k v hv, apply_ty h k' w hw, ht, hkey]
  rw [get, get, Option.map_bind, Option.map_bind]
  cases e1 : applyKey h v k with
  | none =>
    rw [e1] at ha
    cases e2 : applyKey h w k' with
    | none => rfl
    | some y => rw [e2] at ha; cases ha
  | some x =>
    rw [e1] at ha
    cases e2 : applyKey h w k' with
    | none => rw [e2] at ha; cases ha
    | some y =>
      rw [e2] at ha
      simp only [Option.map_some, Option.some.injEq] at ha
      simp only [Option.bind_some, Function.comp]
      rw [open_ty, open_ty, ha]

example : Formed exState ∧ Formed (.array (.leaf tInt) [.leaf tInt 3, .leaf tInt 4]) := by simp [Formed, exState, Val.ty]

end Nbdl.TupleLike
