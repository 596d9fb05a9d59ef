import Verif.Hash.Spec
/-!
C38: hashing.
-/
namespace Nbdl.Hash
open Nbdl.Bind Spec

theorem bindElems_eq {α : Type} (H : Leaf → BitVec 64) (leaf : α → Leaf) (l : List α) (d : BitVec 64) :
    bindElems H leaf l d = (l.map leaf).foldl (fun d x => combine d (H x)) d := by
  induction l generalizing d with
  | nil => rfl
  | cons a l ih => simp only [bindElems, List.map_cons, List.foldl_cons, ih]

theorem leaves_empty (t : Ty) (v : denote t) (h : t.isEmpty = true) : leaves t v = [] := by
  cases t <;> simp [Ty.isEmpty] at h
  simp [leaves]

mutual
theorem bind_leaves (H : Leaf → BitVec 64) : (t : Ty) → ∀ (v : denote t) (d : BitVec 64),
    bind H t v d = (leaves t v).foldl (fun d x => combine d (H x)) d
  | .empty, v, d => by simp [bind, leaves]
  | .uint, v, d => by simp [bind, leaves]
  | .int, v, d => by simp [bind, leaves]
  | .enum, v, d => by simp [bind, leaves]
  | .str, v, d => by simp only [bind, leaves]; exact bindElems_eq H _ v d
  | .buf, v, d => by simp only [bind, leaves]; exact bindElems_eq H _ v d
  | .fixed n, v, d => by simp only [bind, leaves]; exact bindElems_eq H _ _ d
  | .cont t, v, d => by simp only [bind, leaves]; exact bindElems_eq H _ v d
  | .seq ts, v, d => by simp only [bind, leaves]; exact bindMany_leaves H ts v d
  | .record ts, v, d => by simp only [bind, leaves]; exact bindMany_leaves H ts v d
  | .var t ts, .inl v, d => by simp only [bind, leaves, List.foldl_cons]; exact bind_leaves H t v _
  | .var t ts, .inr v, d => by simp only [bind, leaves]; exact bindAlts_leaves H ts 1 v d
theorem bindMany_leaves (H : Leaf → BitVec 64) : (ts : Tys) → ∀ (v : members ts) (d : BitVec 64),
    bindMany H ts v d = (leavesMany ts v).foldl (fun d x => combine d (H x)) d
  | .nil, v, d => by simp [bindMany, leavesMany]
  | .cons _ t ts, v, d => by
    have ih1 := bind_leaves H t v.1 d
    have ih2 := bindMany_leaves H ts v.2
    unfold bindMany leavesMany
    rw [List.foldl_append, ← ih2, ← ih1]
    split
    · rename_i he
      rw [ih1, leaves_empty t v.1 he]; rfl
    · rfl
theorem bindAlts_leaves (H : Leaf → BitVec 64) : (ts : Tys) → ∀ (i : Nat) (v : alts ts) (d : BitVec 64),
    bindAlts H ts i v d = (leavesAlts ts i v).foldl (fun d x => combine d (H x)) d
  | .nil, _, v, _ => v.elim
  | .cons _ t ts, i, .inl v, d => by simp only [bindAlts, leavesAlts, List.foldl_cons]; exact bind_leaves H t v _
  | .cons _ t ts, i, .inr v, d => by simp only [bindAlts, leavesAlts]; exact bindAlts_leaves H ts (i + 1) v d
end

/-- C38: the hash is computed from the leaf values, from left to right, and from nothing else. -/
theorem hash_leaves (H : Leaf → BitVec 64) (t : Ty) (v : denote t) :
    hash H t v = (leaves t v).foldl (fun d x => combine d (H x)) 0#64 := bind_leaves H t v _

/-- C38: values with the same leaves hash equally, even values of different types; in particular equal
values do. -/
theorem hash_equal (H : Leaf → BitVec 64) (t t' : Ty) (v : denote t) (v' : denote t')
    (h : leaves t v = leaves t' v') : hash H t v = hash H t' v' := by
  rw [hash_leaves, hash_leaves, h]

def pairTy : Ty := .seq (.cons [] .str (.cons [] .str .nil))

/-- Nesting is not hashed: ("a", "bc") and ("ab", "c") have the same hash. -/
theorem nesting_collides (H : Leaf → BitVec 64) :
    hash H pairTy (ascii "a", ascii "bc", ()) = hash H pairTy (ascii "ab", ascii "c", ()) :=
  hash_equal H _ _ _ _ (by decide +kernel)

/-- One step keeps different leaf hashes apart. -/
theorem combine_injective (seed h h' : BitVec 64) (he : combine seed h = combine seed h') : h = h' := by
  simp only [combine, BitVec.xor_right_inj, BitVec.add_left_inj] at he
  with_reducible exact he

/-- C38: the last leaf is visited: if it alone is changed, so that `std::hash` differs, the hash differs. -/
theorem last_leaf_visited (H : Leaf → BitVec 64) (t : Ty) (v v' : denote t) (pre : List Leaf) (x x' : Leaf)
    (h : leaves t v = pre ++ [x]) (h' : leaves t v' = pre ++ [x']) (hx : H x ≠ H x') :
    hash H t v ≠ hash H t v' := by
  rw [hash_leaves, hash_leaves, h, h', List.foldl_append, List.foldl_append]
  intro he
  exact hx (combine_injective _ _ _ he)
example (H : Leaf → BitVec 64) (hx : H (.byte 98#8) ≠ H (.byte 99#8)) :
    hash H pairTy (ascii "a", ascii "b", ()) ≠ hash H pairTy (ascii "a", ascii "c", ()) :=
  last_leaf_visited H pairTy _ _ [.byte 97#8] (.byte 98#8) (.byte 99#8) (by decide +kernel) (by decide +kernel) hx

theorem append_inj_left {α : Type} {a b c d : List α} (h : a ++ b = c ++ d) (hl : a.length = c.length) :
    a = c ∧ b = d := List.append_inj h hl

theorem leavesAlts_head : (ts : Tys) → (i : Nat) → (v : alts ts) →
    ∃ p l, leavesAlts ts i v = .int (BitVec.ofNat 32 p) :: l ∧ i ≤ p ∧ p < i + ts.length
  | .cons _ t ts, i, .inl v => ⟨i, leaves t v, by simp [leavesAlts], Nat.le_refl _, by simp only [Tys.length]; omega⟩
  | .cons _ t ts, i, .inr v => by
    obtain ⟨p, l, h1, h2, h3⟩ := leavesAlts_head ts (i + 1) v
    exact ⟨p, l, by simp only [leavesAlts]; exact h1, by omega, by simp only [Tys.length]; omega⟩

theorem ofNat_inj {i p : Nat} (hi : i < 2 ^ 32) (hp : p < 2 ^ 32) (h : BitVec.ofNat 32 i = BitVec.ofNat 32 p) :
    i = p := by
  have := congrArg BitVec.toNat h
  simp only [BitVec.toNat_ofNat] at this
  omega

mutual
theorem leaves_determine_aux : (t : Ty) → FixedShape t → ∀ (v v' : denote t) (r r' : List Leaf),
    leaves t v ++ r = leaves t v' ++ r' → v = v' ∧ r = r'
  | .empty, _, v, v', r, r', h => by simp only [leaves] at h; exact ⟨rfl, h⟩
  | .uint, _, v, v', r, r', h => by
    simp only [leaves, List.cons_append, List.nil_append, List.cons.injEq, Leaf.uint.injEq] at h; exact h
  | .int, _, v, v', r, r', h => by
    simp only [leaves, List.cons_append, List.nil_append, List.cons.injEq, Leaf.int.injEq] at h; exact h
  | .enum, _, v, v', r, r', h => by
    simp only [leaves, List.cons_append, List.nil_append, List.cons.injEq, Leaf.enum.injEq] at h; exact h
  | .str, hf, _, _, _, _, _ => hf.elim
  | .buf, hf, _, _, _, _, _ => hf.elim
  | .cont _, hf, _, _, _, _, _ => hf.elim
  | .fixed n, _, v, v', r, r', h => by
    simp only [leaves] at h
    obtain ⟨h1, h2⟩ := append_inj_left h (by simp)
    refine ⟨?_, h2⟩
    have h3 := List.map_inj_right (f := Leaf.byte) (fun a b => by simp) |>.1 h1
    funext i
    have h4 := congrArg (·[i.val]?) h3
    simpa using h4
  | .seq ts, hf, v, v', r, r', h => by simp only [leaves] at h; exact leavesMany_determine_aux ts hf v v' r r' h
  | .record ts, hf, v, v', r, r', h => by simp only [leaves] at h; exact leavesMany_determine_aux ts hf v v' r r' h
  | .var t ts, hf, .inl v, .inl v', r, r', h => by
    simp only [leaves, List.cons_append, List.cons.injEq, true_and] at h
    obtain ⟨h1, h2⟩ := leaves_determine_aux t hf.1 v v' r r' h
    rw [h1]; exact ⟨rfl, h2⟩
  | .var t ts, hf, .inr v, .inr v', r, r', h => by
    simp only [leaves] at h
    obtain ⟨h1, h2⟩ := leavesAlts_determine_aux ts 1 hf.2.1 (by have := hf.2.2; omega) v v' r r' h
    rw [h1]; exact ⟨rfl, h2⟩
  | .var t ts, hf, .inl v, .inr v', r, r', h => by
    obtain ⟨p, l, h1, h2, h3⟩ := leavesAlts_head ts 1 v'
    simp only [leaves, h1, List.cons_append, List.cons.injEq, Leaf.int.injEq] at h
    have := ofNat_inj (i := 0) (p := p) (by omega) (by have := hf.2.2; omega) h.1
    omega
  | .var t ts, hf, .inr v, .inl v', r, r', h => by
    obtain ⟨p, l, h1, h2, h3⟩ := leavesAlts_head ts 1 v
    simp only [leaves, h1, List.cons_append, List.cons.injEq, Leaf.int.injEq] at h
    have := ofNat_inj (i := 0) (p := p) (by omega) (by have := hf.2.2; omega) h.1.symm
    omega
theorem leavesMany_determine_aux : (ts : Tys) → FixedShapeAll ts → ∀ (v v' : members ts) (r r' : List Leaf),
    leavesMany ts v ++ r = leavesMany ts v' ++ r' → v = v' ∧ r = r'
  | .nil, _, v, v', r, r', h => by simp only [leavesMany] at h; exact ⟨rfl, h⟩
  | .cons _ t ts, hf, v, v', r, r', h => by
    simp only [leavesMany, List.append_assoc] at h
    obtain ⟨h1, h2⟩ := leaves_determine_aux t hf.1 v.1 v'.1 _ _ h
    obtain ⟨h3, h4⟩ := leavesMany_determine_aux ts hf.2 v.2 v'.2 r r' h2
    exact ⟨Prod.ext h1 h3, h4⟩
theorem leavesAlts_determine_aux : (ts : Tys) → (i : Nat) → FixedShapeAll ts → i + ts.length < 2 ^ 32 →
    ∀ (v v' : alts ts) (r r' : List Leaf), leavesAlts ts i v ++ r = leavesAlts ts i v' ++ r' → v = v' ∧ r = r'
  | .nil, _, _, _, v, _, _, _, _ => v.elim
  | .cons _ t ts, i, hf, hi, .inl v, .inl v', r, r', h => by
    simp only [leavesAlts, List.cons_append, List.cons.injEq, true_and] at h
    obtain ⟨h1, h2⟩ := leaves_determine_aux t hf.1 v v' r r' h
    rw [h1]; exact ⟨rfl, h2⟩
  | .cons _ t ts, i, hf, hi, .inr v, .inr v', r, r', h => by
    simp only [leavesAlts] at h
    obtain ⟨h1, h2⟩ := leavesAlts_determine_aux ts (i + 1) hf.2 (by simp only [Tys.length] at hi; omega) v v' r r' h
    rw [h1]; exact ⟨rfl, h2⟩
  | .cons _ t ts, i, hf, hi, .inl v, .inr v', r, r', h => by
    obtain ⟨p, l, h1, h2, h3⟩ := leavesAlts_head ts (i + 1) v'
    simp only [Tys.length] at hi
    simp only [leavesAlts, h1, List.cons_append, List.cons.injEq, Leaf.int.injEq] at h
    have := ofNat_inj (i := i) (p := p) (by omega) (by omega) h.1
    omega
  | .cons _ t ts, i, hf, hi, .inr v, .inl v', r, r', h => by
    obtain ⟨p, l, h1, h2, h3⟩ := leavesAlts_head ts (i + 1) v
    simp only [Tys.length] at hi
    simp only [leavesAlts, h1, List.cons_append, List.cons.injEq, Leaf.int.injEq] at h
    have := ofNat_inj (i := i) (p := p) (by omega) (by omega) h.1.symm
    omega
end

/-- C38, every part is visited: for types without strings, buffers and containers the leaves determine the
value, so nothing is left out of the hash. -/
theorem leaves_determine (t : Ty) (hf : FixedShape t) (v v' : denote t) (h : leaves t v = leaves t v') : v = v' :=
  (leaves_determine_aux t hf v v' [] [] (by rw [h])).1

def exTy : Ty := .seq (.cons [] .uint (.cons [] (.var .int (.cons [] (.fixed 4) .nil)) .nil))
example : FixedShape exTy := by simp [exTy, FixedShape, FixedShapeAll, Tys.length]
example : leaves exTy (3#32, .inr (.inl fun _ => 9#8), ())
    = [.uint 3#32, .int 1#32, .byte 9#8, .byte 9#8, .byte 9#8, .byte 9#8] := by decide +kernel

theorem isEmpty_iff (t : Ty) : t.isEmpty = true ↔ t = .empty := by cases t <;> simp [Ty.isEmpty]

mutual
theorem hashable_parts : (t : Ty) → (hashable t = true ↔ ∀ s ∈ parts t, Allowed s)
  | .empty | .uint | .int | .enum | .str | .buf | .fixed _ => by simp [hashable, parts, Allowed]
  | .cont t => by cases t <;> simp [hashable, parts, Allowed, elemHashable]
  | .seq ts => by simp [hashable, parts, Allowed, hashableAll_parts ts]
  | .record ts => by simp [hashable, parts, Allowed, hashableAll_parts ts]
  | .var t ts => by
    have h1 := hashable_parts t
    have h2 := altsHashable_parts ts
    have h3 := isEmpty_iff t
    simp only [hashable, parts, Bool.and_eq_true, Bool.not_eq_true', List.forall_mem_cons,
      List.forall_mem_append, h1, h2]
    simp only [Allowed, List.mem_cons, not_or]
    constructor
    · rintro ⟨⟨a, b⟩, c, d⟩
      exact ⟨⟨fun e => (by rw [h3.2 e.symm] at a; cases a), c⟩, b, d⟩
    · rintro ⟨⟨a, c⟩, b, d⟩
      refine ⟨⟨?_, b⟩, c, d⟩
      cases h : t.isEmpty with
      | false => rfl
      | true => exact absurd (h3.1 h).symm a
theorem hashableAll_parts : (ts : Tys) → (hashableAll ts = true ↔ ∀ s ∈ partsAll ts, Allowed s)
  | .nil => by simp [hashableAll, partsAll]
  | .cons _ t ts => by
    have h1 := hashable_parts t
    have h2 := hashableAll_parts ts
    have h3 : (t.isEmpty || hashable t) = hashable t := by cases t <;> simp [Ty.isEmpty, hashable]
    simp only [hashableAll, partsAll, h3, Bool.and_eq_true, h1, h2, List.mem_append, or_imp, forall_and]
theorem altsHashable_parts : (ts : Tys) →
    (altsHashable ts = true ↔ .empty ∉ alternatives ts ∧ ∀ s ∈ partsAll ts, Allowed s)
  | .nil => by simp [altsHashable, partsAll, alternatives]
  | .cons _ t ts => by
    have h1 := hashable_parts t
    have h2 := altsHashable_parts ts
    have h3 := isEmpty_iff t
    simp only [altsHashable, partsAll, alternatives, Bool.and_eq_true, Bool.not_eq_true', List.mem_cons,
      List.forall_mem_append, h1, h2, not_or]
    constructor
    · rintro ⟨⟨a, b⟩, c, d⟩
      exact ⟨⟨fun e => (by rw [h3.2 e.symm] at a; cases a), c⟩, b, d⟩
    · rintro ⟨⟨a, c⟩, b, d⟩
      refine ⟨⟨?_, b⟩, c, d⟩
      cases h : t.isEmpty with
      | false => rfl
      | true => exact absurd (h3.1 h).symm a
end

/-- C38: exactly the types in which no container has other elements than numbers, enumerations or strings
and no variant has an empty alternative can be hashed. -/
theorem hashable_exact (t : Ty) : hashable t = true ↔ ∀ s ∈ parts t, Allowed s := hashable_parts t

/-- C38 violated: `nbdl::variant` and `nbdl::optional`, whose first alternative is empty, and everything
that contains one, cannot be hashed at all. -/
theorem variant_not_hashable_violated (ts : Tys) : hashable (.var .empty ts) = false := by
  simp [hashable, Ty.isEmpty]
example : hashable (.seq (.cons [] .uint (.cons [] (.var .empty (.cons [] .int .nil)) .nil))) = false := by decide
example : hashable exTy = true := by decide

end Nbdl.Hash
