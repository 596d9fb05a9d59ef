import Verif.TupleLike.Lemmas
/-! C149 and C150. -/
namespace Nbdl.TupleLike
open Spec

theorem get_iff (h : Headers) (v k x : Val) :
    get h v k = some x ↔ ∃ e, applyKey h v k = some e ∧ ¬ Plain h e ∧ Reads e x := by
  rw [get]
  cases applyKey h v k with
  | none => simp
  | some e => simp [open1_iff]

theorem find_iff (p : Val → Bool) : ∀ (vs : List Val) (e : Val), vs.find? p = some e ↔
    ∃ pre post, vs = pre ++ e :: post ∧ p e = true ∧ ∀ o ∈ pre, p o = false
  | vs, e => by
    rw [List.find?_eq_some_iff_append]
    constructor
    · rintro ⟨h1, as, bs, h2, h3⟩
      exact ⟨as, bs, h2, h1, fun o ho => by simpa using h3 o ho⟩
    · rintro ⟨as, bs, h2, h1, h3⟩
      exact ⟨h1, as, bs, h2, fun o ho => by simpa using h3 o ho⟩

/-- What is searched in: everything that is found by `find?` has the type of the key. -/
theorem find_none {vs : List Val} {t : Ty} (hk : ∀ e ∈ vs, e.ty ≠ t) : vs.find? (fun e => e.ty.same t) = none := by
  rw [List.find?_eq_none]
  intro e he
  rw [Ty.same_iff]
  exact hk e he

theorem apply_index (h : Headers) (v : Val) (i : Nat) (hc : Compound v) (hk : ∀ e ∈ elements v, e.ty ≠ .indexT i)
    (e : Val) : applyKey h v (.indexV i) = some e ↔ Plain h v ∧ (elements v)[i]? = some e := by
  cases v <;> simp only [Compound] at hc
  all_goals
    simp only [applyKey, Val.ty, getImpl, Plain]
  case tuple vs =>
    cases h.tuple
    · simp
    · simp [find_none hk, Val.ty]
  case pair a b => cases h.pair <;> simp
  case array t vs => cases h.array <;> simp
  case seq vs => simp [find_none hk, Val.ty]
  case prod a b => simp

/-- C149, exactly, for keys `index<i>`: the element of that number is read if and only if the object is a tuple, pair or array of
the standard library which Hana has no adapter for, and so is not the element itself.  (A sequence is searched for the type of
the key, so that it must not have an element that is itself a key of this kind.) -/
theorem index_exact (h : Headers) (v x : Val) (i : Nat) (hc : Compound v) (hk : ∀ e ∈ elements v, e.ty ≠ .indexT i) :
    get h v (.indexV i) = some x ↔ Plain h v ∧ ∃ e, (elements v)[i]? = some e ∧ ¬ Plain h e ∧ Reads e x := by
  rw [get_iff]
  constructor
  · rintro ⟨e, h1, h2⟩
    rw [apply_index h v i hc hk] at h1
    exact ⟨h1.1, e, h1.2, h2⟩
  · rintro ⟨h1, e, h2, h3⟩
    exact ⟨e, (apply_index h v i hc hk e).2 ⟨h1, h2⟩, h3⟩

theorem filter_one (p : Val → Bool) : ∀ (vs : List Val) (e : Val), vs.filter p = [e] ↔
    ∃ pre post, vs = pre ++ e :: post ∧ p e = true ∧ ∀ o ∈ pre ++ post, p o = false
  | [], e => by simp
  | v :: vs, e => by
    rw [List.filter_cons]
    cases hv : p v
    · simp only [Bool.false_eq_true, if_false]
      rw [filter_one p vs e]
      constructor
      · rintro ⟨pre, post, rfl, h1, h2⟩
        refine ⟨v :: pre, post, rfl, h1, ?_⟩
        intro o ho
        rcases List.mem_cons.1 ho with rfl | ho
        · exact hv
        · exact h2 o ho
      · rintro ⟨pre, post, e', h1, h2⟩
        cases pre with
        | nil => injection e' with e1 _; subst e1; rw [h1] at hv; cases hv
        | cons a pre =>
          injection e' with e1 e2
          exact ⟨pre, post, e2, h1, fun o ho => h2 o (List.mem_cons_of_mem _ ho)⟩
    · simp only [if_true]
      constructor
      · intro h
        injection h with h1 h2
        subst h1
        refine ⟨[], vs, rfl, hv, ?_⟩
        intro o ho
        have := List.filter_eq_nil_iff.1 h2 o ho
        simpa using this
      · rintro ⟨pre, post, e', h1, h2⟩
        cases pre with
        | nil =>
          injection e' with e1 e2
          subst e1 e2
          congr 1
          rw [List.filter_eq_nil_iff]
          intro o ho
          simp [h2 o ho]
        | cons a pre =>
          injection e' with e1 _
          subst e1
          have := h2 v List.mem_cons_self
          rw [this] at hv; cases hv

theorem stdGet_iff (v e : Val) (t : Ty) : stdGetType v t = some e ↔
    (∀ u vs, v ≠ .array u vs) ∧ ∃ pre post, elements v = pre ++ e :: post ∧ e.ty = t ∧ ∀ o ∈ pre ++ post, o.ty ≠ t := by
  have key : ∀ vs : List Val, single (vs.filter (fun e => e.ty.same t)) = some e
      ↔ ∃ pre post, vs = pre ++ e :: post ∧ e.ty = t ∧ ∀ o ∈ pre ++ post, o.ty ≠ t := by
    intro vs
    have := filter_one (fun e => e.ty.same t) vs e
    simp only [Ty.same_iff, same_false] at this
    rw [← this]
    have hs : ∀ l : List Val, single l = some e ↔ l = [e] := by
      intro l
      match l with
      | [] => simp [single]
      | [a] => simp [single]
      | a :: b :: l => simp [single]
    exact hs _
  cases v <;> simp only [stdGetType]
  case array => simp
  all_goals
    rw [key]
    simp

/-- C149, exactly, for keys `type<T>`: the element of that type is read if and only if the object is a tuple or pair of the
standard library which Hana has no adapter for, exactly one element has the type, and it is no such tuple, pair or array
itself. -/
theorem type_exact (h : Headers) (v x : Val) (t : Ty) (hc : Compound v) (hk : ∀ e ∈ elements v, e.ty ≠ .typeT t) :
    get h v (.typeV t) = some x ↔ Plain h v ∧ (∀ u vs, v ≠ .array u vs) ∧
      ∃ pre e post, elements v = pre ++ e :: post ∧ e.ty = t ∧ (∀ o ∈ pre ++ post, o.ty ≠ t) ∧ ¬ Plain h e ∧ Reads e x := by
  have key : ∀ e, applyKey h v (.typeV t) = some e ↔ Plain h v ∧ stdGetType v t = some e := by
    intro e
    cases v <;> simp only [Compound] at hc
    all_goals
      simp only [applyKey, Val.ty, getImpl, Plain]
    case tuple vs =>
      cases h.tuple
      · simp
      · simp [find_none hk, Val.ty]
    case pair a b => cases h.pair <;> simp
    case array t vs => cases h.array <;> simp
    case seq vs => simp [find_none hk, Val.ty]
    case prod a b => simp
  rw [get_iff]
  simp only [key, stdGet_iff]
  constructor
  · rintro ⟨e, ⟨h1, h2, pre, post, h3, h4, h5⟩, h6⟩
    exact ⟨h1, h2, pre, e, post, h3, h4, h5, h6⟩
  · rintro ⟨h1, h2, pre, e, post, h3, h4, h5, h6⟩
    exact ⟨e, ⟨h1, h2, pre, post, h3, h4, h5⟩, h6⟩

/-- C149, exactly, for Hana's sequences, and tuples that Hana has an adapter for: whatever the key, the first element that has
the type of the key is read. -/
theorem sequence_exact (h : Headers) (v k x : Val) (vs : List Val)
    (hv : v = .seq vs ∨ (v = .tuple vs ∧ h.tuple = true)) :
    get h v k = some x ↔ ∃ pre e post, vs = pre ++ e :: post ∧ e.ty = k.ty ∧ (∀ o ∈ pre, o.ty ≠ k.ty)
      ∧ ¬ Plain h e ∧ Reads e x := by
  have key : applyKey h v k = vs.find? (fun e => e.ty.same k.ty) := by
    rcases hv with rfl | ⟨rfl, ht⟩
    · simp [applyKey, Val.ty, getImpl, elements]
    · simp [applyKey, Val.ty, getImpl, elements, ht]
  rw [get_iff]
  simp only [key, find_iff, Ty.same_iff, same_false]
  constructor
  · rintro ⟨e, ⟨pre, post, h3, h4, h5⟩, h6⟩
    exact ⟨pre, e, post, h3, h4, h5, h6⟩
  · rintro ⟨pre, e, post, h3, h4, h5, h6⟩
    exact ⟨e, ⟨pre, post, h3, h4, h5⟩, h6⟩

/-- C149, exactly, for Hana's pairs, and pairs that Hana has an adapter for: the keys are `hana::first` and `hana::second`. -/
theorem product_exact (h : Headers) (v k x a b : Val)
    (hv : v = .prod a b ∨ (v = .pair a b ∧ h.pair = true)) :
    get h v k = some x ↔ ∃ e, (k = .firstV ∧ e = a ∨ k = .secondV ∧ e = b) ∧ ¬ Plain h e ∧ Reads e x := by
  have key : ∀ e, applyKey h v k = some e ↔ (k = .firstV ∧ e = a ∨ k = .secondV ∧ e = b) := by
    intro e
    rcases hv with rfl | ⟨rfl, ht⟩
    · cases k <;> simp [applyKey, Val.ty, getImpl, elements, eq_comm]
    · cases k <;> simp [applyKey, Val.ty, getImpl, elements, ht, eq_comm]
  rw [get_iff]
  simp only [key]

/-- C149, exactly, for reference wrappers: the key is used on what they refer to. -/
theorem wrapper_exact (h : Headers) (w k x : Val) :
    get h (.ref w) k = some x ↔ LeadsToCompound w ∧ ∃ y, get h w k = some y ∧ ¬ Plain h y ∧ Reads y x := by
  have hw : getImpl h (.ref w.ty) = .wrapper ↔ LeadsToCompound w := by
    have := impl_default h w
    rw [getImpl]
    split
    · rename_i e; simp [this.1 e]
    · rename_i e; simp only [true_iff]; exact Classical.byContradiction fun hn => e (this.2 hn)
  rw [get_iff, applyKey]
  by_cases hl : LeadsToCompound w
  · rw [if_pos (hw.2 hl)]
    simp only [hl, true_and]
    rfl
  · rw [if_neg (fun e => hl (hw.1 e))]
    simp [hl]

/-- Whether an element can be opened depends on its type only. -/
theorem open_typed (h : Headers) (v w : Val) (ht : v.ty = w.ty) : (open1 h v).isSome = (open1 h w).isSome := by
  rw [open1, open1, ht]
  cases getImpl h w.ty <;> rfl

/-- C149: looking up a path reads element by element. -/
theorem path_exact (h : Headers) (v x : Val) (p q : List Val) :
    getPath h v (p ++ q) = some x ↔ ∃ y, getPath h v p = some y ∧ getPath h y q = some x := by
  induction p generalizing v with
  | nil => simp [getPath]
  | cons k p ih =>
    simp only [List.cons_append, getPath]
    cases get h v k with
    | none => simp
    | some w => simpa using ih w

/-- C149 violated: no element that is itself a tuple, pair or array can be read, and so no path leads through it. -/
theorem nested_violated (h : Headers) (vs : List Val) (i : Nat) (e : Val) (he : vs[i]? = some e) (hp : Plain h e)
    (ht : h.tuple = false) (q : List Val) : getPath h (.tuple vs) (.indexV i :: q) = none := by
  have : get h (.tuple vs) (.indexV i) = none := by
    rw [get]
    have : applyKey h (.tuple vs) (.indexV i) = some e := by
      simp [applyKey, Val.ty, getImpl, ht, elements, he]
    rw [this]
    simp only [Option.bind_some]
    rw [open1, (impl_tupleLike h e).2 hp]
  rw [getPath, this]
  rfl

/-- C149 violated: the keys `index<i>` and `type<T>`, which are meant for sequences too, cannot be used on them (unless an
element is such a key itself). -/
theorem sequence_keys_violated (h : Headers) (vs : List Val) (k : Val)
    (hk : (∃ i, k = .indexV i) ∨ ∃ t, k = .typeV t) (hn : ∀ e ∈ vs, e.ty ≠ k.ty) : get h (.seq vs) k = none := by
  cases hg : get h (.seq vs) k with
  | none => rfl
  | some x =>
    obtain ⟨pre, e, post, rfl, h1, -⟩ := (sequence_exact h (.seq vs) k x vs (.inl rfl)).1 hg
    exact absurd h1 (hn e (by simp))

/-- C149 violated: elements of pairs and arrays that can be read by their number cannot be read so any more when a header
such as bind_sequence.hpp (for pairs) or uid.hpp (for arrays) is included. -/
theorem header_violated (h : Headers) (t : Ty) (a b : Val) (i : Nat) :
    get { h with pair := true } (.pair a b) (.indexV i) = none
    ∧ get { h with array := true } (.array t [a, b]) (.indexV i) = none
    ∧ ((∀ w, a ≠ .ref w) → ¬ Compound a → get { h with pair := false } (.pair a b) (.indexV 0) = some a
        ∧ get { h with array := false } (.array t [a, b]) (.indexV 0) = some a) := by
  refine ⟨by simp [get, applyKey, Val.ty, getImpl], by simp [get, applyKey, Val.ty, getImpl], fun hr hc => ?_⟩
  have ho : ∀ h, open1 h a = some a := by
    intro h
    rw [open1_iff]
    refine ⟨?_, .element _ hr⟩
    cases a <;> simp_all [Plain, Compound]
  constructor <;> simp [get, applyKey, Val.ty, getImpl, elements, ho]

/-- The numbers of `int` and `std::string`, and of an empty class. -/
def tInt : Nat := 0
def tString : Nat := 1
def tTag : Nat := 2

/-- The state of the test, test/nbdl/core/tuple_like.cpp:22-35. -/
def exState : Val := .tuple [.leaf tInt 5, .leaf tString 7, .leaf tTag 0]
/-- The headers of that test. -/
def exHeaders : Headers := ⟨false, true, false⟩

example : get exHeaders exState (.indexV 0) = some (.leaf tInt 5) ∧ get exHeaders exState (.indexV 1) = some (.leaf tString 7)
    ∧ get exHeaders exState (.typeV (.leaf tString)) = some (.leaf tString 7)
    ∧ get exHeaders exState (.indexV 3) = none := by
  simp [get, applyKey, exState, exHeaders, Val.ty, getImpl, elements, open1, stdGetType, single, Ty.same, tInt, tString, tTag]

/-- Two elements of a type, an element that is a tuple, and the same behind a reference wrapper. -/
example : get exHeaders (.tuple [.leaf 0 1, .leaf 0 2]) (.typeV (.leaf 0)) = none
    ∧ get exHeaders (.tuple [.leaf 0 1, exState]) (.indexV 1) = none
    ∧ get exHeaders (.tuple [.leaf 0 1, .ref exState]) (.indexV 1) = some exState
    ∧ get exHeaders (.seq [.leaf 0 1, .leaf 0 2]) (.leaf 0 9) = some (.leaf 0 1)
    ∧ getPath exHeaders (.tuple [.leaf 0 1, .ref exState]) [.indexV 1, .indexV 0] = some (.leaf 0 5) := by
  simp [get, getPath, applyKey, exState, exHeaders, Val.ty, getImpl, elements, open1, unwrap, stdGetType, single, Ty.same, tInt, tString,
    tTag]

end Nbdl.TupleLike
