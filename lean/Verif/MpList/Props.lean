import Verif.MpList.Model
/-!
# What lists of types and joined texts are

C146 and C147.
-/
namespace Nbdl.MpList
variable {W : World}

namespace Spec

/-- A text and the texts after it, each after the delimiter. -/
def joined (d : List Char) : List (List Char) → List Char
  | [] => []
  | [s] => s
  | s :: t :: r => s ++ d ++ joined d (t :: r)

end Spec
open Spec

/-! ## Two kinds of objects for the examples: numbers, and two empty types. -/

/-- Numbers and empty types. -/
def demo : World where
  Ty := Option Nat
  Val t := match t with | none => Nat | some _ => Unit
  init t := match t with | none => (0 : Nat) | some _ => ()

/-- An `int` -/
def num (n : Nat) : Obj demo := ⟨none, n⟩
/-- A tag -/
def tag (n : Nat) : Obj demo := ⟨some n, ()⟩

/-- C146: a list hands out the objects that were put in, if and only if each of them is what a new object of its type is. -/
theorem contents_exact (xs : List (Obj W)) :
    unpack (make xs) = xs ↔ ∀ x ∈ xs, x = fresh x.1 := by
  rw [unpack, make, List.map_map]
  constructor
  · intro h x hx
    have := List.map_inj_left.mp (h.trans (List.map_id xs).symm) x hx
    exact this.symm
  · intro h
    exact (List.map_congr_left (g := id) fun x hx => (h x hx).symm).trans (List.map_id xs)

/-- C146: a list forgets the values of its elements: a list made of the number 5 hands out the number 0. -/
theorem contents_violated : unpack (make [num 5]) = [num 0] ∧ unpack (make [num 5]) ≠ [num 5] := by
  have e : unpack (make [num 5]) = [num 0] := rfl
  refine ⟨e, ?_⟩
  rw [e]
  intro h
  have h1 := List.cons.inj h
  have h2 : (0 : Nat) = 5 := eq_of_heq (Sigma.mk.inj h1.1).2
  exact absurd h2 (by omega)

example : unpack (make [tag 1, tag 2]) = [tag 1, tag 2] :=
  (contents_exact _).mpr (by intro x hx; simp at hx; rcases hx with h | h <;> subst h <;> rfl)

/-- C146: length, emptiness, elements, concatenation are those of a sequence; an element that is not there cannot be
asked for. -/
theorem sequence (xs ys : List (Obj W)) (i : Nat) :
    length (make xs) = xs.length ∧ (isEmpty (make xs) = true ↔ xs = []) ∧
      atIdx (make xs) i = (xs[i]?).map (fun x => fresh x.1) ∧
      concat (make xs) (make ys) = make (xs ++ ys) ∧ toTuple (make xs) = unpack (make xs) := by
  refine ⟨by simp [length, unpack, make], by simp [isEmpty, make], ?_, by simp [concat, make], rfl⟩
  rw [atIdx, make, List.getElem?_map, Option.map_map]; rfl

/-- C146: a list made of results: the function is asked for its type only, so the values it returns are lost; exactly
when each of them is what a new object is, the list hands them out. -/
theorem transform_exact (f : Obj W → Obj W) (l : List W.Ty) :
    unpack (transform f l) = (unpack l).map f ↔ ∀ t ∈ l, f (fresh t) = fresh (f (fresh t)).1 := by
  rw [unpack, unpack, transform, List.map_map, List.map_map]
  constructor
  · intro h t ht
    exact (List.map_inj_left.mp h t ht).symm
  · intro h
    exact List.map_congr_left fun t ht => (h t ht).symm

example : unpack (transform (fun x => ⟨some 9, (fun _ => ()) x⟩) (make [tag 1, num 4] : List demo.Ty)) =
    [tag 9, tag 9] := rfl

private theorem mapM_range {α : Type} (g : Nat → Option α) : ∀ (n : Nat) (l : List α), l.length = n →
    (∀ i, i < n → g i = l[i]?) → (List.range n).mapM g = some l := by
  intro n
  induction n with
  | zero => intro l hl _; cases l <;> simp_all
  | succ n ih =>
    intro l hl h
    rcases List.eq_nil_or_concat l with e | ⟨l', a, e⟩
    · subst e; simp at hl
    · subst e
      simp at hl
      have h1 := ih l' hl fun i hi => by
        rw [h i (by omega)]
        simp only [List.concat_eq_append]
        exact List.getElem?_append_left (by omega)
      have h2 := h n (by omega)
      simp [← hl] at h2
      rw [List.range_succ, List.mapM_append, h1]
      rw [hl] at h2
      simp [h2]

/-- C146: dropping elements from the front compiles if and only if there are that many, and then leaves the others. -/
theorem drop_exact (l : List W.Ty) (n : Nat) :
    dropFront l n = if n ≤ l.length then some (l.drop n) else none := by
  have hl : length l = l.length := by simp [length, unpack]
  rw [dropFront, hl]
  by_cases h : n ≤ l.length
  · rw [if_neg (by omega), if_pos h, minus, if_pos h]
    refine mapM_range _ _ _ (by simp) fun i hi => ?_
    rw [atIdx, Option.map_map, List.getElem?_drop, Nat.add_comm n i]
    cases l[i + n]? <;> rfl
  · rw [if_pos (by omega), if_neg h, atIdx, List.getElem?_eq_none (by omega)]
    rfl

/-- C146: Hana's `drop_front` of more elements than there are is the empty sequence; for these lists it does not
compile. -/
theorem drop_violated : dropFront (make [tag 1]) 2 = none ∧ (make [tag 1]).drop 2 = [] := by
  refine ⟨?_, rfl⟩
  rw [drop_exact]; rfl

example : dropFront (make [tag 1, num 5, tag 3]) 2 = some [some 3] := by rw [drop_exact]; rfl

/-- C146: two lists are equal if and only if they are equally long and new objects of the types at the same places are
equal. -/
theorem equal_exact (eq : Obj W → Obj W → Bool) (a b : List W.Ty) :
    equal eq a b = true ↔
      a.length = b.length ∧ ∀ (i : Nat) (t u : W.Ty), a[i]? = some t → b[i]? = some u →
        eq (fresh t) (fresh u) = true := by
  induction a generalizing b with
  | nil => cases b <;> simp [equal]
  | cons t a ih =>
    cases b with
    | nil => simp [equal]
    | cons u b =>
      rw [equal, Bool.and_eq_true, ih]
      constructor
      · rintro ⟨h1, h2, h3⟩
        refine ⟨by simp [h2], fun i x y hx hy => ?_⟩
        cases i with
        | zero => simp at hx hy; subst hx; subst hy; exact h1
        | succ i => exact h3 i x y (by simpa using hx) (by simpa using hy)
      · rintro ⟨h1, h2⟩
        exact ⟨h2 0 t u rfl rfl, by simpa using h1, fun i x y hx hy => h2 (i + 1) x y (by simpa using hx) (by simpa using hy)⟩

/-- C146: so lists of different values can be equal: `[5]` and `[7]` are, whatever the comparison says of 5 and 7. -/
theorem equal_violated (eq : Obj demo → Obj demo → Bool) (h : eq (num 0) (num 0) = true) :
    equal eq (make [num 5]) (make [num 7]) = true := by
  have e : equal eq (make [num 5]) (make [num 7]) = (eq (num 0) (num 0) && true) := rfl
  rw [e, h]; rfl

example : equal (fun _ _ => true) (make [tag 1, tag 2]) (make [tag 1]) = false := rfl

/-! ## Texts -/

private theorem foldl_concat (r : List (List Char)) (s : List Char) : r.foldl stringConcat s = s ++ r.flatten := by
  induction r generalizing s with
  | nil => simp
  | cons a r ih => rw [List.foldl_cons, ih]; simp [stringConcat]

private theorem flatten_intersperse (d : List Char) : ∀ l, (intersperse d l).flatten = joined d l
  | [] => rfl
  | [s] => by simp [intersperse, joined]
  | s :: t :: r => by
    rw [intersperse, joined, List.flatten_cons, List.flatten_cons, flatten_intersperse d (t :: r)]
    simp

/-- C147: joining one or more texts gives the texts in order with the delimiter between each two of them; joining none
gives no text. -/
theorem join_exact (d : List Char) (strings : List (List Char)) :
    stringJoin d strings = if strings = [] then some (.waits d) else some (.text (joined d strings)) := by
  cases strings with
  | nil => rfl
  | cons s r =>
    rw [stringJoin, if_neg (by simp), ← flatten_intersperse]
    cases r with
    | nil => simp [intersperse, foldLeft]
    | cons t r =>
      rw [intersperse, foldLeft, foldl_concat]
      simp

/-- C147: the text joined of no texts is not the empty text but a function. -/
theorem join_none_violated : stringJoin [','] [] ≠ some (.text (joined [','] [])) := by decide +kernel

example : stringJoin ", ".toList ["a".toList, "".toList, "bc".toList] = some (.text "a, , bc".toList) := by
  decide +kernel

private theorem joined_cons (c : Char) (s : List Char) (l : List (List Char)) (h : l ≠ []) :
    joined [c] (s :: l) = s ++ c :: joined [c] l := by
  cases l with
  | nil => exact absurd rfl h
  | cons t r => rw [joined]; simp

private theorem cut (c : Char) : ∀ (s s' x y : List Char), c ∉ s → c ∉ s' → s ++ c :: x = s' ++ c :: y → s = s' ∧ x = y
  | [], [], x, y, _, _, h => by simpa using h
  | [], a :: s', x, y, _, h2, h => by
    simp at h
    exact absurd h.1 (fun e => h2 (by simp [e]))
  | a :: s, [], x, y, h1, _, h => by
    simp at h
    exact absurd h.1.symm (fun e => h1 (by simp [e]))
  | a :: s, b :: s', x, y, h1, h2, h => by
    simp at h
    have := cut c s s' x y (fun e => h1 (by simp [e])) (fun e => h2 (by simp [e])) h.2
    exact ⟨by rw [h.1, this.1], this.2⟩

private theorem joined_inj (c : Char) : ∀ a b : List (List Char), a ≠ [] → b ≠ [] → (∀ s ∈ a, c ∉ s) → (∀ s ∈ b, c ∉ s) →
    joined [c] a = joined [c] b → a = b
  | [], _, h, _, _, _, _ => absurd rfl h
  | _, [], _, h, _, _, _ => absurd rfl h
  | [s], [s'], _, _, _, _, h => by simpa [joined] using h
  | [s], s' :: t :: r, _, _, h1, _, h => by
    rw [joined_cons c s' (t :: r) (by simp)] at h
    exact absurd (show c ∈ s by rw [joined] at h; rw [h]; simp) (h1 s (by simp))
  | s :: t :: r, [s'], _, _, _, h2, h => by
    rw [joined_cons c s (t :: r) (by simp)] at h
    exact absurd (show c ∈ s' by rw [joined] at h; rw [← h]; simp) (h2 s' (by simp))
  | s :: t :: r, s' :: t' :: r', _, _, h1, h2, h => by
    rw [joined_cons c s _ (by simp), joined_cons c s' _ (by simp)] at h
    have hc := cut c s s' _ _ (h1 s (by simp)) (h2 s' (by simp)) h
    have := joined_inj c (t :: r) (t' :: r') (by simp) (by simp) (fun x hx => h1 x (by simp [hx]))
      (fun x hx => h2 x (by simp [hx])) hc.2
    rw [hc.1, this]

/-- C147: texts joined with a character that occurs in none of them are joined differently unless they are the same
texts. -/
theorem join_injective (c : Char) (a b : List (List Char)) (ha : ∀ s ∈ a, c ∉ s) (hb : ∀ s ∈ b, c ∉ s) :
    stringJoin [c] a = stringJoin [c] b ↔ a = b := by
  refine ⟨fun h => ?_, fun h => by rw [h]⟩
  rw [join_exact, join_exact] at h
  by_cases h1 : a = []
  · by_cases h2 : b = []
    · rw [h1, h2]
    · simp [h1, h2] at h
  · by_cases h2 : b = []
    · simp [h1, h2] at h
    · rw [if_neg h1, if_neg h2] at h
      exact joined_inj c a b h1 h2 ha hb (by simpa using h)

/-- C147: where the character does occur, texts may be joined to the same. -/
theorem join_ambiguous_violated :
    stringJoin [','] [['a'], ['b', ',', 'c']] = stringJoin [','] [['a', ',', 'b'], ['c']] := by decide +kernel

example : stringJoin [','] [['a'], ['b']] ≠ stringJoin [','] [['a', 'b']] :=
  fun h => absurd ((join_injective ',' _ _ (by decide) (by decide)).mp h) (by decide)

end Nbdl.MpList
