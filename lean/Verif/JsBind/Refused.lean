import Verif.JsBind.Props
/-!
# Exactly which JavaScript values the binder refuses

A small specification of what is looked at when a value is read (`Part`, `Reads`), and of the places where there is
nothing to look at (`Stuck`); reading raises an exception exactly if it comes to such a place.
-/
namespace Nbdl.JsBind.Spec
open Nbdl.Bind (Ty Tys denote members alts init Name)

/-- The members with their names. -/
def entries : Tys → List (Name × Ty)
  | .nil => []
  | .cons n t ts => (n, t) :: entries ts

/-- The types of the members that are not empty classes. -/
def fulls (ts : Tys) : List Ty := ((entries ts).map (·.2)).filter fun t => !t.isEmpty

/-- To read a `t` from `j`, a `t'` is read from `j'`, which is a part of `j` (or `j` itself, for a sequence of one
member): an element of a container or a sequence, a member under its name, or what follows the number of an
alternative. -/
def Part (e : Engine) (t : Ty) (j : Js) (t' : Ty) (j' : Js) : Prop :=
  match t with
  | .cont u => t' = u ∧ ∃ (n : Int) (i : Nat), lengthOf e j = some n ∧ (i : Int) < n ∧ item j i = some j'
  | .seq ts => (fulls ts = [t'] ∧ j' = j) ∨
      2 ≤ (fulls ts).length ∧ ∃ i : Nat, (fulls ts)[i]? = some t' ∧ item j i = some j'
  | .record ts => ∃ n, (n, t') ∈ entries ts ∧ prop e j n = some j'
  | .var u ts => t'.isEmpty = false ∧ item j 1 = some j' ∧
      ∃ i : Nat, typeId e j = i ∧ (u :: (entries ts).map (·.2))[i]? = some t'
  | _ => False

/-- The same over any number of steps. -/
inductive Reads (e : Engine) : Ty → Js → Ty → Js → Prop
  | here (t : Ty) (j : Js) : Reads e t j t j
  | there {t : Ty} {j : Js} {t1 : Ty} {j1 : Js} {t' : Ty} {j' : Js} : Part e t j t1 j1 → Reads e t1 j1 t' j' → Reads e t j t' j'

/-- Values of these types have a length. -/
def long : Ty → Bool
  | .str => true
  | .buf => true
  | .fixed _ => true
  | .cont _ => true
  | _ => false

/-- Values of these types are not read from a JavaScript value itself but from parts of it. -/
def composed : Ty → Bool
  | .seq ts => decide (2 ≤ (fulls ts).length)
  | .record ts => !(entries ts).isEmpty
  | .var t _ => !t.isEmpty
  | t => long t

/-- Parts are looked for where there are none, in `null` or `undefined`, or there are said to be a negative number of
them. -/
def Stuck (e : Engine) (t : Ty) (j : Js) : Prop :=
  (composed t = true ∧ (j = .undefined ∨ j = .null)) ∨ (long t = true ∧ ∃ n : Int, lengthOf e j = some n ∧ n < 0)

/-- No text that is read as base64 is so long that decoding it is undefined. -/
def ShortBuffers (e : Engine) (t : Ty) (j : Js) : Prop :=
  ∀ t' j', Reads e t j t' j' → (t' = .buf ∨ ∃ n, t' = .fixed n) → ∀ s, readText e j' = some s → 3 * s.length < 2 ^ 31

end Nbdl.JsBind.Spec

namespace Nbdl.JsBind
open Nbdl.Bind (Ty Tys denote members alts init Name)
open Spec

theorem lengthOf_none (e : Engine) (j : Js) : lengthOf e j = none ↔ j = .undefined ∨ j = .null := by
  cases j <;> simp [lengthOf]

theorem item_none (j : Js) (i : Nat) : item j i = none ↔ j = .undefined ∨ j = .null := by
  cases j <;> simp [item]

theorem prop_none (e : Engine) (j : Js) (n : Name) : prop e j n = none ↔ j = .undefined ∨ j = .null := by
  cases j <;> simp [prop]

/-- Reading comes to a place where it is stuck. -/
def Fails (e : Engine) (t : Ty) (j : Js) : Prop := ∃ t' j', Reads e t j t' j' ∧ Stuck e t' j'

theorem fails_iff (e : Engine) (t : Ty) (j : Js) :
    Fails e t j ↔ Stuck e t j ∨ ∃ t1 j1, Part e t j t1 j1 ∧ Fails e t1 j1 := by
  constructor
  · rintro ⟨t', j', h, hs⟩
    cases h with
    | here => exact Or.inl hs
    | there hp hr => exact Or.inr ⟨_, _, hp, _, _, hr, hs⟩
  · rintro (h | ⟨t1, j1, hp, t', j', hr, hs⟩)
    · exact ⟨t, j, .here t j, h⟩
    · exact ⟨t', j', .there hp hr, hs⟩

theorem short_part {e : Engine} {t : Ty} {j : Js} {t1 : Ty} {j1 : Js} (h : ShortBuffers e t j) (hp : Part e t j t1 j1) :
    ShortBuffers e t1 j1 := fun t' j' hr => h t' j' (.there hp hr)

theorem readText_none (e : Engine) (j : Js) :
    readText e j = none ↔ (j = .undefined ∨ j = .null) ∨ ∃ n : Int, lengthOf e j = some n ∧ n < 0 := by
  cases hj : j with
  | str s => simp [readText, lengthOf]
  | undefined => simp [readText, lengthOf]
  | null => simp [readText, lengthOf]
  | bool b => simp [readText, lengthOf]
  | num n => simp [readText, lengthOf]
  | real => simp [readText, lengthOf]
  | arr js => simp [readText, lengthOf]
  | obj ms =>
    simp only [readText, lengthOf]
    split <;> simp_all

theorem stuck_long {e : Engine} {t : Ty} (j : Js) (h : long t = true) :
    Stuck e t j ↔ (j = .undefined ∨ j = .null) ∨ ∃ n : Int, lengthOf e j = some n ∧ n < 0 := by
  have hc : composed t = true := by cases t <;> simp_all [long, composed]
  simp [Stuck, hc, h]

theorem readBuffer_none (e : Engine) (dynamic : Bool) (j : Js) (old : List Byte)
    (h : ∀ s, readText e j = some s → 3 * s.length < 2 ^ 31) :
    readBuffer e dynamic j old = none ↔ readText e j = none := by
  unfold readBuffer
  cases hr : readText e j with
  | none => simp
  | some s =>
    have hs := h s hr
    cases dynamic with
    | true =>
      obtain ⟨b, o, hd, _⟩ := Base64.decode2_partial s old hs
      simp [hd]
    | false =>
      obtain ⟨b, o, hd, _⟩ := Base64.decode2_fixed_partial s old hs
      simp [hd]

theorem readAll_none {α : Type} (f : Js → Option α) (j : Js) (hj : ¬ (j = .undefined ∨ j = .null)) : ∀ (n i : Nat),
    readAll f j i n = none ↔ ∃ k x, i ≤ k ∧ k < i + n ∧ item j k = some x ∧ f x = none
  | 0, i => by
    simp only [readAll]
    constructor
    · intro h; cases h
    · rintro ⟨k, x, h1, h2, _⟩; omega
  | n + 1, i => by
    rw [readAll]
    cases hi : item j i with
    | none => exact absurd ((item_none j i).1 hi) hj
    | some y =>
      simp only []
      cases hy : f y with
      | none =>
        simp only [true_iff]
        exact ⟨i, y, by omega, by omega, hi, hy⟩
      | some a =>
        simp only [Option.map_eq_none_iff]
        rw [readAll_none f j hj n (i + 1)]
        constructor
        · rintro ⟨k, x, h1, h2, h3, h4⟩
          exact ⟨k, x, by omega, by omega, h3, h4⟩
        · rintro ⟨k, x, h1, h2, h3, h4⟩
          by_cases hk : k = i
          · subst hk
            rw [hi] at h3
            cases h3
            rw [hy] at h4
            cases h4
          · exact ⟨k, x, by omega, by omega, h3, h4⟩

theorem count_fulls : (ts : Tys) → ts.count = (fulls ts).length
  | .nil => rfl
  | .cons _ t ts => by
    have ih := count_fulls ts
    simp only [Tys.count, fulls, entries, List.map_cons]
    cases he : t.isEmpty <;> simp [he, ih, fulls]

theorem fulls_cons (n : Name) (t : Ty) (ts : Tys) :
    fulls (.cons n t ts) = if t.isEmpty then fulls ts else t :: fulls ts := by
  cases he : t.isEmpty <;> simp [fulls, entries, he]

theorem entries_length : (ts : Tys) → (entries ts).length = ts.length
  | .nil => rfl
  | .cons _ _ ts => by simp [entries, Tys.length, entries_length ts]

/-- What the sub-readers need: reading fails exactly where `Fails` says. -/
def Right (e : Engine) (t : Ty) : Prop :=
  ∀ (j : Js) (old : denote t), ShortBuffers e t j → (read e t j old = none ↔ Fails e t j)

theorem readOne_none (e : Engine) : (ts : Tys) → (∀ x ∈ entries ts, Right e x.2) → (t : Ty) → fulls ts = [t] →
    ∀ (j : Js) (old : members ts), ShortBuffers e t j → (readOne e ts j old = none ↔ Fails e t j)
  | .nil, _, t, h, _, _, _ => by simp [fulls, entries] at h
  | .cons n u ts, hr, t, h, j, old, hs => by
    rw [fulls_cons] at h
    rw [readOne]
    cases he : u.isEmpty with
    | true =>
      rw [he] at h
      simp only [if_true, Option.map_eq_none_iff]
      exact readOne_none e ts (fun x hx => hr x (by simp [entries, hx])) t h j old.2 hs
    | false =>
      rw [he] at h
      simp only [Bool.false_eq_true, if_false, List.cons.injEq] at h ⊢
      rw [Option.map_eq_none_iff]
      obtain ⟨rfl, _⟩ := h
      exact hr (n, u) (by simp [entries]) j old.1 hs

theorem readMany_none (e : Engine) (j : Js) : (ts : Tys) → (∀ x ∈ entries ts, Right e x.2) → ∀ (i : Nat) (old : members ts),
    (∀ k t x, (fulls ts)[k]? = some t → item j (i + k) = some x → ShortBuffers e t x) →
    (readMany e ts j i old = none ↔
      (fulls ts ≠ [] ∧ (j = .undefined ∨ j = .null)) ∨
        ∃ (k : Nat) (t : Ty) (x : Js), (fulls ts)[k]? = some t ∧ item j (i + k) = some x ∧ Fails e t x)
  | .nil, _, i, old, _ => by simp [readMany, fulls, entries]
  | .cons n u ts, hr, i, old, hs => by
    rw [readMany]
    rw [fulls_cons] at hs ⊢
    cases he : u.isEmpty with
    | true =>
      rw [he] at hs
      simp only [if_true, Option.map_eq_none_iff] at hs ⊢
      exact readMany_none e j ts (fun x hx => hr x (by simp [entries, hx])) i old.2 hs
    | false =>
      rw [he] at hs
      simp only [Bool.false_eq_true, if_false] at hs ⊢
      cases hi : item j i with
      | none =>
        have := (item_none j i).1 hi
        simp [this]
      | some y =>
        have hj : ¬ (j = .undefined ∨ j = .null) := fun h => by rw [(item_none j i).2 h] at hi; cases hi
        have h1 := hr (n, u) (by simp [entries]) y old.1 (hs 0 u y rfl hi)
        have h2 := readMany_none e j ts (fun x hx => hr x (by simp [entries, hx])) (i + 1) old.2
          (fun k t x hk hx => hs (k + 1) t x (by simpa using hk) (by rw [show i + (k + 1) = i + 1 + k by omega]; exact hx))
        simp only [hj, and_false, false_or] at h2 ⊢
        cases hy : read e u y old.1 with
        | none =>
          simp only [true_iff]
          exact ⟨0, u, y, rfl, hi, h1.1 hy⟩
        | some v =>
          simp only [Option.map_eq_none_iff]
          rw [h2]
          constructor
          · rintro ⟨k, t, x, a, b, c⟩
            exact ⟨k + 1, t, x, by simpa using a, by rw [show i + (k + 1) = i + 1 + k by omega]; exact b, c⟩
          · rintro ⟨k, t, x, a, b, c⟩
            cases k with
            | zero =>
              exfalso
              simp only [List.getElem?_cons_zero, Option.some.injEq] at a
              subst a
              rw [Nat.add_zero, hi] at b
              cases b
              rw [h1.2 c] at hy
              cases hy
            | succ k =>
              exact ⟨k, t, x, by simpa using a, by rw [show i + 1 + k = i + (k + 1) by omega]; exact b, c⟩

theorem readNamed_none (e : Engine) (j : Js) : (ts : Tys) → (∀ x ∈ entries ts, Right e x.2) → ∀ old : members ts,
    (∀ n t x, (n, t) ∈ entries ts → prop e j n = some x → ShortBuffers e t x) →
    (readNamed e ts j old = none ↔
      (entries ts ≠ [] ∧ (j = .undefined ∨ j = .null)) ∨
        ∃ (n : Name) (t : Ty) (x : Js), (n, t) ∈ entries ts ∧ prop e j n = some x ∧ Fails e t x)
  | .nil, _, old, _ => by simp [readNamed, entries]
  | .cons n u ts, hr, old, hs => by
    rw [readNamed]
    cases hi : prop e j n with
    | none =>
      have := (prop_none e j n).1 hi
      simp [this, entries]
    | some y =>
      have hj : ¬ (j = .undefined ∨ j = .null) := fun h => by rw [(prop_none e j n).2 h] at hi; cases hi
      have h1 := hr (n, u) (by simp [entries]) y old.1 (hs n u y (by simp [entries]) hi)
      have h2 := readNamed_none e j ts (fun x hx => hr x (by simp [entries, hx])) old.2
        (fun m t x hm hx => hs m t x (by simp [entries, hm]) hx)
      simp only [hj, and_false, false_or] at h2 ⊢
      cases hy : read e u y old.1 with
      | none =>
        simp only [true_iff]
        exact ⟨n, u, y, by simp [entries], hi, h1.1 hy⟩
      | some v =>
        simp only [Option.map_eq_none_iff]
        rw [h2]
        constructor
        · rintro ⟨m, t, x, a, b, c⟩
          exact ⟨m, t, x, by simp [entries, a], b, c⟩
        · rintro ⟨m, t, x, a, b, c⟩
          simp only [entries, List.mem_cons, Prod.mk.injEq] at a
          rcases a with ⟨rfl, rfl⟩ | a
          · exfalso
            rw [hi] at b
            cases b
            rw [h1.2 c] at hy
            cases hy
          · exact ⟨m, t, x, a, b, c⟩

/-- One alternative, when `j` has parts. -/
theorem alt_none {e : Engine} {t : Ty} (hr : Right e t) {j x : Js} (hx : item j 1 = some x) (hs : t.isEmpty = false → ShortBuffers e t x) :
    ((if t.isEmpty then some (init t)
      else match item j 0, item j 1 with
        | some _, some x => read e t x (init t)
        | _, _ => none) = none) ↔ t.isEmpty = false ∧ Fails e t x := by
  have hj : ¬ (j = .undefined ∨ j = .null) := fun h => by rw [(item_none j 1).2 h] at hx; cases hx
  cases he : t.isEmpty with
  | true => simp
  | false =>
    simp only [Bool.false_eq_true, if_false, true_and]
    cases h0 : item j 0 with
    | none => exact absurd ((item_none j 0).1 h0) hj
    | some y =>
      simp only [hx]
      exact hr x (init t) (hs he)

theorem readAlts_none (e : Engine) (j x : Js) (hx : item j 1 = some x) : (ts : Tys) → (∀ y ∈ entries ts, Right e y.2) →
    ∀ (i : Nat), i < ts.length →
    (∀ t, ((entries ts).map (·.2))[i]? = some t → t.isEmpty = false → ShortBuffers e t x) →
    (readAlts e ts i j = none ↔
      ∃ t, ((entries ts).map (·.2))[i]? = some t ∧ t.isEmpty = false ∧ Fails e t x)
  | .nil, _, i, hl, _ => by simp [Tys.length] at hl
  | .cons n u ts, hr, 0, _, hs => by
    have h := alt_none (hr (n, u) (by simp [entries])) hx (fun he => hs u (by simp [entries]) he)
    rw [readAlts]
    simp only [entries, List.map_cons, List.getElem?_cons_zero, Option.some.injEq, exists_eq_left']
    rw [← h]
    cases he : u.isEmpty with
    | true => simp
    | false =>
      simp only [Bool.false_eq_true, if_false]
      split <;> simp_all
  | .cons n u ts, hr, i + 1, hl, hs => by
    rw [readAlts, Option.map_eq_none_iff]
    have h := readAlts_none e j x hx ts (fun y hy => hr y (by simp [entries, hy])) i (by simp [Tys.length] at hl; omega)
      (fun t ht he => hs t (by simpa [entries] using ht) he)
    rw [h]
    simp [entries]

mutual
theorem right : (t : Ty) → ∀ e : Engine, Right e t
  | .empty, e => fun j old _ => by
    rw [fails_iff]
    simp [read, Stuck, composed, long, Part]
  | .uint, e => fun j old _ => by
    rw [fails_iff]
    simp [read, Stuck, composed, long, Part]
  | .int, e => fun j old _ => by
    rw [fails_iff]
    simp [read, Stuck, composed, long, Part]
  | .enum, e => fun j old _ => by
    rw [fails_iff]
    simp [read, Stuck, composed, long, Part]
  | .str, e => fun j old _ => by
    rw [fails_iff, stuck_long j rfl, read, readText_none]
    simp [Part]
  | .buf, e => fun j old hs => by
    rw [fails_iff, stuck_long j rfl, read, readBuffer_none e true j old (hs .buf j (.here _ _) (Or.inl rfl)), readText_none]
    simp [Part]
  | .fixed n, e => fun j old hs => by
    rw [fails_iff, stuck_long j rfl, read, Option.map_eq_none_iff,
      readBuffer_none e false j _ (hs (.fixed n) j (.here _ _) (Or.inr ⟨n, rfl⟩)), readText_none]
    simp [Part]
  | .cont t, e => fun j old hs => by
    rw [fails_iff, stuck_long j rfl, read]
    cases hl : lengthOf e j with
    | none => simp [(lengthOf_none e j).1 hl]
    | some n =>
      have hj : ¬ (j = .undefined ∨ j = .null) := fun h => by rw [(lengthOf_none e j).2 h] at hl; cases hl
      simp only [hj, false_or]
      by_cases hn : n < 0
      · simp [hn]
      · simp only [hn, if_false, Option.some.injEq]
        rw [readAll_none _ j hj]
        have hp : ∀ (k : Nat) (x : Js), (k : Int) < n → item j k = some x → Part e (.cont t) j t x :=
          fun k x hk hx => ⟨rfl, n, k, hl, hk, hx⟩
        constructor
        · rintro ⟨k, x, _, h2, h3, h4⟩
          have hk : (k : Int) < n := by omega
          exact Or.inr ⟨t, x, hp k x hk h3, (right t e x _ (short_part hs (hp k x hk h3))).1 h4⟩
        · rintro (⟨m, rfl, h⟩ | ⟨t1, x, ⟨rfl, m, k, h1, h2, h3⟩, h4⟩)
          · omega
          · rw [hl] at h1
            cases h1
            exact ⟨k, x, by omega, by omega, h3, (right _ e x _ (short_part hs (hp k x h2 h3))).2 h4⟩
  | .seq ts, e => fun j old hs => by
    rw [fails_iff, read, count_fulls]
    by_cases h0 : (fulls ts).length = 0
    · have hn : fulls ts = [] := List.length_eq_zero_iff.1 h0
      simp [hn, Stuck, composed, long, Part]
    · rw [if_neg h0]
      by_cases h1 : (fulls ts).length = 1
      · rw [if_pos h1]
        obtain ⟨t, ht⟩ := List.length_eq_one_iff.1 h1
        have hp : Part e (.seq ts) j t j := Or.inl ⟨ht, rfl⟩
        rw [readOne_none e ts (rightAll ts e) t ht j old (short_part hs hp)]
        simp only [Stuck, composed, long, Part, ht, List.length_cons, List.length_nil]
        constructor
        · intro hf; exact Or.inr ⟨t, j, Or.inl ⟨rfl, rfl⟩, hf⟩
        · rintro (h | ⟨t1, j1, h, hf⟩)
          · simp at h
          · simp only [List.cons.injEq, and_true] at h
            rcases h with ⟨rfl, rfl⟩ | ⟨h, _⟩
            · exact hf
            · omega
      · rw [if_neg h1]
        have h2 : 2 ≤ (fulls ts).length := by omega
        have hne : fulls ts ≠ [] := fun h => h0 (by rw [h]; rfl)
        have hone : ∀ t, fulls ts ≠ [t] := fun t h => h1 (by rw [h]; rfl)
        rw [readMany_none e j ts (rightAll ts e) 0 old
          (fun k t x hk hx => short_part hs (Or.inr ⟨h2, k, hk, by simpa using hx⟩))]
        simp only [Stuck, composed, long, Part, h2, hne, hone, ne_eq, not_false_eq_true, true_and, decide_true,
          Bool.false_eq_true, false_and, or_false, false_or, Nat.zero_add]
        refine or_congr Iff.rfl ?_
        constructor
        · rintro ⟨k, t, x, a, b, c⟩; exact ⟨t, x, ⟨k, a, b⟩, c⟩
        · rintro ⟨t, x, ⟨k, a, b⟩, c⟩; exact ⟨k, t, x, a, b, c⟩
  | .record ts, e => fun j old hs => by
    rw [fails_iff, read, readNamed_none e j ts (rightAll ts e) old (fun n t x hm hx => short_part hs ⟨n, hm, hx⟩)]
    have hl : long (.record ts) = false := rfl
    have hc : composed (.record ts) = true ↔ entries ts ≠ [] := by simp [composed]
    simp only [Stuck, hl, hc, Bool.false_eq_true, false_and, or_false]
    refine or_congr Iff.rfl ?_
    constructor
    · rintro ⟨n, t, x, a, b, c⟩; exact ⟨t, x, ⟨n, a, b⟩, c⟩
    · rintro ⟨t, x, ⟨n, a, b⟩, c⟩; exact ⟨n, t, x, a, b, c⟩
  | .var t ts, e => fun j old hs => by
    rw [fails_iff, read]
    have hl : long (.var t ts) = false := rfl
    have hc : composed (.var t ts) = true ↔ t.isEmpty = false := by simp [composed]
    simp only [Stuck, hl, hc, Bool.false_eq_true, false_and, or_false]
    by_cases hj : j = .undefined ∨ j = .null
    · have hid : typeId e j = 0 := by rcases hj with rfl | rfl <;> rfl
      have h0 : item j 0 = none := (item_none j 0).2 hj
      have h1 : item j 1 = none := (item_none j 1).2 hj
      rw [if_pos hid]
      cases he : t.isEmpty with
      | true => simp [Part, h1]
      | false => simp [h0, hj]
    · cases h1 : item j 1 with
      | none => exact absurd ((item_none j 1).1 h1) hj
      | some x =>
        simp only [hj, and_false, false_or]
        by_cases h0 : typeId e j = 0
        · rw [if_pos h0]
          have hp : t.isEmpty = false → Part e (.var t ts) j t x := fun he => ⟨he, h1, 0, by simp [h0], rfl⟩
          have h := alt_none (right t e) h1 (fun he => short_part hs (hp he))
          have hq : (if t.isEmpty = true then some (.inl (init t))
              else match item j 0, item j 1 with
                | some _, some x => (read e t x (init t)).map .inl
                | _, _ => none) = (none : Option (denote (.var t ts))) ↔ t.isEmpty = false ∧ Fails e t x := by
            rw [← h]
            cases he : t.isEmpty with
            | true => simp
            | false =>
              simp only [Bool.false_eq_true, if_false]
              split <;> simp_all
          rw [h1] at hq
          refine Iff.trans hq ?_
          constructor
          · rintro ⟨he, hf⟩; exact ⟨t, x, hp he, hf⟩
          · rintro ⟨t1, x1, ⟨a, b, i, c, d⟩, hf⟩
            have hi : i = 0 := by omega
            subst hi
            simp only [List.getElem?_cons_zero, Option.some.injEq] at d
            subst d
            rw [h1] at b
            cases b
            exact ⟨a, hf⟩
        · rw [if_neg h0]
          by_cases hr : 0 < typeId e j ∧ typeId e j < ts.length + 1
          · rw [if_pos hr, Option.map_eq_none_iff]
            have hlt : (typeId e j).toNat - 1 < ts.length := by omega
            have hid : typeId e j = (((typeId e j).toNat - 1 + 1 : Nat) : Int) := by omega
            have hp : ∀ u, ((entries ts).map (·.2))[(typeId e j).toNat - 1]? = some u → u.isEmpty = false →
                Part e (.var t ts) j u x := fun u hu he =>
              ⟨he, h1, (typeId e j).toNat - 1 + 1, hid, by simpa using hu⟩
            rw [readAlts_none e j x h1 ts (rightAll ts e) _ hlt (fun u hu he => short_part hs (hp u hu he))]
            constructor
            · rintro ⟨u, hu, he, hf⟩; exact ⟨u, x, hp u hu he, hf⟩
            · rintro ⟨t1, x1, ⟨a, b, i, c, d⟩, hf⟩
              have hi : i = (typeId e j).toNat - 1 + 1 := by omega
              subst hi
              rw [h1] at b
              cases b
              exact ⟨t1, by simpa using d, a, hf⟩
          · rw [if_neg hr]
            simp only [reduceCtorEq, false_iff]
            rintro ⟨t1, x1, ⟨a, b, i, c, d⟩, hf⟩
            have hi := (List.getElem?_eq_some_iff.1 d).1
            simp only [List.length_cons, List.length_map, entries_length] at hi
            omega
theorem rightAll : (ts : Tys) → ∀ e : Engine, ∀ x ∈ entries ts, Right e x.2
  | .nil, _, x, h => by simp [entries] at h
  | .cons n t ts, e, x, h => by
    simp only [entries, List.mem_cons] at h
    rcases h with rfl | h
    · exact right t e
    · exact rightAll ts e x h
end

/-- C82, what is refused exactly: reading a value raises an exception if and only if it comes to a place where parts
are looked for in `null` or `undefined`, or where there is a negative number of parts.  (Everything else is read as
some value; see the violations.) -/
theorem js_refused_iff_partial (e : Engine) (t : Ty) (j : Js) (old : denote t) (hs : ShortBuffers e t j) :
    read e t j old = none ↔ ∃ t' j', Reads e t j t' j' ∧ Stuck e t' j' := right t e j old hs

/-- An entity with a number and a list of strings whose second string is null is refused; with texts it is not. -/
example (e : Engine) (he : e.decode (ascii "l") = units "l") (old) :
    read e (.record (.cons (ascii "n") .uint (.cons (ascii "l") (.cont .str) .nil)))
      (.obj [(units "l", .arr [.str [97#16], .null])]) old = none := by
  have hu : utf8ToString e (ascii "l") = units "l" := he
  rw [js_refused_iff_partial]
  · refine ⟨.str, .null, .there (t1 := .cont .str) (j1 := .arr [.str [97#16], .null]) ?_
      (.there (t1 := .str) (j1 := .null) ?_ (.here _ _)), Or.inl ⟨rfl, Or.inr rfl⟩⟩
    · refine ⟨ascii "l", by simp [entries], ?_⟩
      simp only [prop, hu]
      rfl
    · exact ⟨rfl, 2, 1, rfl, by decide, rfl⟩
  · intro t' j' hr hb s hs
    exfalso
    cases hr with
    | here => rcases hb with h | ⟨_, h⟩ <;> cases h
    | there hp hr =>
      obtain ⟨n, hm, _⟩ := hp
      simp only [entries, List.mem_cons, Prod.mk.injEq, List.not_mem_nil, or_false] at hm
      rcases hm with ⟨_, rfl⟩ | ⟨_, rfl⟩
      · cases hr with
        | here => rcases hb with h | ⟨_, h⟩ <;> cases h
        | there hp _ => exact hp
      · cases hr with
        | here => rcases hb with h | ⟨_, h⟩ <;> cases h
        | there hp hr =>
          obtain ⟨rfl, _⟩ := hp
          cases hr with
          | here => rcases hb with h | ⟨_, h⟩ <;> cases h
          | there hp _ => exact hp

end Nbdl.JsBind
