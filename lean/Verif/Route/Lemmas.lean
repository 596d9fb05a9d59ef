import Verif.Route.Spec
/-! # Lemmas about route texts -/
namespace Nbdl.Route
open Spec

/-! ## Numbers -/

theorem digit_char (n : Nat) (h : n < 10) : isDigit (BitVec.ofNat 8 (48 + n)) ∧
    (BitVec.ofNat 8 (48 + n)).toNat - 48 = n := by
  have : (BitVec.ofNat 8 (48 + n)).toNat = 48 + n := by
    rw [BitVec.toNat_ofNat]; omega
  rw [isDigit, this]; omega

theorem digitsAux_digits (fuel n : Nat) : ∀ c ∈ digitsAux fuel n, isDigit c := by
  induction fuel generalizing n with
  | zero => simp [digitsAux]
  | succ fuel ih =>
    intro c hc
    rw [digitsAux] at hc
    split at hc
    · next h => simp at hc; subst hc; exact (digit_char n h).1
    · simp only [List.mem_append, List.mem_singleton] at hc
      rcases hc with hc | rfl
      · exact ih _ c hc
      · exact (digit_char (n % 10) (by omega)).1

theorem number_append (a : List Byte) (c : Byte) : number (a ++ [c]) = number a * 10 + (c.toNat - 48) := by
  simp [number, List.foldl_append]

theorem number_digitsAux (fuel n : Nat) (h : n < fuel) : number (digitsAux fuel n) = n := by
  induction fuel generalizing n with
  | zero => omega
  | succ fuel ih =>
    rw [digitsAux]
    split
    · next h => exact (Nat.zero_add _).trans (digit_char n h).2
    · rw [number_append, ih _ (by omega), (digit_char (n % 10) (by omega)).2]; omega

theorem number_digits (n : Nat) : number (digits n) = n := number_digitsAux _ _ (by omega)

theorem digits_digit (n : Nat) : ∀ c ∈ digits n, isDigit c := digitsAux_digits _ _

theorem digits_ne (n : Nat) : digits n ≠ [] := by
  rw [digits, digitsAux]; split <;> simp

theorem slash_not_digit : ¬ isDigit slash := by simp [isDigit, slash]

theorem toStringInt_segment (i : Int) : Segment (toStringInt i) := by
  have h (n : Nat) : slash ∉ digits n := fun hs => slash_not_digit (digits_digit n _ hs)
  rw [toStringInt]
  split
  · exact ⟨by simp, by simpa using ⟨by decide, h _⟩⟩
  · exact ⟨digits_ne _, h _⟩

theorem integralLoop_spec (W : Nat) (t : List Byte) (r : Nat) (hr : r < 2 ^ W) :
    ((∀ c ∈ t, isDigit c) → integralLoop W r t = t.foldl (fun n c => n * 10 + (c.toNat - 48)) r % 2 ^ W) ∧
    ((¬ ∀ c ∈ t, isDigit c) → integralLoop W r t = 0) := by
  have key (t : List Byte) : ∀ a b, a % 2 ^ W = b % 2 ^ W →
      t.foldl (fun n c => n * 10 + (c.toNat - 48)) a % 2 ^ W =
      t.foldl (fun n c => n * 10 + (c.toNat - 48)) b % 2 ^ W := by
    induction t with
    | nil => exact fun a b h => h
    | cons c t ih =>
      intro a b h
      refine ih _ _ ?_
      rw [Nat.add_mod, Nat.mul_mod, h, ← Nat.mul_mod, ← Nat.add_mod]
  induction t generalizing r with
  | nil => simp [integralLoop, Nat.mod_eq_of_lt hr]
  | cons c t ih =>
    have hpos : 0 < 2 ^ W := Nat.two_pow_pos W
    obtain ⟨h1, h2⟩ := ih ((r * 10 % 2 ^ W + (c.toNat - 48)) % 2 ^ W) (Nat.mod_lt _ hpos)
    by_cases hc : isDigit c
    · have hn : ¬ (c.toNat < 48 ∨ c.toNat - 48 > 9) := by unfold isDigit at hc; omega
      rw [integralLoop, if_neg hn]
      constructor
      · intro h
        rw [h1 fun x hx => h x (by simp [hx]), List.foldl_cons]
        apply key
        rw [Nat.mod_mod, Nat.mod_add_mod]
      · intro h
        apply h2
        intro h'
        exact h fun x hx => by
          rcases List.mem_cons.1 hx with rfl | hx
          · exact hc
          · exact h' x hx
    · have hn : c.toNat < 48 ∨ c.toNat - 48 > 9 := by unfold isDigit at hc; omega
      rw [integralLoop, if_pos hn]
      exact ⟨fun h => absurd (h c (by simp)) hc, fun _ => rfl⟩

theorem toIntegral_digits (W : Nat) (t : List Byte) (h : ∀ c ∈ t, isDigit c) :
    toIntegral W t = number t % 2 ^ W := (integralLoop_spec W t 0 (Nat.two_pow_pos W)).1 h

theorem toIntegral_other (W : Nat) (t : List Byte) (h : ¬ ∀ c ∈ t, isDigit c) : toIntegral W t = 0 :=
  (integralLoop_spec W t 0 (Nat.two_pow_pos W)).2 h

theorem wrap_zero (bits : Nat) (signed : Bool) : wrap bits signed 0 = 0 := by
  cases signed <;> simp [wrap]

theorem wrap_le (bits : Nat) (signed : Bool) (n : Nat) : wrap bits signed n ≤ n := by
  cases signed with
  | false => simp only [wrap, Bool.false_eq_true, if_false]; exact_mod_cast Nat.mod_le n _
  | true =>
    simp only [wrap, if_true]
    have h1 : (n : Int) % (2 ^ bits : Nat) ≤ n := by rw [← Int.natCast_emod]; exact_mod_cast Nat.mod_le n _
    rw [Int.bmod_def]
    split <;> omega

theorem wrap_id (bits : Nat) (signed : Bool) (n : Nat)
    (h : if signed then 2 * (n : Int) < 2 ^ bits else (n : Int) < 2 ^ bits) : wrap bits signed n = n := by
  cases signed with
  | false =>
    simp only [wrap, Bool.false_eq_true, if_false] at h ⊢
    rw [Nat.mod_eq_of_lt (by exact_mod_cast h)]
  | true =>
    simp only [wrap, if_true] at h ⊢
    have h' : 2 * n < 2 ^ bits := by exact_mod_cast h
    rw [Int.bmod_def]
    have h1 : (n : Int) % (2 ^ bits : Nat) = n := by
      rw [← Int.natCast_emod, Nat.mod_eq_of_lt (by omega)]
    rw [h1, if_pos (by omega)]

/-- One member. -/
theorem bindParam_iff (W : Nat) (t : PTy) (x : List Byte) (hx : x ≠ []) (v : PVal) :
    ((bindParam W t x).2 = true ∧ (bindParam W t x).1 = v) ↔ Denotes W t x v := by
  cases t with
  | str =>
    have : 0 < x.length := List.length_pos_iff.2 hx
    simp [bindParam, Denotes, this, eq_comm]
  | int bits signed =>
    simp only [bindParam, Denotes, decide_eq_true_eq]
    by_cases h : ∀ c ∈ x, isDigit c
    · rw [toIntegral_digits W x h]
      constructor
      · rintro ⟨h1, rfl⟩; exact ⟨h, _, rfl, h1, rfl⟩
      · rintro ⟨_, i, rfl, h1, rfl⟩; exact ⟨h1, rfl⟩
    · rw [toIntegral_other W x h, wrap_zero]
      exact ⟨fun h' => absurd rfl h'.1, fun h' => absurd h'.1 h⟩

theorem bindAll_iff (W : Nat) (ts : List PTy) (xs : List (List Byte)) (hx : ∀ x ∈ xs, x ≠ [])
    (hl : xs.length = ts.length) (vs : List PVal) :
    bindAll W ts xs = some vs ↔ DenotesAll W ts xs vs := by
  induction ts generalizing xs vs with
  | nil =>
    have : xs = [] := List.length_eq_zero_iff.1 hl
    subst this
    cases vs <;> simp [bindAll, DenotesAll]
  | cons t ts ih =>
    cases xs with
    | nil => simp at hl
    | cons x xs =>
      have hb := bindParam_iff W t x (hx x (by simp))
      have ih := ih xs (fun y hy => hx y (by simp [hy])) (by simpa using hl)
      simp only [bindAll, List.headD_cons, List.tail_cons]
      cases vs with
      | nil =>
        simp only [DenotesAll, iff_false]
        rcases bindParam W t x with ⟨a, _ | _⟩ <;> simp
      | cons v vs =>
        rw [DenotesAll, ← hb v, ← ih vs]
        rcases bindParam W t x with ⟨a, _ | _⟩ <;> simp
        exact and_comm

/-! ## Parsing -/

theorem span_slash (a r : List Byte) (ha : slash ∉ a) (hr : r = [] ∨ ∃ r', r = slash :: r') :
    (a ++ r).takeWhile (· ≠ slash) = a ∧ (a ++ r).dropWhile (· ≠ slash) = r := by
  have h : ∀ c ∈ a, (decide (c ≠ slash)) = true := fun c hc => by
    simp only [decide_eq_true_eq]; rintro rfl; exact ha hc
  rw [List.takeWhile_append_of_pos h, List.dropWhile_append_of_pos h]
  rcases hr with rfl | ⟨r', rfl⟩ <;> simp

theorem split_slash (a b r1 r2 : List Byte) (ha : slash ∉ a) (hb : slash ∉ b)
    (h1 : r1 = [] ∨ ∃ r', r1 = slash :: r') (h2 : r2 = [] ∨ ∃ r', r2 = slash :: r')
    (h : a ++ r1 = b ++ r2) : a = b ∧ r1 = r2 := by
  obtain ⟨e1, e2⟩ := span_slash a r1 ha h1
  obtain ⟨e3, e4⟩ := span_slash b r2 hb h2
  rw [h] at e1 e2
  exact ⟨e1.symm.trans e3, e2.symm.trans e4⟩

theorem starts (xs : List (List Byte)) (tr : List Byte) (ht : tr = [] ∨ tr = [slash]) :
    xs.flatMap (slash :: ·) ++ tr = [] ∨ ∃ r', xs.flatMap (slash :: ·) ++ tr = slash :: r' := by
  cases xs with
  | nil => rcases ht with rfl | rfl <;> simp
  | cons x xs => exact .inr ⟨_, rfl⟩

/-- What the loop accepts. -/
theorem parseLoop_iff (n : Nat) (v : List Byte) (ps : List (List Byte)) :
    parseLoop n v = (ps, []) ↔ ∃ tr, v = ps.flatMap (slash :: ·) ++ tr ∧ (∀ x ∈ ps, Segment x) ∧
      ps.length ≤ n ∧ (tr = [] ∨ (tr = [slash] ∧ ps.length < n)) := by
  induction n generalizing v ps with
  | zero =>
    rw [parseLoop]
    constructor
    · rintro h
      cases h
      exact ⟨[], rfl, by simp, by simp, .inl rfl⟩
    · rintro ⟨tr, rfl, _, h2, h3⟩
      have : ps = [] := List.length_eq_zero_iff.1 (by omega)
      subst this
      rcases h3 with rfl | ⟨_, h⟩
      · rfl
      · simp at h
  | succ n ih =>
    cases v with
    | nil =>
      simp only [parseLoop, parseParam, List.length_nil, if_true]
      constructor
      · intro h; cases h; exact ⟨[], rfl, by simp, by simp, .inl rfl⟩
      · rintro ⟨tr, h, _⟩
        cases ps with
        | nil => rfl
        | cons => simp at h
    | cons c s =>
      by_cases hc : c = slash
      · subst hc
        simp only [parseLoop, parseParam, ne_eq, not_true, if_false]
        split
        · next h0 =>
          have h0 : s.takeWhile (fun x => decide (¬x = slash)) = [] := List.length_eq_zero_iff.1 h0
          constructor
          · intro h
            simp only [Prod.mk.injEq] at h
            obtain ⟨rfl, h2⟩ := h
            have := List.takeWhile_append_dropWhile (p := fun x => decide (¬x = slash)) (l := s)
            rw [h0, h2] at this
            subst this
            exact ⟨[slash], rfl, by simp, by simp, .inr ⟨rfl, by simp⟩⟩
          · rintro ⟨tr, h, h1, h2, h3⟩
            have ht : tr = [] ∨ tr = [slash] := h3.imp id (·.1)
            cases ps with
            | nil =>
              rcases ht with rfl | rfl
              · simp at h
              · simp at h; subst h; rfl
            | cons x ps =>
              simp only [List.flatMap_cons, List.cons_append, List.cons.injEq, true_and, List.append_assoc] at h
              have hx := h1 x (by simp)
              have := (span_slash x _ hx.2 (starts ps tr ht)).1
              rw [← h] at this
              exact absurd (this.symm.trans h0) hx.1
        · next h0 =>
          have h0 : s.takeWhile (fun x => decide (¬x = slash)) ≠ [] := fun e => h0 (by rw [e]; rfl)
          have hcat := List.takeWhile_append_dropWhile (p := fun x => decide (¬x = slash)) (l := s)
          constructor
          · intro h
            simp only [Prod.mk.injEq] at h
            obtain ⟨rfl, h2⟩ := h
            obtain ⟨tr, e, h3, h4, h5⟩ := (ih (s.dropWhile fun x => decide (¬x = slash)) _).1
              (Prod.ext rfl h2)
            refine ⟨tr, ?_, ?_, by simpa using h4, ?_⟩
            · simp only [List.flatMap_cons, List.cons_append, List.append_assoc]
              rw [← e, hcat]
            · intro x hx
              rcases List.mem_cons.1 hx with rfl | hx
              · refine ⟨h0, fun hs => ?_⟩
                have := List.all_eq_true.1 (List.all_takeWhile (p := fun x => decide (¬x = slash)) (l := s)) _ hs
                simp at this
              · exact h3 x hx
            · rcases h5 with rfl | ⟨rfl, h⟩
              · exact .inl rfl
              · exact .inr ⟨rfl, by simpa using h⟩
          · rintro ⟨tr, h, h1, h2, h3⟩
            have ht : tr = [] ∨ tr = [slash] := h3.imp id (·.1)
            cases ps with
            | nil =>
              rcases ht with rfl | rfl
              · simp at h
              · simp at h; subst h; simp at h0
            | cons x ps =>
              simp only [List.flatMap_cons, List.cons_append, List.cons.injEq, true_and, List.append_assoc] at h
              have hx := h1 x (by simp)
              have e := span_slash x _ hx.2 (starts ps tr ht)
              rw [← h] at e
              have e1 : s.takeWhile (fun x => decide (¬x = slash)) = x := e.1
              have e2 : s.dropWhile (fun x => decide (¬x = slash)) = ps.flatMap (slash :: ·) ++ tr := e.2
              have := (ih (s.dropWhile fun x => decide (¬x = slash)) ps).2
                ⟨tr, e2, fun y hy => h1 y (by simp [hy]), by simpa using h2,
                  h3.imp id fun h => ⟨h.1, by simpa using h.2⟩⟩
              rw [this, e1]
      · simp only [parseLoop, parseParam, ne_eq, hc, not_false_eq_true, if_true, List.length_nil]
        constructor
        · intro h; simp at h
        · rintro ⟨tr, h, _, _, h3⟩
          have ht : tr = [] ∨ tr = [slash] := h3.imp id (·.1)
          rcases starts ps tr ht with h' | ⟨r', h'⟩
          · rw [h'] at h; simp at h
          · rw [h'] at h; simp at h; exact absurd h.1 hc

end Nbdl.Route
