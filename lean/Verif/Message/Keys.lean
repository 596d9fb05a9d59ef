import Verif.Message.Props
/-!
# The keys the echo producer gives, for all integral types of keys (C37)
-/
namespace Nbdl.Message

/-- Counters that wrap. -/
theorem givenKeys_wrapping {T : Type} [DecidableEq T] (sg : Bool) {w : Nat} (h : sg = false ∨ w < 32)
    (counters : T → BitVec w) (ts : List T) : givenKeys sg counters ts = .ok (uniqueKeys counters ts) := by
  have hb : ∀ k : BitVec w, bump sg k = .ok (k + 1) := by
    intro k
    unfold bump
    rw [if_neg]
    rintro ⟨h1, h2, _⟩
    rcases h with h | h
    · rw [h] at h1; cases h1
    · omega
  induction ts generalizing counters with
  | nil => rfl
  | cons t ts ih =>
    rw [givenKeys, hb]
    show Cpp.map _ (givenKeys sg _ ts) = _
    rw [ih]
    rfl

theorem givenKeys_wide {T : Type} [DecidableEq T] {w : Nat} (hw : 32 ≤ w) (t : T) (n : Nat) (counters : T → BitVec w)
    (hc : (counters t).toNat < 2 ^ (w - 1)) :
    ((counters t).toNat + n < 2 ^ (w - 1) →
      givenKeys true counters (List.replicate n t) = .ok (uniqueKeys counters (List.replicate n t)))
    ∧ (2 ^ (w - 1) ≤ (counters t).toNat + n → givenKeys true counters (List.replicate n t) = .ub) := by
  have hp : 2 ^ w = 2 * 2 ^ (w - 1) := by
    rw [← Nat.pow_succ']; congr 1; omega
  have ht : ∀ k : BitVec w, k.toNat < 2 ^ (w - 1) → k.toInt = k.toNat := by
    intro k hk
    rw [BitVec.toInt_eq_toNat_cond, if_pos (by omega)]
  have hcast : ((2 ^ (w - 1) : Nat) : Int) = (2 : Int) ^ (w - 1) := by
    rw [Int.natCast_pow]; rfl
  induction n generalizing counters with
  | zero => exact ⟨fun _ => rfl, fun h => by omega⟩
  | succ n ih =>
    rw [List.replicate_succ, givenKeys]
    by_cases hm : (counters t).toNat + 1 < 2 ^ (w - 1)
    · have hb : bump true (counters t) = .ok (counters t + 1) := by
        unfold bump
        rw [if_neg]
        rintro ⟨_, _, h⟩
        rw [ht _ hc, ← hcast] at h
        omega
      have hs : (counters t + 1).toNat = (counters t).toNat + 1 := by
        rw [BitVec.toNat_add, show BitVec.toNat (1 : BitVec w) = 1 from BitVec.toNat_one (by omega)]
        exact Nat.mod_eq_of_lt (by omega)
      obtain ⟨i1, i2⟩ := ih (fun t' => if t' = t then counters t + 1 else counters t')
        (by simp only [if_true]; omega)
      simp only [if_true, hs] at i1 i2
      rw [hb]
      constructor
      · intro h
        show Cpp.map _ (givenKeys true _ _) = _
        rw [i1 (by omega)]
        rfl
      · intro h
        show Cpp.map _ (givenKeys true _ _) = _
        rw [i2 (by omega)]
        rfl
    · have hb : bump true (counters t) = .ub := by
        unfold bump
        rw [if_pos]
        refine ⟨rfl, hw, ?_⟩
        rw [ht _ hc, ← hcast]
        omega
      rw [hb]
      exact ⟨fun h => by omega, fun _ => rfl⟩

/-- C37, for every integral type of keys: the creates of one message type get different keys, none of them 0, as
long as they are fewer than the type has positive values; with signed keys of the size of `int` or more the next
create is undefined behaviour, with others the keys begin again (`keys_wrap_violated`). -/
theorem keys_all_types_partial {T : Type} [DecidableEq T] (sg : Bool) (w : Nat) (t : T) (n : Nat) :
    (sg = false ∨ w < 32 → n < 2 ^ w →
      ∃ ks, givenKeys sg (fun _ => 0#w) (List.replicate n t) = .ok ks ∧ ks.length = n ∧ ks.Nodup ∧ 0#w ∉ ks)
    ∧ (sg = true → 32 ≤ w → n < 2 ^ (w - 1) →
      ∃ ks, givenKeys sg (fun _ => 0#w) (List.replicate n t) = .ok ks ∧ ks.length = n ∧ ks.Nodup ∧ 0#w ∉ ks
        ∧ ∀ k ∈ ks, 0 < k.toInt)
    ∧ (sg = true → 32 ≤ w → 2 ^ (w - 1) ≤ n → givenKeys sg (fun _ => 0#w) (List.replicate n t) = .ub) := by
  refine ⟨fun h hn => ?_, fun hs hw hn => ?_, fun hs hw hn => ?_⟩
  · obtain ⟨h1, h2, h3⟩ := keys_unique_partial (w := w) t n hn
    exact ⟨_, givenKeys_wrapping sg h _ _, h3, h1, fun h0 => h2 _ h0 rfl⟩
  · subst hs
    have hp : 2 ^ w = 2 * 2 ^ (w - 1) := by
      rw [← Nat.pow_succ']; congr 1; omega
    obtain ⟨h1, h2, h3⟩ := keys_unique_partial (w := w) t n (by omega)
    refine ⟨_, (givenKeys_wide hw t n (fun _ => 0#w) (by simp; omega)).1 (by simp; omega), h3, h1,
      fun h0 => h2 _ h0 rfl, ?_⟩
    intro k hk
    rw [uniqueKeys_same] at hk
    obtain ⟨i, hi, rfl⟩ := List.mem_map.1 hk
    have hi' := List.mem_range'_1.1 hi
    have hv : (0#w + BitVec.ofNat w i).toNat = i := by
      simp
      exact Nat.mod_eq_of_lt (by omega)
    rw [BitVec.toInt_eq_toNat_cond, if_pos (by omega), hv]
    omega
  · subst hs
    have := Nat.two_pow_pos (w - 1)
    exact (givenKeys_wide hw t n (fun _ => 0#w) (by simp; omega)).2 (by simp; omega)

/-- C37 is violated by keys of type `int`: the create number `2^31` of a message type is undefined behaviour. -/
theorem keys_overflow_violated :
    ∃ n, givenKeys true (fun _ : Unit => 0#32) (List.replicate n ()) = .ub :=
  ⟨2 ^ 31, (keys_all_types_partial true 32 () (2 ^ 31)).2.2 rfl (by decide) (by decide)⟩

example : givenKeys true (fun _ : Bool => 0#32) [true, false, true] = .ok [1#32, 1#32, 2#32]
    ∧ givenKeys true (fun _ : Bool => 0x7ffffffe#32) [true, true] = .ub
    ∧ givenKeys true (fun _ : Bool => 0x7e#8) [true, true] = .ok [0x7f#8, 0x80#8]
    ∧ givenKeys false (fun _ : Bool => 0xffffffff#32) [true, true] = .ok [0#32, 1#32] := by decide +kernel

end Nbdl.Message
