import Verif.Message.Keys

/-! # Exactly which histories of creates get keys that are all different (C37) -/

namespace Nbdl.Message

theorem uniqueKeys_length {T : Type} [DecidableEq T] {w : Nat} (counters : T → BitVec w) (ts : List T) :
    (uniqueKeys counters ts).length = ts.length := by
  induction ts generalizing counters with
  | nil => rfl
  | cons t ts ih => simp [uniqueKeys, ih]

/-- Each message type in a history has a create that gets the key 1. -/
theorem first_key {T : Type} [DecidableEq T] {w : Nat} {ts : List T} {t : T} (h : t ∈ ts) :
    ∃ i, ∃ hi : i < ts.length, ∃ hk : i < (uniqueKeys (fun _ => 0#w) ts).length,
      ts[i] = t ∧ (uniqueKeys (fun _ => 0#w) ts)[i] = 1#w := by
  have hk := keys_independent (fun _ => 0#w) t ts
  rw [uniqueKeys_same] at hk
  have hc : 0 < ts.count t := List.count_pos_iff.2 h
  have hm : (1#w : BitVec w) ∈ (((uniqueKeys (fun _ => 0#w) ts).zip ts).filter fun x => x.2 = t).map (·.1) := by
    rw [hk]
    refine List.mem_map.2 ⟨1, List.mem_range'_1.2 ⟨Nat.le_refl 1, by omega⟩, by simp⟩
  obtain ⟨⟨k, t'⟩, hx, e1⟩ := List.mem_map.1 hm
  obtain ⟨hz, et⟩ := List.mem_filter.1 hx
  have et' : t' = t := by simpa using et
  have ek : k = 1#w := e1
  subst et' ek
  obtain ⟨i, hi, e⟩ := List.mem_iff_getElem.1 hz
  have hl := uniqueKeys_length (fun _ => 0#w) ts
  rw [List.length_zip] at hi
  rw [List.getElem_zip] at e
  have e' := Prod.mk.inj e
  exact ⟨i, by omega, by omega, e'.2, e'.1⟩

/-- C37, exactly: whatever the creates a producer gets, of whatever message types and however many, the keys it gives
them are all different and never 0 if and only if all the creates are of one message type and there are fewer than
`2^w` of them, where the keys have `w` bits. -/
theorem keys_exact {T : Type} [DecidableEq T] {w : Nat} (ts : List T) :
    ((uniqueKeys (fun _ => 0#w) ts).Nodup ∧ ∀ k ∈ uniqueKeys (fun _ => 0#w) ts, k ≠ 0#w) ↔
      (∀ t ∈ ts, ∀ t' ∈ ts, t = t') ∧ ts.length < 2 ^ w := by
  constructor
  · rintro ⟨hn, h0⟩
    have h1 : ∀ t ∈ ts, ∀ t' ∈ ts, t = t' := by
      intro t ht t' ht'
      obtain ⟨i, hi, hk, e, ek⟩ := first_key (w := w) ht
      obtain ⟨j, hj, hk', e', ek'⟩ := first_key (w := w) ht'
      have hij : i = j := (List.getElem_inj hn).1 (ek.trans ek'.symm)
      subst hij
      exact e.symm.trans e'
    refine ⟨h1, ?_⟩
    cases ts with
    | nil => exact Nat.two_pow_pos w
    | cons t r =>
      have er : t :: r = List.replicate (t :: r).length t :=
        List.eq_replicate_iff.2 ⟨rfl, fun x hx => h1 x hx t (by simp)⟩
      refine Nat.lt_of_not_le fun hle => h0 0#w ?_ rfl
      rw [er, uniqueKeys_same]
      refine List.mem_map.2 ⟨2 ^ w, List.mem_range'_1.2 ⟨Nat.two_pow_pos w, by omega⟩, ?_⟩
      apply BitVec.eq_of_toNat_eq
      simp
  · rintro ⟨h1, hl⟩
    cases ts with
    | nil => exact ⟨by simp [uniqueKeys], by simp [uniqueKeys]⟩
    | cons t r =>
      have er : t :: r = List.replicate (t :: r).length t :=
        List.eq_replicate_iff.2 ⟨rfl, fun x hx => h1 x hx t (by simp)⟩
      have h := keys_unique_partial (w := w) t (t :: r).length hl
      rw [← er] at h
      exact ⟨h.1, h.2.1⟩

/-! A key of 8 bits: three creates of one type, and three of two types. -/
example : (∀ t ∈ [true, true, true], ∀ t' ∈ [true, true, true], t = t') ∧ [true, true, true].length < 2 ^ 8 := by
  decide
example : uniqueKeys (fun _ : Bool => 0#8) [true, false, true] = [1#8, 1#8, 2#8] := by decide
example : ¬ ((uniqueKeys (fun _ : Bool => 0#8) [true, false, true]).Nodup) := by decide

end Nbdl.Message
