import Verif.JsBind.Spec
/-!
# Lemmas about text
-/
namespace Nbdl.JsBind
open Spec

theorem utf8Char_ascii {c : Char} (h : c.toNat < 0x80) : utf8Char c = [BitVec.ofNat 8 c.toNat] := by
  simp [utf8Char, h]

theorem utf16Char_ascii {c : Char} (h : c.toNat < 0x80) : utf16Char c = [BitVec.ofNat 16 c.toNat] := by
  have : c.toNat < 0x10000 := by omega
  simp [utf16Char, this]

theorem char_lt (c : Char) : c.toNat < 0x110000 := by
  have := c.valid
  simp only [UInt32.isValidChar, Nat.isValidChar] at this
  have h : c.toNat = c.val.toNat := rfl
  omega

theorem utf8Char_high {c : Char} (h : ¬ c.toNat < 0x80) : ∀ b ∈ utf8Char c, 0x80 ≤ b.toNat := by
  have hc := char_lt c
  intro b hb
  simp only [utf8Char, h, if_false] at hb
  split at hb
  · simp only [List.mem_cons, List.not_mem_nil, or_false] at hb
    rcases hb with rfl | rfl <;> simp only [BitVec.toNat_ofNat] <;> omega
  · split at hb
    · simp only [List.mem_cons, List.not_mem_nil, or_false] at hb
      rcases hb with rfl | rfl | rfl <;> simp only [BitVec.toNat_ofNat] <;> omega
    · simp only [List.mem_cons, List.not_mem_nil, or_false] at hb
      rcases hb with rfl | rfl | rfl | rfl <;> simp only [BitVec.toNat_ofNat] <;> omega

theorem utf_length_high {c : Char} (h : ¬ c.toNat < 0x80) : (utf16Char c).length < (utf8Char c).length := by
  simp only [utf8Char, utf16Char, h, if_false]
  split <;> split <;> (try split) <;> simp <;> omega

theorem utf_length (cs : List Char) : (utf16 cs).length ≤ (utf8 cs).length := by
  induction cs with
  | nil => simp [utf16, utf8]
  | cons c cs ih =>
    simp only [utf16, utf8, List.flatMap_cons, List.length_append] at ih ⊢
    by_cases h : c.toNat < 0x80
    · rw [utf8Char_ascii h, utf16Char_ascii h]; simp only [List.length_singleton]; omega
    · have := utf_length_high h; omega

theorem utf8_ascii_iff (cs : List Char) : Ascii (utf8 cs) ↔ ∀ c ∈ cs, c.toNat < 0x80 := by
  constructor
  · intro h c hc
    apply Decidable.byContradiction
    intro hn
    have hne : utf8Char c ≠ [] := by
      intro h0
      have := utf_length_high hn
      rw [h0] at this
      simp at this
    obtain ⟨b, hb⟩ := List.exists_mem_of_ne_nil _ hne
    have h1 := h b (List.mem_flatMap.2 ⟨c, hc, hb⟩)
    have h2 := utf8Char_high hn b hb
    omega
  · intro h b hb
    obtain ⟨c, hc, hb⟩ := List.mem_flatMap.1 hb
    rw [utf8Char_ascii (h c hc)] at hb
    simp only [List.mem_singleton] at hb
    subst hb
    have := h c hc
    simp only [BitVec.toNat_ofNat]
    omega

theorem low_utf16 (cs : List Char) : (utf16 cs).map low = utf8 cs ↔ Ascii (utf8 cs) := by
  rw [utf8_ascii_iff]
  constructor
  · intro h
    have hl := congrArg List.length h
    rw [List.length_map] at hl
    clear h
    induction cs with
    | nil => simp
    | cons c cs ih =>
      have h1 := utf_length cs
      simp only [utf16, utf8, List.flatMap_cons, List.length_append] at hl h1 ih
      by_cases hc : c.toNat < 0x80
      · rw [utf8Char_ascii hc, utf16Char_ascii hc] at hl
        simp only [List.length_singleton] at hl
        intro d hd
        rcases List.mem_cons.1 hd with rfl | hd
        · exact hc
        · exact ih (by omega) d hd
      · have := utf_length_high hc
        omega
  · intro h
    induction cs with
    | nil => rfl
    | cons c cs ih =>
      have hc := h c (by simp)
      have ih := ih fun d hd => h d (by simp [hd])
      simp only [utf16, utf8, List.flatMap_cons, List.map_append] at ih ⊢
      rw [ih, utf8Char_ascii hc, utf16Char_ascii hc]
      congr 1
      simp only [List.map_cons, List.map_nil, List.cons.injEq, and_true, low]
      apply BitVec.eq_of_toNat_eq
      simp only [BitVec.toNat_setWidth, BitVec.toNat_ofNat]
      omega

/-! ### NUL -/

theorem utf8Char_nul {c : Char} (h : c ≠ '\x00') : 0#8 ∉ utf8Char c := by
  intro hm
  by_cases hc : c.toNat < 0x80
  · rw [utf8Char_ascii hc] at hm
    simp only [List.mem_singleton] at hm
    have h1 := congrArg BitVec.toNat hm
    simp only [BitVec.toNat_ofNat] at h1
    apply h
    apply Char.toNat_inj.1
    have : ('\x00' : Char).toNat = 0 := rfl
    omega
  · have := utf8Char_high hc _ hm
    simp at this

theorem takeWhile_utf8 (cs : List Char) :
    (utf8 cs).takeWhile (· ≠ 0#8) = utf8 (cs.takeWhile (· ≠ '\x00')) := by
  induction cs with
  | nil => rfl
  | cons c cs ih =>
    by_cases hc : c = '\x00'
    · subst hc
      have : utf8Char '\x00' = [0#8] := by decide
      simp [utf8, this]
    · have h1 : ∀ b ∈ utf8Char c, decide (b ≠ 0#8) = true := by
        intro b hb
        simp only [ne_eq, decide_not, Bool.not_eq_true', decide_eq_false_iff_not]
        rintro rfl
        exact utf8Char_nul hc hb
      have hd : decide (c ≠ '\x00') = true := by simpa using hc
      rw [List.takeWhile_cons]
      simp only [hd, if_true]
      simp only [utf8, List.flatMap_cons] at ih ⊢
      rw [List.takeWhile_append_of_pos h1, ih]

theorem utf8_nul_iff (cs : List Char) : 0#8 ∉ utf8 cs ↔ '\x00' ∉ cs := by
  constructor
  · intro h hc
    exact h (List.mem_flatMap.2 ⟨_, hc, by decide⟩)
  · intro h hm
    obtain ⟨c, hc, hb⟩ := List.mem_flatMap.1 hm
    exact utf8Char_nul (by rintro rfl; exact h hc) hb

/-! ### ASCII -/

/-- The characters of ASCII bytes. -/
def chars (s : List Byte) : List Char := s.map fun b => Char.ofNat b.toNat

theorem utf8_chars (s : List Byte) (h : Ascii s) : utf8 (chars s) = s := by
  induction s with
  | nil => rfl
  | cons b s ih =>
    have ih := ih fun x hx => h x (by simp [hx])
    have hb := h b (by simp)
    have hv : (Char.ofNat b.toNat).toNat = b.toNat := by
      unfold Char.ofNat
      rw [dif_pos (by left; omega)]
      simp [Char.toNat, Char.ofNatAux]
    simp only [chars, utf8, List.map_cons, List.flatMap_cons] at ih ⊢
    rw [ih, utf8Char_ascii (by rw [hv]; exact hb), hv]
    simp

theorem isText_of_ascii {s : List Byte} (h : Ascii s) : IsText s := ⟨chars s, (utf8_chars s h).symm⟩

theorem encodeText_ascii (b : List Byte) : Ascii (Bind.encodeText b) := by
  by_cases h : 4 * b.length < 2 ^ 31
  · unfold Bind.encodeText
    rw [Base64.encode_eq false b h]
    intro x hx
    rw [List.mem_append, List.mem_replicate] at hx
    rcases hx with hx | hx
    · have h1 := Base64.encodeWrites_alpha false b _ hx
      have : ∀ x : BitVec 8, Base64.reverseLookup x < 64 → x.toNat < 0x80 := by decide +kernel
      exact this x h1
    · rw [hx.2]; decide
  · rw [Bind.encodeText_big b h]; intro x hx; simp at hx

variable {e : Engine}

/-- What the binder makes of a text and back. -/
theorem text_home (he : Sane e) (s : List Byte) (h : IsText s) :
    (utf8ToString e s).map low = s ↔ Ascii s ∧ 0#8 ∉ s := by
  obtain ⟨cs, rfl⟩ := h
  simp only [utf8ToString]
  constructor
  · intro h
    have h0 : 0#8 ∉ utf8 cs := by
      rw [takeWhile_utf8, he.decode] at h
      have h1 := congrArg List.length h
      rw [List.length_map] at h1
      have h2 := utf_length (cs.takeWhile (· ≠ '\x00'))
      rw [← takeWhile_utf8] at h2
      rw [← Bind.takeWhile_nul_iff]
      have h3 : (utf8 cs).takeWhile (· ≠ 0#8) <+: utf8 cs := List.takeWhile_prefix _
      exact (h3.eq_of_length (Nat.le_antisymm h3.length_le (by omega))).symm
    rw [Bind.takeWhile_nul h0, he.decode, low_utf16] at h
    exact ⟨h, h0⟩
  · rintro ⟨h1, h2⟩
    rw [Bind.takeWhile_nul h2, he.decode, low_utf16]
    exact h1

theorem text_down (he : Sane e) (s : List Byte) (h : IsText s) : (e.decode s).map low = s ↔ Ascii s := by
  obtain ⟨cs, rfl⟩ := h
  rw [he.decode, low_utf16]

theorem text_up (he : Sane e) (s : List Byte) (h : IsText s) :
    e.encode (utf8ToString e s) = s.takeWhile (· ≠ 0#8) := by
  obtain ⟨cs, rfl⟩ := h
  rw [utf8ToString, takeWhile_utf8, he.decode, he.encode]

/-- Names keep apart. -/
theorem key_inj (he : Sane e) {m n : List Byte} (hm : Ascii m ∧ 0#8 ∉ m) (hn : Ascii n ∧ 0#8 ∉ n)
    (h : utf8ToString e m = utf8ToString e n) : m = n := by
  have h1 := (text_home he m (isText_of_ascii hm.1)).2 hm
  have h2 := (text_home he n (isText_of_ascii hn.1)).2 hn
  rw [← h1, ← h2, h]

theorem key_decode {n : List Byte} (hn : 0#8 ∉ n) : utf8ToString e n = e.decode n := by
  rw [utf8ToString, Bind.takeWhile_nul hn]

end Nbdl.JsBind
