import Verif.JsBind.Lemmas2
/-!
# An engine that converts text as it should
-/
namespace Nbdl.JsBind
open Spec

/-- The characters of UTF-8 bytes. -/
def decode8 : List Byte → List Char
  | [] => []
  | a :: s =>
    if a.toNat < 0x80 then Char.ofNat a.toNat :: decode8 s
    else match s with
      | [] => []
      | b :: s =>
        if a.toNat < 0xE0 then Char.ofNat ((a.toNat - 0xC0) * 0x40 + (b.toNat - 0x80)) :: decode8 s
        else match s with
          | [] => []
          | c :: s =>
            if a.toNat < 0xF0 then
              Char.ofNat ((a.toNat - 0xE0) * 0x1000 + (b.toNat - 0x80) * 0x40 + (c.toNat - 0x80)) :: decode8 s
            else match s with
              | [] => []
              | d :: s =>
                Char.ofNat ((a.toNat - 0xF0) * 0x40000 + (b.toNat - 0x80) * 0x1000 + (c.toNat - 0x80) * 0x40
                  + (d.toNat - 0x80)) :: decode8 s

/-- The characters of UTF-16 code units. -/
def decode16 : List Unit16 → List Char
  | [] => []
  | a :: s =>
    if a.toNat < 0xD800 ∨ 0xDFFF < a.toNat then Char.ofNat a.toNat :: decode16 s
    else match s with
      | [] => []
      | b :: s => Char.ofNat (0x10000 + (a.toNat - 0xD800) * 0x400 + (b.toNat - 0xDC00)) :: decode16 s

/-- The engine. -/
def exEngine : Engine :=
  { decode := fun s => utf16 (decode8 s), encode := fun s => utf8 (decode16 s), odd := fun _ => 0#32 }

theorem ofNat_toNat (c : Char) (n : Nat) (h : n = c.toNat) : Char.ofNat n = c := by subst h; simp

theorem decode8_char (c : Char) (s : List Byte) : decode8 (utf8Char c ++ s) = c :: decode8 s := by
  have hc := char_lt c
  simp only [utf8Char]
  split
  · rename_i h
    have h1 : (BitVec.ofNat 8 c.toNat).toNat = c.toNat := by simp; omega
    simp only [List.cons_append, List.nil_append]
    rw [decode8.eq_def]
    simp only [h1, h, if_true, ofNat_toNat c _ rfl]
  · split
    · have h1 : (BitVec.ofNat 8 (0xC0 + c.toNat / 0x40)).toNat = 0xC0 + c.toNat / 0x40 := by simp; omega
      have h2 : (BitVec.ofNat 8 (0x80 + c.toNat % 0x40)).toNat = 0x80 + c.toNat % 0x40 := by simp; omega
      simp only [List.cons_append, List.nil_append]
      rw [decode8.eq_def]
      simp only [h1, h2]
      rw [if_neg (by omega), if_pos (by omega), ofNat_toNat c _ (by omega)]
    · split
      · have h1 : (BitVec.ofNat 8 (0xE0 + c.toNat / 0x1000)).toNat = 0xE0 + c.toNat / 0x1000 := by simp; omega
        have h2 : (BitVec.ofNat 8 (0x80 + c.toNat / 0x40 % 0x40)).toNat = 0x80 + c.toNat / 0x40 % 0x40 := by
          simp; omega
        have h3 : (BitVec.ofNat 8 (0x80 + c.toNat % 0x40)).toNat = 0x80 + c.toNat % 0x40 := by simp; omega
        simp only [List.cons_append, List.nil_append]
        rw [decode8.eq_def]
        simp only [h1, h2, h3]
        rw [if_neg (by omega), if_neg (by omega), if_pos (by omega), ofNat_toNat c _ (by omega)]
      · have h1 : (BitVec.ofNat 8 (0xF0 + c.toNat / 0x40000)).toNat = 0xF0 + c.toNat / 0x40000 := by simp; omega
        have h2 : (BitVec.ofNat 8 (0x80 + c.toNat / 0x1000 % 0x40)).toNat = 0x80 + c.toNat / 0x1000 % 0x40 := by
          simp; omega
        have h3 : (BitVec.ofNat 8 (0x80 + c.toNat / 0x40 % 0x40)).toNat = 0x80 + c.toNat / 0x40 % 0x40 := by
          simp; omega
        have h4 : (BitVec.ofNat 8 (0x80 + c.toNat % 0x40)).toNat = 0x80 + c.toNat % 0x40 := by simp; omega
        simp only [List.cons_append, List.nil_append]
        rw [decode8.eq_def]
        simp only [h1, h2, h3, h4]
        rw [if_neg (by omega), if_neg (by omega), if_neg (by omega), ofNat_toNat c _ (by omega)]

theorem decode16_char (c : Char) (s : List Unit16) : decode16 (utf16Char c ++ s) = c :: decode16 s := by
  have hc := char_lt c
  have hv : c.toNat < 0xD800 ∨ 0xDFFF < c.toNat := by
    have := c.valid
    simp only [UInt32.isValidChar, Nat.isValidChar] at this
    have h : c.toNat = c.val.toNat := rfl
    omega
  simp only [utf16Char]
  split
  · have h1 : (BitVec.ofNat 16 c.toNat).toNat = c.toNat := by simp; omega
    simp only [List.cons_append, List.nil_append]
    rw [decode16.eq_def]
    simp only [h1, hv, if_true, ofNat_toNat c _ rfl]
  · have h1 : (BitVec.ofNat 16 (0xD800 + (c.toNat - 0x10000) / 0x400)).toNat = 0xD800 + (c.toNat - 0x10000) / 0x400 := by
      simp; omega
    have h2 : (BitVec.ofNat 16 (0xDC00 + (c.toNat - 0x10000) % 0x400)).toNat = 0xDC00 + (c.toNat - 0x10000) % 0x400 := by
      simp; omega
    simp only [List.cons_append, List.nil_append]
    rw [decode16.eq_def]
    simp only [h1, h2]
    rw [if_neg (by omega), ofNat_toNat c _ (by omega)]

theorem decode8_utf8 (cs : List Char) : decode8 (utf8 cs) = cs := by
  induction cs with
  | nil => rfl
  | cons c cs ih =>
    have : utf8 (c :: cs) = utf8Char c ++ utf8 cs := rfl
    rw [this, decode8_char, ih]

theorem decode16_utf16 (cs : List Char) : decode16 (utf16 cs) = cs := by
  induction cs with
  | nil => rfl
  | cons c cs ih =>
    have : utf16 (c :: cs) = utf16Char c ++ utf16 cs := rfl
    rw [this, decode16_char, ih]

theorem exEngine_sane : Sane exEngine :=
  ⟨fun cs => by simp only [exEngine, decode8_utf8], fun cs => by simp only [exEngine, decode16_utf16]⟩

end Nbdl.JsBind
