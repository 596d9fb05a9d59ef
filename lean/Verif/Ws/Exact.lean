import Verif.Ws.Props
/-!
# Exactly which lengths survive the length field
-/
namespace Nbdl.Ws

/-- C06, exactly: a length that is written is read back as itself just when it is below 65536, by the
C++ rule for shifts; and just when it is below 2³¹, on hardware that masks the shift count. -/
theorem length_field_exact (hw : Bool) (n : Nat) (b0 : Byte) (rest : List Byte) :
    (∃ b1 ext, readHeader (b0 :: (encodedLength n ++ rest)) = some ⟨b0, b1, ext, [], rest⟩
      ∧ getPayloadLength hw b1 ext = .ok n) ↔ n < if hw then 2 ^ 31 else 65536 := by
  cases hw with
  | false =>
    simp only [Bool.false_eq_true, if_false]
    constructor
    · rintro ⟨b1, ext, h1, h2⟩
      apply Nat.lt_of_not_le
      intro hn
      obtain ⟨b1', ext', h1', h2'⟩ := length_field_violated n hn b0 rest
      rw [h1] at h1'
      simp only [Option.some.injEq, Header.mk.injEq, true_and, and_true] at h1'
      obtain ⟨rfl, rfl⟩ := h1'
      rw [h2] at h2'
      cases h2'
    · intro h
      obtain ⟨b1, ext, h1, h2⟩ := length_field_partial n h b0 rest
      exact ⟨b1, ext, h1, h2 false⟩
  | true =>
    simp only [if_true]
    constructor
    · rintro ⟨b1, ext, -, h2⟩
      apply Nat.lt_of_not_le
      intro hn
      exact length_field_x86_violated n hn true b1 ext h2
    · intro h
      exact length_field_x86_partial n h b0 rest

example : (65535 < if false then 2 ^ 31 else 65536) ∧ ¬ (65536 < if false then 2 ^ 31 else 65536)
    ∧ (65536 < if true then 2 ^ 31 else 65536) := by decide

end Nbdl.Ws
