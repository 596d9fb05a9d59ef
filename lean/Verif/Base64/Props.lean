import Verif.Base64.Lemmas
/-!
Base64 properties C01–C04.
-/
namespace Nbdl.Base64

/-! ## C01 round trip -/

/-- C01: for every buffer of `unsigned char` short enough for the `int` length computation
(`4*n < 2^31`), encoding succeeds without undefined behaviour and both decode entry points give
the buffer back (the two-argument one with `true`, whatever the dynamic output held before). -/
theorem roundtrip (buf : List Byte) (h : 4 * buf.length < 2 ^ 31) :
    ∃ text, encode false buf = .ok text
      ∧ decode1 text = .ok buf
      ∧ ∀ out, decode2 true text out = .ok (true, buf) := by
  refine ⟨_, encode_eq false buf h, ?_⟩
  have hwl := encodeWrites_length false buf
  have hne : ∀ c ∈ encodeWrites false buf, c ≠ eqSign :=
    fun c hc => alpha_ne (encodeWrites_alpha false buf c hc)
  have hsl : sourceLengthUnpadded
      (encodeWrites false buf ++ List.replicate ((3 - buf.length % 3) % 3) eqSign)
      = (4 * buf.length + 2) / 3 := by
    rw [sourceLength_append, sourceLength_alpha _ hne, sourceLength_pad, hwl]; omega
  have htl : targetDecodedLength
      (encodeWrites false buf ++ List.replicate ((3 - buf.length % 3) % 3) eqSign)
      = buf.length := by
    unfold targetDecodedLength; rw [hsl]; omega
  have hv : validate
      (encodeWrites false buf ++ List.replicate ((3 - buf.length % 3) % 3) eqSign) = true := by
    apply validate_of_wellFormed
    refine ⟨?_, _, _, by rw [eqSign_spec], by omega,
      fun c hc => (isAlpha_iff c).2 (encodeWrites_alpha false buf c hc)⟩
    rw [List.length_append, List.length_replicate, hwl]
    have h3 : buf.length = 3 * (buf.length / 3) + buf.length % 3 := by omega
    have h4 : buf.length % 3 = 0 ∨ buf.length % 3 = 1 ∨ buf.length % 3 = 2 := by omega
    rcases h4 with h4 | h4 | h4 <;> rw [h4] at h3 ⊢ <;> omega
  have hdec := decodeWrites_encode buf ((3 - buf.length % 3) % 3)
  have hinto : ∀ out : List Byte, out.length = buf.length → decodeInto
      (encodeWrites false buf ++ List.replicate ((3 - buf.length % 3) % 3) eqSign) out
      = .ok buf := by
    intro out ho
    unfold decodeInto
    simp only [hdec]
    rw [if_neg (by omega), List.drop_eq_nil_of_le (by omega), List.append_nil]
  constructor
  · unfold decode1
    by_cases h0 : buf.length = 0
    · have : buf = [] := List.eq_nil_of_length_eq_zero h0
      subst this; rfl
    · rw [if_neg, hv, if_neg (by simp), hsl, if_neg (by omega), htl]
      · exact hinto _ (by simp)
      · rw [List.length_append, hwl]; omega
  · intro out
    unfold decode2
    rw [hsl, if_neg (by omega), htl]
    have hpl : (out.take buf.length ++ List.replicate (buf.length - out.length) 0#8).length
        = buf.length := by
      simp; omega
    simp only [prepare, if_true, Bool.true_eq_false, if_false, hpl, hv]
    by_cases h0 : buf.length = 0
    · have : buf = [] := List.eq_nil_of_length_eq_zero h0
      subst this; simp
    · rw [if_neg h0, hinto _ hpl]; rfl

example : 4 * (ascii "any carnal pleas").length < 2 ^ 31 := by decide
example : encode false (ascii "any carnal pleas") = .ok (ascii "YW55IGNhcm5hbCBwbGVhcw==") := by
  decide +kernel
example : decode1 (ascii "YW55IGNhcm5hbCBwbGVhcw==") = .ok (ascii "any carnal pleas") := by
  decide +kernel

/-- The code accepts containers of `signed char` (`sizeof(value_type) == 1` is the only demand),
but sign extension then corrupts the text: the round trip fails. -/
theorem roundtrip_signed_char_violated :
    ∃ buf text, encode true buf = .ok text ∧ decode1 text ≠ .ok buf := by
  refine ⟨[0#8, 0#8, 255#8], ascii "////", ?_, ?_⟩ <;> decide +kernel

/-- What holds for `signed char` containers: the round trip for 7-bit data. -/
theorem roundtrip_signed_char_partial (buf : List Byte) (h7 : ∀ b ∈ buf, b.toNat < 128) :
    encode true buf = encode false buf := by
  have hp : ∀ b : Byte, b.toNat < 128 → promote true b = promote false b := by
    apply byte_forall; decide +kernel
  have hg : ∀ i, promote true (buf.getD i 0) = promote false (buf.getD i 0) := by
    intro i
    apply hp
    by_cases hi : i < buf.length
    · rw [List.getD_eq_getElem?_getD, List.getElem?_eq_getElem hi]
      exact h7 _ (List.getElem_mem hi)
    · rw [List.getD_eq_getElem?_getD, List.getElem?_eq_none (by omega)]
      decide
  have hw : encodeWrites true buf = encodeWrites false buf := by
    unfold encodeWrites encodeRounds extras
    simp only [hg]
  unfold encode
  simp only [hw]

example : ∀ b ∈ ascii "hello", b.toNat < 128 := by decide

/-! ## C02 the encoder implements RFC 4648 -/

/-- C02: the encoder computes the bit-level RFC 4648 encoding, of length `4*ceil(n/3)`. -/
theorem encode_is_rfc4648 (buf : List Byte) (h : 4 * buf.length < 2 ^ 31) :
    encode false buf = .ok (Spec.encode buf)
      ∧ (Spec.encode buf).length = 4 * ((buf.length + 2) / 3) := by
  have hwl := encodeWrites_length false buf
  have hsp := encodeWrites_spec buf
  have h3 : buf.length = 3 * (buf.length / 3) + buf.length % 3 := by omega
  have h4 : buf.length % 3 = 0 ∨ buf.length % 3 = 1 ∨ buf.length % 3 = 2 := by omega
  have hpad : (4 - (4 * buf.length + 2) / 3 % 4) % 4 = (3 - buf.length % 3) % 3 := by
    rcases h4 with h4 | h4 | h4 <;> rw [h4] at h3 ⊢ <;> omega
  have he : Spec.encode buf
      = encodeWrites false buf ++ List.replicate ((3 - buf.length % 3) % 3) eqSign := by
    unfold Spec.encode
    simp only [← hsp, hwl, hpad, eqSign_spec]
  refine ⟨by rw [he]; exact encode_eq false buf h, ?_⟩
  rw [he, List.length_append, List.length_replicate, hwl]
  rcases h4 with h4 | h4 | h4 <;> rw [h4] at h3 ⊢ <;> omega

example : Spec.encode (ascii "foob") = ascii "Zm9vYg==" := by decide +kernel

/-! ## C03 what the decoder accepts -/

/-- C03: validity is exactly the grammar. -/
theorem validate_iff (t : List Byte) : validate t = true ↔ Spec.WellFormed t :=
  ⟨wellFormed_of_validate t, validate_of_wellFormed t⟩

example : Spec.WellFormed (ascii "QUI=") :=
  (validate_iff _).1 (by decide +kernel)
example : ¬ Spec.WellFormed (ascii "QU=I") :=
  fun h => absurd ((validate_iff _).2 h) (by decide +kernel)

theorem decodeInto_wellFormed (t out : List Byte) (h : Spec.WellFormed t)
    (ho : out.length = targetDecodedLength t) :
    decodeInto t out = .ok (decodeWrites t) ∧ (decodeWrites t).length = targetDecodedLength t := by
  obtain ⟨hl, core, k, rfl, hk, hc⟩ := h
  rw [eqSign_spec] at *
  have hne : ∀ c ∈ core, c ≠ eqSign := fun c h => alpha_ne ((isAlpha_iff c).1 (hc c h))
  have hsl : sourceLengthUnpadded (core ++ List.replicate k eqSign) = core.length := by
    rw [sourceLength_append, sourceLength_alpha _ hne, sourceLength_pad]; omega
  have hlen := decodeWrites_length core k hne (by
    rw [List.length_append, List.length_replicate] at hl; omega)
  have : (decodeWrites (core ++ List.replicate k eqSign)).length
      = targetDecodedLength (core ++ List.replicate k eqSign) := by
    unfold targetDecodedLength; rw [hsl, hlen]
  refine ⟨?_, this⟩
  unfold decodeInto
  rw [if_neg (by omega)]
  rw [List.drop_eq_nil_of_le (by omega)]; simp

/-- C03 (memory safety and refusal, one-argument entry point): for every text, decoding never
writes outside the output; a malformed text yields the empty result; a well-formed one yields
`3*m/4` bytes, `m` being the number of characters before the padding. -/
theorem decode1_spec (t : List Byte) (hsize : 3 * t.length < 2 ^ 31) :
    (¬ Spec.WellFormed t → decode1 t = .ok [])
    ∧ (Spec.WellFormed t → ∃ bytes, decode1 t = .ok bytes
        ∧ bytes.length = 3 * (t.countP (· != Spec.pad)) / 4) := by
  have hle : sourceLengthUnpadded t ≤ t.length := List.countP_le_length
  constructor
  · intro h
    unfold decode1
    have : validate t = false := by
      rw [← Bool.not_eq_true, validate_iff]; exact h
    rw [this]; simp
  · intro h
    have hv := (validate_iff t).2 h
    have hcount : targetDecodedLength t = 3 * (t.countP (· != Spec.pad)) / 4 := by
      unfold targetDecodedLength sourceLengthUnpadded
      have : isNotPadding = (· != Spec.pad) := by
        funext c
        rw [Bool.eq_iff_iff, isNotPadding_iff, eqSign_spec]; simp
      rw [this]
    unfold decode1
    by_cases h0 : t.length = 0
    · have : t = [] := List.eq_nil_of_length_eq_zero h0
      subst this; exact ⟨[], rfl, rfl⟩
    · rw [if_neg h0, hv, if_neg (by simp), if_neg (by omega)]
      obtain ⟨h1, h2⟩ := decodeInto_wellFormed t
        (List.replicate (targetDecodedLength t) 63#8) h (by simp)
      exact ⟨_, h1, by rw [h2, hcount]⟩

example : ∃ bytes, decode1 (ascii "Zm9vYg==") = .ok bytes ∧ bytes.length = 4 :=
  ⟨ascii "foob", by decide +kernel, rfl⟩

/-- The two-argument entry point reports success on malformed texts: `"!"`, `"A"`, `"="`. -/
theorem decode2_accepts_malformed_violated :
    ∀ t ∈ [ascii "!", ascii "A", ascii "=", ascii "==="],
      ¬ Spec.WellFormed t ∧ ∀ out, decode2 true t out = .ok (true, []) := by
  intro t ht
  have hv : ∀ t ∈ [ascii "!", ascii "A", ascii "=", ascii "==="],
      validate t = false ∧ 3 * sourceLengthUnpadded t < 2 ^ 31 ∧ targetDecodedLength t = 0 := by
    decide +kernel
  obtain ⟨h1, h2, h3⟩ := hv t ht
  refine ⟨fun h => ?_, fun out => ?_⟩
  · rw [(validate_iff t).2 h] at h1; exact absurd h1 (by simp)
  · unfold decode2
    rw [if_neg (by omega), h3]
    simp [prepare]

/-- C03 for the two-argument entry point, exactly: with a resizable output it reports success iff
the text is well formed **or** is too short to yield a byte; so it is right on every text with at
least two characters other than `=`. -/
theorem decode2_partial (t out : List Byte) (hsize : 3 * t.length < 2 ^ 31) :
    ∃ b o, decode2 true t out = .ok (b, o)
      ∧ (b = true ↔ (Spec.WellFormed t ∨ t.countP (· != Spec.pad) < 2)) := by
  have hle : sourceLengthUnpadded t ≤ t.length := List.countP_le_length
  have hcnt : sourceLengthUnpadded t = t.countP (· != Spec.pad) := by
    unfold sourceLengthUnpadded
    have : isNotPadding = (· != Spec.pad) := by
      funext c
      rw [Bool.eq_iff_iff, isNotPadding_iff, eqSign_spec]; simp
    rw [this]
  unfold decode2
  rw [if_neg (by omega)]
  have hpl : (out.take (targetDecodedLength t)
      ++ List.replicate (targetDecodedLength t - out.length) 0#8).length = targetDecodedLength t := by
    simp; omega
  simp only [prepare, if_true, Bool.true_eq_false, if_false, hpl]
  have ht : targetDecodedLength t = 3 * t.countP (· != Spec.pad) / 4 := by
    unfold targetDecodedLength; rw [hcnt]
  by_cases h0 : targetDecodedLength t = 0
  · rw [if_pos h0]
    exact ⟨_, _, rfl, by simp; right; omega⟩
  · rw [if_neg h0]
    have h2 : ¬ t.countP (· != Spec.pad) < 2 := by omega
    by_cases hv : validate t = true
    · rw [hv]
      obtain ⟨h1, _⟩ := decodeInto_wellFormed t _ ((validate_iff t).1 hv) hpl
      rw [if_neg (by simp), h1]
      exact ⟨_, _, rfl, by simp [(validate_iff t).1 hv]⟩
    · have hv' : validate t = false := by simpa using hv
      rw [hv', if_pos rfl]
      refine ⟨_, _, rfl, ?_⟩
      have : ¬ Spec.WellFormed t := fun h => hv ((validate_iff t).2 h)
      simp [this, h2]

example : ∃ b o, decode2 true (ascii "QU!I") [] = .ok (b, o) ∧ b = false :=
  ⟨false, [0#8, 0#8, 0#8], by decide +kernel, rfl⟩

/-- C03 for the two-argument entry point with an output of fixed size, exactly: it succeeds iff the
output has the size of the decoded bytes and the text is well formed **or** too short to yield a byte.
A refused output is left as it was, one that is accepted keeps its size and holds what the
one-argument entry point decodes. -/
theorem decode2_fixed_partial (t out : List Byte) (hsize : 3 * t.length < 2 ^ 31) :
    ∃ b o, decode2 false t out = .ok (b, o)
      ∧ (b = true ↔ out.length = 3 * t.countP (· != Spec.pad) / 4
          ∧ (Spec.WellFormed t ∨ t.countP (· != Spec.pad) < 2))
      ∧ (b = false → o = out) ∧ o.length = out.length
      ∧ (b = true → Spec.WellFormed t → decode1 t = .ok o) := by
  have hle : sourceLengthUnpadded t ≤ t.length := List.countP_le_length
  have hcnt : sourceLengthUnpadded t = t.countP (· != Spec.pad) := by
    unfold sourceLengthUnpadded
    have : isNotPadding = (· != Spec.pad) := by
      funext c
      rw [Bool.eq_iff_iff, isNotPadding_iff, eqSign_spec]; simp
    rw [this]
  have ht : targetDecodedLength t = 3 * t.countP (· != Spec.pad) / 4 := by
    unfold targetDecodedLength; rw [hcnt]
  have hd1 : ∀ o, Spec.WellFormed t → o.length = targetDecodedLength t →
      decodeInto t o = .ok (decodeWrites t) ∧ decode1 t = .ok (decodeWrites t)
        ∧ (decodeWrites t).length = o.length := by
    intro o hw ho
    obtain ⟨h1, h2⟩ := decodeInto_wellFormed t o hw ho
    obtain ⟨h3, _⟩ := decodeInto_wellFormed t (List.replicate (targetDecodedLength t) 63#8) hw (by simp)
    refine ⟨h1, ?_, by omega⟩
    unfold decode1
    by_cases h0 : t.length = 0
    · have : t = [] := List.eq_nil_of_length_eq_zero h0
      subst this; rfl
    · rw [if_neg h0, (validate_iff t).2 hw, if_neg (by simp), if_neg (by omega), h3]
  unfold decode2
  rw [if_neg (by omega)]
  simp only [prepare, Bool.false_eq_true, if_false]
  rw [← ht]
  by_cases hl : out.length = targetDecodedLength t
  · simp only [hl, beq_self_eq_true, Bool.true_eq_false, if_false, true_and]
    by_cases h0 : targetDecodedLength t = 0
    · have ho : out = [] := List.eq_nil_of_length_eq_zero (by omega)
      refine ⟨true, out, by rw [if_pos h0], ?_, fun _ => rfl, hl, ?_⟩
      · simp only [true_iff]; right; omega
      · intro _ hw
        obtain ⟨_, h2, h3⟩ := hd1 out hw hl
        rw [h2, ho, List.eq_nil_of_length_eq_zero (l := decodeWrites t) (by omega)]
    · rw [if_neg h0]
      have h2 : ¬ t.countP (· != Spec.pad) < 2 := by omega
      by_cases hv : validate t = true
      · have hw := (validate_iff t).1 hv
        obtain ⟨h3, h4, h5⟩ := hd1 out hw hl
        rw [hv, if_neg (by simp), h3]
        exact ⟨true, decodeWrites t, rfl, by simp [hw], by simp, by omega, fun _ _ => h4⟩
      · have hv' : validate t = false := by simpa using hv
        have : ¬ Spec.WellFormed t := fun h => hv ((validate_iff t).2 h)
        rw [if_pos hv']
        exact ⟨false, out, rfl, by simp only [this, h2]; simp, fun _ => rfl, hl, by simp⟩
  · have : (out.length == targetDecodedLength t) = false := by simp [hl]
    simp only [this, if_true]
    exact ⟨false, out, rfl, by simp [hl], fun _ => rfl, rfl, by simp⟩

example : decode2 false (ascii "QUI=") [1#8, 2#8] = .ok (true, ascii "AB") := by decide +kernel
example : decode2 false (ascii "QUI=") [1#8] = .ok (false, [1#8]) := by decide +kernel

/-! ## C04 uniqueness of the text -/

/-- C04 fails: two different accepted texts for the same byte. -/
theorem unique_text_violated :
    ∃ t₁ t₂, Spec.WellFormed t₁ ∧ Spec.WellFormed t₂ ∧ t₁ ≠ t₂
      ∧ decode1 t₁ = .ok [65#8] ∧ decode1 t₂ = .ok [65#8] :=
  ⟨ascii "QQ==", ascii "QR==", (validate_iff _).1 (by decide +kernel),
    (validate_iff _).1 (by decide +kernel), by decide, by decide +kernel, by decide +kernel⟩

/-- The unused trailing bits of the last character before the padding are zero. -/
def ZeroTail (t : List Byte) : Prop :=
  ∀ core c k, t = core ++ [c] ++ List.replicate k Spec.pad → Spec.IsAlpha c →
    (k = 2 → ∃ n, n < 64 ∧ Spec.alphabet n = c ∧ n % 16 = 0)
    ∧ (k = 1 → ∃ n, n < 64 ∧ Spec.alphabet n = c ∧ n % 4 = 0)

/-- C04, what holds: re-encoding the decoded bytes of an accepted text whose unused bits are zero
gives the text back; hence accepted canonical texts of equal bytes are equal. -/
theorem reencode_partial (t : List Byte) (hsize : 3 * t.length < 2 ^ 31) (hw : Spec.WellFormed t)
    (hz : ZeroTail t) : ∃ bytes, decode1 t = .ok bytes ∧ encode false bytes = .ok t := by
  have hle : sourceLengthUnpadded t ≤ t.length := List.countP_le_length
  by_cases h0 : t.length = 0
  · have : t = [] := List.eq_nil_of_length_eq_zero h0
    subst this; exact ⟨[], rfl, rfl⟩
  have hv := (validate_iff t).2 hw
  obtain ⟨hI, hlenI⟩ := decodeInto_wellFormed t (List.replicate (targetDecodedLength t) 63#8) hw
    (by simp)
  refine ⟨decodeWrites t, ?_, ?_⟩
  · unfold decode1
    rw [if_neg h0, hv, if_neg (by simp), if_neg (by omega), hI]
  · have htl : targetDecodedLength t ≤ t.length * 3 / 4 := by
      unfold targetDecodedLength; omega
    rw [encode_eq _ _ (by omega)]
    obtain ⟨hl, core, k, rfl, hk, hc⟩ := hw
    rw [eqSign_spec] at *
    have ha : ∀ c ∈ core, reverseLookup c < 64 := fun c h => (isAlpha_iff c).1 (hc c h)
    have hlc : core.length % 4 ≠ 1 := by
      rw [List.length_append, List.length_replicate] at hl; omega
    have hrev : ∀ n c, n < 64 → Spec.alphabet n = c → reverseLookup c = n := by
      intro n c hn h; rw [← h, ← chr_alphabet n hn, reverse_chr n hn]
    have hdec : ∀ c, core.getLast? = some c → core = core.dropLast ++ [c] := by
      intro c h
      rw [List.getLast?_eq_some_iff] at h
      obtain ⟨ys, rfl⟩ := h
      simp
    rw [encodeWrites_decode core k ha hlc, hlenI]
    · congr 2
      have hsl : sourceLengthUnpadded (core ++ List.replicate k eqSign) = core.length := by
        rw [sourceLength_append, sourceLength_alpha _ (fun c h => alpha_ne (ha c h)),
          sourceLength_pad]; omega
      unfold targetDecodedLength
      rw [hsl]
      congr 1
      rw [List.length_append, List.length_replicate] at hl
      have : k = 0 ∨ k = 1 ∨ k = 2 := by omega
      rcases this with rfl | rfl | rfl <;> omega
    · intro hm c hcl
      have hk2 : k = 2 := by rw [List.length_append, List.length_replicate] at hl; omega
      have hmem : c ∈ core := List.mem_of_getLast? hcl
      obtain ⟨n, hn, hal, hz'⟩ := (hz core.dropLast c k
        (by rw [← hdec c hcl, eqSign_spec]) (hc c hmem)).1 hk2
      rw [hrev n c hn hal]; exact hz'
    · intro hm c hcl
      have hk1 : k = 1 := by rw [List.length_append, List.length_replicate] at hl; omega
      have hmem : c ∈ core := List.mem_of_getLast? hcl
      obtain ⟨n, hn, hal, hz'⟩ := (hz core.dropLast c k
        (by rw [← hdec c hcl, eqSign_spec]) (hc c hmem)).2 hk1
      rw [hrev n c hn hal]; exact hz'

/-- C04 in its pairwise form, for canonical texts. -/
theorem unique_text_partial (t₁ t₂ bytes : List Byte)
    (h1 : 3 * t₁.length < 2 ^ 31) (h2 : 3 * t₂.length < 2 ^ 31)
    (w1 : Spec.WellFormed t₁) (w2 : Spec.WellFormed t₂) (z1 : ZeroTail t₁) (z2 : ZeroTail t₂)
    (d1 : decode1 t₁ = .ok bytes) (d2 : decode1 t₂ = .ok bytes) : t₁ = t₂ := by
  obtain ⟨b1, e1, f1⟩ := reencode_partial t₁ h1 w1 z1
  obtain ⟨b2, e2, f2⟩ := reencode_partial t₂ h2 w2 z2
  rw [d1] at e1; rw [d2] at e2
  injection e1 with e1; injection e2 with e2
  subst e1; subst e2
  rw [f1] at f2; injection f2

/-- The hypotheses of `reencode_partial` are met by a padded text. -/
example : Spec.WellFormed (ascii "QQ==") ∧ ZeroTail (ascii "QQ==") := by
  refine ⟨(validate_iff _).1 (by decide +kernel), ?_⟩
  intro core c k h hc
  have hne : c ≠ Spec.pad := by rw [eqSign_spec]; exact alpha_ne ((isAlpha_iff c).1 hc)
  have hlen := congrArg List.length h
  have hc16 : c = 81#8 → ∃ n, n < 64 ∧ Spec.alphabet n = c ∧ n % 16 = 0 :=
    fun h => ⟨16, by omega, by rw [h]; decide, rfl⟩
  have e : ascii "QQ==" = [81#8, 81#8, 61#8, 61#8] := by decide
  rw [e] at h hlen
  simp at hlen
  constructor
  · rintro rfl
    apply hc16
    match core, hlen with
    | [x], _ => simp at h; exact h.2.1.symm
  · rintro rfl
    exfalso
    match core, hlen with
    | [x, y], _ => simp at h; exact hne (by rw [← h.2.2.1]; decide)

end Nbdl.Base64
