import Verif.Base64.Props
/-!
Base64 for buffers and texts of all sizes, in particular those whose size an `int` cannot hold (C01, C03).
-/
namespace Nbdl.Base64

theorem toInt_small (n : Nat) (h : n < 2 ^ 31) : toInt n = n := by
  unfold toInt
  rw [BitVec.toInt_eq_toNat_cond, BitVec.toNat_ofNat, Nat.mod_eq_of_lt (by omega)]
  rw [if_pos (by omega)]

/-- Sizes are seen modulo `2^32`. -/
theorem toInt_wrap (n : Nat) : toInt (2 ^ 32 + n) = toInt n := by
  unfold toInt
  congr 1
  apply BitVec.eq_of_toNat_eq
  rw [BitVec.toNat_ofNat, BitVec.toNat_ofNat]
  omega

theorem toInt_bounds (n : Nat) : - 2 ^ 31 ≤ toInt n ∧ toInt n < 2 ^ 31 ∧ toInt n ≤ n := by
  unfold toInt
  rw [BitVec.toInt_eq_toNat_cond, BitVec.toNat_ofNat]
  split <;> omega

/-- For sizes that fit, `encode` is what happens. -/
theorem encodeAny_short (sg : Bool) (buf : List Byte) (h : buf.length < 2 ^ 31) :
    encodeAny sg buf = (encode sg buf).map some := by
  unfold encodeAny
  rw [toInt_small _ h]
  by_cases h4 : 2 ^ 31 ≤ 4 * buf.length
  · rw [if_pos (by omega)]
    unfold encode
    rw [if_pos h4]
    rfl
  · have hm : (4 * (buf.length : Int)).tdiv 3 = 4 * (buf.length : Int) / 3 :=
      Int.tdiv_eq_ediv_of_nonneg (by omega)
    have hm2 : (4 * (buf.length : Int) / 3).tmod 4 = (4 * (buf.length : Int) / 3) % 4 :=
      Int.tmod_eq_emod_of_nonneg (by omega)
    have hm3 : (4 - (4 * (buf.length : Int) / 3) % 4).tmod 4 = (4 - (4 * (buf.length : Int) / 3) % 4) % 4 :=
      Int.tmod_eq_emod_of_nonneg (by omega)
    rw [hm, hm2, hm3, if_neg (by omega), if_neg (by omega), if_neg (by omega)]
    congr 2
    exact List.take_of_length_le (by simp)

theorem decodeFragment_prefix (a r : List Byte) (i cnt : Nat) (h : i + cnt ≤ a.length) :
    decodeFragment (a ++ r) i cnt = decodeFragment a i cnt := by
  unfold decodeFragment
  have : ∀ (l : List Nat) (acc : BitVec 32), (∀ j ∈ l, i + j < a.length) →
      l.foldl (fun acc j => acc ||| (BitVec.ofNat 32 (reverseLookup ((a ++ r).getD (i + j) 0))) <<< offsets.getD j 0) acc
      = l.foldl (fun acc j => acc ||| (BitVec.ofNat 32 (reverseLookup (a.getD (i + j) 0))) <<< offsets.getD j 0) acc := by
    intro l
    induction l with
    | nil => intros; rfl
    | cons x xs ih =>
      intro acc hl
      rw [List.foldl_cons, List.foldl_cons, ih _ (fun j hj => hl j (List.mem_cons_of_mem _ hj))]
      have : (a ++ r).getD (i + x) 0 = a.getD (i + x) 0 := by
        rw [List.getD_eq_getElem?_getD, List.getD_eq_getElem?_getD,
          List.getElem?_append_left (hl x List.mem_cons_self)]
      rw [this]
  exact this _ _ (fun j hj => by rw [List.mem_range] at hj; omega)

theorem flatMap_same {α β : Type} (l : List α) (f g : α → List β) (h : ∀ x ∈ l, f x = g x) :
    l.flatMap f = l.flatMap g := by
  induction l with
  | nil => rw [List.flatMap_nil, List.flatMap_nil]
  | cons x xs ih =>
    rw [List.flatMap_cons, List.flatMap_cons, h x List.mem_cons_self, ih (fun y hy => h y (List.mem_cons_of_mem _ hy))]

/-- Padding at the end of a text without any makes no difference to what is written. -/
theorem decodeWrites_pad (core : List Byte) (k : Nat) (hne : ∀ c ∈ core, c ≠ eqSign) :
    decodeWrites (core ++ List.replicate k eqSign) = decodeWrites core := by
  have h1 : sourceLengthUnpadded (core ++ List.replicate k eqSign) = core.length := by
    rw [sourceLength_append, sourceLength_alpha _ hne, sourceLength_pad]; omega
  have h2 : sourceLengthUnpadded core = core.length := sourceLength_alpha _ hne
  have h3 : ∀ l : List Nat, (∀ g ∈ l, 4 * g + 4 ≤ core.length) →
      l.flatMap (fun g => emit (decodeFragment (core ++ List.replicate k eqSign) (4 * g) 4) 0)
      = l.flatMap (fun g => emit (decodeFragment core (4 * g) 4) 0) := by
    intro l hl
    refine flatMap_same l _ _ (fun x hx => ?_)
    have hx := decodeFragment_prefix core (List.replicate k eqSign) (4 * x) 4 (hl x hx)
    rw [hx]
  have h4 : ∀ t : List Byte, sourceLengthUnpadded t = core.length → decodeWrites t
      = ((List.range ((core.length - core.length % 4) / 4)).flatMap fun g => emit (decodeFragment t (4 * g) 4) 0)
        ++ (if core.length % 4 > 0 then emit (decodeFragment t (core.length - core.length % 4) (core.length % 4))
              (lengthMap.getD (core.length % 4) 0) else []) := by
    intro t ht
    rw [decodeWrites, ht]
  have h5 := decodeFragment_prefix core (List.replicate k eqSign) (core.length - core.length % 4) (core.length % 4)
    (by omega)
  rw [h4 _ h1, h4 _ h2, h3 _ (fun g hg => by rw [List.mem_range] at hg; omega), h5]

/-- The characters of a valid text before the padding. -/
theorem take_core (t : List Byte) (h : Spec.WellFormed t) (out : List Byte) :
    decodeInto (t.take (sourceLengthUnpadded t)) out = decodeInto t out := by
  obtain ⟨_, core, k, rfl, _, hc⟩ := h
  rw [eqSign_spec]
  have hne : ∀ c ∈ core, c ≠ eqSign := fun c h => alpha_ne ((isAlpha_iff c).1 (hc c h))
  have h1 : sourceLengthUnpadded (core ++ List.replicate k eqSign) = core.length := by
    rw [sourceLength_append, sourceLength_alpha _ hne, sourceLength_pad]; omega
  rw [h1, List.take_left' rfl]
  unfold decodeInto
  rw [decodeWrites_pad core k hne]

/-- For texts with less than `2^31` characters besides padding, `decode1` is what happens. -/
theorem decodeAny1_short (t : List Byte) (h : t.countP (· != Spec.pad) < 2 ^ 31) :
    decodeAny1 t = (decode1 t).map some := by
  have hcnt : sourceLengthUnpadded t = t.countP (· != Spec.pad) := by
    unfold sourceLengthUnpadded
    have : isNotPadding = (· != Spec.pad) := by
      funext c
      rw [Bool.eq_iff_iff, isNotPadding_iff, eqSign_spec]; simp
    rw [this]
  rw [← hcnt] at h
  unfold decodeAny1 decode1
  rw [toInt_small _ h]
  by_cases h0 : t.length = 0
  · rw [if_pos h0, if_pos h0]; rfl
  · rw [if_neg h0, if_neg h0]
    by_cases hv : validate t = false
    · rw [if_pos hv, if_pos hv]; rfl
    · rw [if_neg hv, if_neg hv]
      by_cases h3 : 2 ^ 31 ≤ 3 * sourceLengthUnpadded t
      · rw [if_pos (by omega), if_pos h3]; rfl
      · have hm : (3 * (sourceLengthUnpadded t : Int)).tdiv 4 = 3 * (sourceLengthUnpadded t : Int) / 4 :=
          Int.tdiv_eq_ediv_of_nonneg (by omega)
        rw [if_neg (by omega), if_neg h3, hm, if_neg (by omega), Int.toNat_natCast,
          take_core t (wellFormed_of_validate t (by simpa using hv))]
        have : (3 * (sourceLengthUnpadded t : Int) / 4).toNat = targetDecodedLength t := by
          unfold targetDecodedLength; omega
        rw [this]

/-- For texts with less than `2^31` characters besides padding, `decode2` is what happens. -/
theorem decodeAny2_short (dynamic : Bool) (t out : List Byte) (h : t.countP (· != Spec.pad) < 2 ^ 31) :
    decodeAny2 dynamic t out = (decode2 dynamic t out).map some := by
  have hcnt : sourceLengthUnpadded t = t.countP (· != Spec.pad) := by
    unfold sourceLengthUnpadded
    have : isNotPadding = (· != Spec.pad) := by
      funext c
      rw [Bool.eq_iff_iff, isNotPadding_iff, eqSign_spec]; simp
    rw [this]
  rw [← hcnt] at h
  unfold decodeAny2 decode2
  rw [toInt_small _ h]
  by_cases h3 : 2 ^ 31 ≤ 3 * sourceLengthUnpadded t
  · rw [if_pos (by omega), if_pos h3]; rfl
  · have hm : (3 * (sourceLengthUnpadded t : Int)).tdiv 4 = 3 * (sourceLengthUnpadded t : Int) / 4 :=
      Int.tdiv_eq_ediv_of_nonneg (by omega)
    have hl : (3 * (sourceLengthUnpadded t : Int) / 4).toNat = targetDecodedLength t := by
      unfold targetDecodedLength; omega
    rw [if_neg (by omega), if_neg h3, hm]
    unfold prepareAny
    rw [if_neg (by omega), hl]
    rcases prepare dynamic out (targetDecodedLength t) with ⟨ok, o⟩
    simp only []
    by_cases h5 : ok = false
    · rw [if_pos h5, if_pos h5]; rfl
    · rw [if_neg h5, if_neg h5]
      by_cases h6 : o.length = 0
      · rw [if_pos h6, if_pos h6]; rfl
      · rw [if_neg h6, if_neg h6]
        by_cases hv : validate t = false
        · rw [if_pos hv, if_pos hv]; rfl
        · rw [if_neg hv, if_neg hv, Int.toNat_natCast, take_core t (wellFormed_of_validate t (by simpa using hv))]
          cases decodeInto t o <;> rfl

/-- What a text decodes to is not longer than the text. -/
theorem decode1_length (t bytes : List Byte) (h : decode1 t = .ok bytes) : bytes.length ≤ t.length := by
  unfold decode1 at h
  by_cases h0 : t.length = 0
  · rw [if_pos h0] at h
    injection h with h
    subst h; simp
  · rw [if_neg h0] at h
    by_cases hv : validate t = false
    · rw [if_pos hv] at h
      injection h with h
      subst h; simp
    · rw [if_neg hv] at h
      split at h
      · cases h
      · obtain ⟨h1, h2⟩ := decodeInto_wellFormed t (List.replicate (targetDecodedLength t) 63#8)
          (wellFormed_of_validate t (by simpa using hv)) (by simp)
        rw [h1] at h
        injection h with h
        subst h
        have : sourceLengthUnpadded t ≤ t.length := List.countP_le_length
        rw [h2]
        unfold targetDecodedLength
        omega

/-- The texts that the encoder makes are never longer than `2^30`, whatever it is given. -/
theorem encodeAny_length (sg : Bool) (buf t : List Byte) (h : encodeAny sg buf = .ok (some t)) :
    t.length < 2 ^ 30 := by
  unfold encodeAny at h
  split at h
  · cases h
  · next h4 =>
    split at h
    · cases h
    · next h5 =>
      have hb := toInt_bounds buf.length
      split at h
      · next h6 =>
        injection h with h
        injection h with h
        subst h
        rw [List.length_replicate]
        have : (4 - ((4 * toInt buf.length).tdiv 3).tmod 4).tmod 4 < 4 := Int.tmod_lt_of_pos _ (by omega)
        have h8 : (4 * toInt buf.length).tdiv 3 ≤ 0 := by
          have := Int.tdiv_nonneg (a := 4 * -toInt buf.length) (b := 3) (by omega) (by omega)
          rw [show 4 * -toInt buf.length = -(4 * toInt buf.length) by omega, Int.neg_tdiv] at this
          omega
        omega
      · next h6 =>
        have hl : (buf.take (toInt buf.length).toNat).length = (toInt buf.length).toNat := by
          rw [List.length_take]; omega
        rw [encode_eq sg _ (by omega)] at h
        injection h with h
        injection h with h
        subst h
        rw [List.length_append, List.length_replicate, encodeWrites_length, hl]
        omega

/-- C01, exactly: with buffers of all sizes, encoding and decoding gives the buffer back if, and only if, it is
smaller than `2^29` bytes. -/
theorem roundtrip_exact (buf : List Byte) :
    (∃ t, encodeAny false buf = .ok (some t) ∧ decodeAny1 t = .ok (some buf)) ↔ buf.length < 2 ^ 29 := by
  constructor
  · rintro ⟨t, h1, h2⟩
    have ht := encodeAny_length _ _ _ h1
    have hc : t.countP (· != Spec.pad) ≤ t.length := List.countP_le_length
    rw [decodeAny1_short t (by omega)] at h2
    have h3 : decode1 t = .ok buf := by
      cases hd : decode1 t with
      | ok b => rw [hd] at h2; injection h2 with h2; injection h2 with h2; rw [h2]
      | ub => rw [hd] at h2; cases h2
    have h4 := decode1_length t buf h3
    rw [encodeAny_short _ _ (by omega)] at h1
    apply Nat.lt_of_not_le
    intro h5
    have : encode false buf = .ub := by
      unfold encode
      rw [if_pos (by omega)]
    rw [this] at h1
    cases h1
  · intro h
    obtain ⟨t, h1, h2, _⟩ := roundtrip buf (by omega)
    have h3 : encodeAny false buf = .ok (some t) := by rw [encodeAny_short _ _ (by omega), h1]; rfl
    have ht := encodeAny_length _ _ _ h3
    have hc : t.countP (· != Spec.pad) ≤ t.length := List.countP_le_length
    exact ⟨t, h3, by rw [decodeAny1_short t (by omega), h2]; rfl⟩
example : ¬ (List.replicate (2 ^ 29) 0#8).length < 2 ^ 29 := by rw [List.length_replicate]; decide

/-- C01 fails for every longer buffer: below `2^31` bytes the length computation overflows; `2^32` bytes are
encoded as none, and so on. -/
theorem roundtrip_long_violated (buf : List Byte) (h : 2 ^ 29 ≤ buf.length) :
    (¬ ∃ t, encodeAny false buf = .ok (some t) ∧ decodeAny1 t = .ok (some buf))
    ∧ (buf.length < 2 ^ 31 → encodeAny false buf = .ub)
    ∧ (∀ n, buf.length = 2 ^ 32 + n → n < 2 ^ 29 → encodeAny false buf = .ok (some (Spec.encode (buf.take n)))) := by
  refine ⟨fun h1 => ?_, fun h1 => ?_, fun n hn hl => ?_⟩
  · have := (roundtrip_exact buf).1 h1
    omega
  · rw [encodeAny_short _ _ h1]
    unfold encode
    rw [if_pos (by omega)]
    rfl
  · have ht : (buf.take n).length = n := by rw [List.length_take]; omega
    have h1 := encodeAny_short false (buf.take n) (by omega)
    rw [(encode_is_rfc4648 _ (by omega)).1] at h1
    rw [show Cpp.map some (Cpp.ok (Spec.encode (buf.take n))) = .ok (some (Spec.encode (buf.take n))) from rfl] at h1
    rw [← h1]
    unfold encodeAny
    rw [hn, ht, toInt_wrap, toInt_small n (by omega)]
    rw [Int.toNat_natCast, List.take_take, Nat.min_self]
example : (List.replicate (2 ^ 32 + 3) 7#8).length = 2 ^ 32 + 3 ∧ 3 < 2 ^ 29 := by
  rw [List.length_replicate]; decide

/-- C03 for long texts: between `2^31 / 3` and `2^31` characters besides padding nothing is defined; of a valid text
with `2^32 + n` of them, `n` are decoded. -/
theorem decode_long_violated (t : List Byte) (hw : Spec.WellFormed t) :
    (2 ^ 31 ≤ 3 * t.countP (· != Spec.pad) → t.countP (· != Spec.pad) < 2 ^ 31 →
      decodeAny1 t = .ub ∧ ∀ dynamic out, decodeAny2 dynamic t out = .ub)
    ∧ (∀ n, t.countP (· != Spec.pad) = 2 ^ 32 + n → 3 * n < 2 ^ 31 → n % 4 = 0 →
      decodeAny1 t = (decode1 (t.take n)).map some) := by
  have hcnt : ∀ t : List Byte, sourceLengthUnpadded t = t.countP (· != Spec.pad) := by
    intro t
    unfold sourceLengthUnpadded
    have : isNotPadding = (· != Spec.pad) := by
      funext c
      rw [Bool.eq_iff_iff, isNotPadding_iff, eqSign_spec]; simp
    rw [this]
  have hle : t.countP (· != Spec.pad) ≤ t.length := List.countP_le_length
  refine ⟨fun h1 h2 => ⟨?_, fun dynamic out => ?_⟩, fun n hn h3 h4 => ?_⟩
  · rw [decodeAny1_short t h2]
    unfold decode1
    rw [if_neg (by omega), if_neg (by rw [validate_of_wellFormed t hw]; decide), if_pos (by rw [hcnt]; exact h1)]
    rfl
  · rw [decodeAny2_short _ t _ h2]
    unfold decode2
    rw [if_pos (by rw [hcnt]; exact h1)]
    rfl
  · have hv := validate_of_wellFormed t hw
    obtain ⟨_, core, k, rfl, _, hc⟩ := hw
    have hne : ∀ c ∈ core, c ≠ eqSign := fun c h => alpha_ne ((isAlpha_iff c).1 (hc c h))
    have hcl : core.length = 2 ^ 32 + n := by
      rw [← hn, ← hcnt, eqSign_spec, sourceLength_append, sourceLength_alpha _ hne, sourceLength_pad]; omega
    have htk : (core ++ List.replicate k Spec.pad).take n = core.take n := by
      rw [List.take_append_of_le_length (by omega)]
    have htl : (core.take n).length = n := by rw [List.length_take]; omega
    have hwt : Spec.WellFormed (core.take n) :=
      ⟨by omega, core.take n, 0, by simp, by omega, fun c h => hc c (List.mem_of_mem_take h)⟩
    have hsn : sourceLengthUnpadded (core.take n) = n := by
      rw [sourceLength_alpha _ (fun c h => hne c (List.mem_of_mem_take h)), htl]
    have hm : (3 * (n : Int)).tdiv 4 = 3 * (n : Int) / 4 := Int.tdiv_eq_ediv_of_nonneg (by omega)
    have hl : (3 * (n : Int) / 4).toNat = targetDecodedLength (core.take n) := by
      unfold targetDecodedLength; rw [hsn]; omega
    rw [htk]
    unfold decodeAny1
    rw [if_neg (by omega), if_neg (by rw [hv]; decide), hcnt, hn, toInt_wrap, toInt_small n (by omega),
      if_neg (by omega), hm, if_neg (by omega), Int.toNat_natCast, htk, hl]
    unfold decode1
    by_cases h0 : n = 0
    · subst h0
      rw [List.take_zero]
      rfl
    · rw [if_neg (by omega), if_neg (by rw [validate_of_wellFormed _ hwt]; decide), hsn, if_neg (by omega)]
example : Spec.WellFormed (List.replicate (2 ^ 32 + 4) 65#8)
    ∧ (List.replicate (2 ^ 32 + 4) 65#8).countP (· != Spec.pad) = 2 ^ 32 + 4 := by
  constructor
  · refine ⟨by rw [List.length_replicate], List.replicate (2 ^ 32 + 4) 65#8, 0, (List.append_nil _).symm, by omega, ?_⟩
    intro c hc
    rw [List.mem_replicate] at hc
    rw [hc.2]
    exact ⟨0, by omega, by decide⟩
  · rw [List.countP_replicate]
    decide

/-- The `int` a size is converted to. -/
theorem toInt_exact (n : Nat) :
    toInt n = if n % 2 ^ 32 < 2 ^ 31 then ((n % 2 ^ 32 : Nat) : Int) else ((n % 2 ^ 32 : Nat) : Int) - 2 ^ 32 := by
  unfold toInt
  rw [BitVec.toInt_eq_toNat_cond, BitVec.toNat_ofNat]
  split <;> split <;> omega

theorem tdiv_neg_of {a b : Int} (k : Nat) (hb : 0 < b) (h : b * k ≤ -a) : a.tdiv b ≤ -k := by
  have h1 : (-a).tdiv b = -a / b := Int.tdiv_eq_ediv_of_nonneg (by
    have : 0 ≤ b * (k : Int) := Int.mul_nonneg (by omega) (by omega)
    omega)
  rw [Int.neg_tdiv] at h1
  have h2 : (k : Int) ≤ -a / b := by rw [Int.le_ediv_iff_mul_le hb, Int.mul_comm]; exact h
  omega

/-- C01, what the encoder does with a buffer of any size, by its size modulo `2^32`: below `2^29` just so many
bytes are encoded; up to `2^32 - 2^29` the length computation overflows; above `std::length_error` is thrown,
except for the last two, which give an empty text. -/
theorem encode_all_sizes (buf : List Byte) (m : Nat) (hm : m = buf.length % 2 ^ 32) :
    (m < 2 ^ 29 → encodeAny false buf = .ok (some (Spec.encode (buf.take m))))
    ∧ (2 ^ 29 ≤ m → m < 2 ^ 32 - 2 ^ 29 → encodeAny false buf = .ub)
    ∧ (2 ^ 32 - 2 ^ 29 ≤ m → m < 2 ^ 32 - 2 → encodeAny false buf = .ok none)
    ∧ (2 ^ 32 - 2 ≤ m → encodeAny false buf = .ok (some [])) := by
  have ht := toInt_exact buf.length
  rw [← hm] at ht
  have hm' : m < 2 ^ 32 := by omega
  refine ⟨fun h => ?_, fun h1 h2 => ?_, fun h1 h2 => ?_, fun h => ?_⟩
  · rw [if_pos (by omega)] at ht
    have hl : (buf.take m).length = m := by rw [List.length_take]; omega
    have h1 := encodeAny_short false (buf.take m) (by omega)
    rw [(encode_is_rfc4648 _ (by omega)).1] at h1
    rw [show Cpp.map some (Cpp.ok (Spec.encode (buf.take m))) = .ok (some (Spec.encode (buf.take m))) from rfl] at h1
    rw [← h1]
    unfold encodeAny
    rw [ht, hl, toInt_small m (by omega), Int.toNat_natCast, List.take_take, Nat.min_self]
  · unfold encodeAny
    rw [ht]
    split <;> rw [if_pos (by omega)]
  · rw [if_neg (by omega)] at ht
    unfold encodeAny
    rw [ht, if_neg (by omega), if_pos]
    have h3 : (4 * ((m : Int) - 2 ^ 32)).tdiv 3 ≤ (-4 : Int) := tdiv_neg_of 4 (by omega) (by omega)
    have h4 : ((4 : Int) - ((4 * ((m : Int) - 2 ^ 32)).tdiv 3).tmod 4).tmod 4 < 4 := Int.tmod_lt_of_pos _ (by omega)
    omega
  · rw [if_neg (by omega)] at ht
    rcases (show m = 2 ^ 32 - 2 ∨ m = 2 ^ 32 - 1 by omega) with rfl | rfl
    · unfold encodeAny
      rw [ht]
      rfl
    · unfold encodeAny
      rw [ht]
      rfl
example : (List.replicate (2 ^ 32 - 1) 7#8).length % 2 ^ 32 = 2 ^ 32 - 1
    ∧ (List.replicate (2 ^ 33 + 5) 7#8).length % 2 ^ 32 = 5
    ∧ (List.replicate (2 ^ 31) 7#8).length % 2 ^ 32 = 2 ^ 31
    ∧ (List.replicate (2 ^ 32 - 5) 7#8).length % 2 ^ 32 = 2 ^ 32 - 5 := by
  simp only [List.length_replicate]; decide

/-- C03, what the decoders do with a well-formed text whose characters besides padding are so many that their
number is not one of those which are decoded: if it is `m` modulo `2^32`, the length computation overflows or
`std::length_error` is thrown; with a buffer of a fixed size, the latter is a failure that leaves it as it is.
If `m` is `2^32 - 1`, nothing is decoded. -/
theorem decode_all_sizes (t : List Byte) (hw : Spec.WellFormed t) (m : Nat)
    (hm : m = t.countP (· != Spec.pad) % 2 ^ 32) :
    (2 ^ 31 ≤ 3 * m → 3 * m < 3 * 2 ^ 32 - 2 ^ 31 →
      decodeAny1 t = .ub ∧ ∀ dynamic out, decodeAny2 dynamic t out = .ub)
    ∧ (3 * 2 ^ 32 - 2 ^ 31 ≤ 3 * m → m < 2 ^ 32 - 1 →
      decodeAny1 t = .ok none ∧ ∀ out, decodeAny2 true t out = .ok none
        ∧ decodeAny2 false t out = .ok (some (false, out)))
    ∧ (m = 2 ^ 32 - 1 → decodeAny1 t = .ok (some []) ∧ ∀ out, decodeAny2 true t out = .ok (some (true, []))
        ∧ decodeAny2 false t out = .ok (some (out.length == 0, out))) := by
  have hcnt : sourceLengthUnpadded t = t.countP (· != Spec.pad) := by
    unfold sourceLengthUnpadded
    have : isNotPadding = (· != Spec.pad) := by
      funext c
      rw [Bool.eq_iff_iff, isNotPadding_iff, eqSign_spec]; simp
    rw [this]
  have hle : t.countP (· != Spec.pad) ≤ t.length := List.countP_le_length
  have ht := toInt_exact (sourceLengthUnpadded t)
  rw [hcnt, ← hm] at ht
  rw [← hcnt] at ht
  have hm' : m < 2 ^ 32 := by omega
  have hv := validate_of_wellFormed t hw
  refine ⟨fun h1 h2 => ⟨?_, fun dynamic out => ?_⟩, fun h1 h2 => ?_, fun h => ?_⟩
  · unfold decodeAny1
    rw [if_neg (by omega), if_neg (by rw [hv]; decide), ht]
    split <;> rw [if_pos (by omega)]
  · unfold decodeAny2
    rw [ht]
    split <;> rw [if_pos (by omega)]
  · rw [if_neg (by omega)] at ht
    have h3 : (3 * ((m : Int) - 2 ^ 32)).tdiv 4 ≤ (-1 : Int) := tdiv_neg_of 1 (by omega) (by omega)
    refine ⟨?_, fun out => ⟨?_, ?_⟩⟩
    · unfold decodeAny1
      rw [if_neg (by omega), if_neg (by rw [hv]; decide), ht, if_neg (by omega), if_pos (by omega)]
    · unfold decodeAny2 prepareAny
      rw [ht, if_neg (by omega), if_pos (by omega)]
      rfl
    · unfold decodeAny2 prepareAny
      rw [ht, if_neg (by omega), if_pos (by omega)]
      rfl
  · rw [if_neg (by omega)] at ht
    subst h
    have ht1 : toInt (sourceLengthUnpadded t) = -1 := by rw [ht]; rfl
    refine ⟨?_, fun out => ⟨?_, ?_⟩⟩
    · unfold decodeAny1
      rw [if_neg (by omega), if_neg (by rw [hv]; decide), ht1, if_neg (by decide), if_neg (by decide),
        show ((-1 : Int).toNat) = 0 from rfl, List.take_zero]
      decide +kernel
    · have hp : prepareAny true out ((3 * (-1 : Int)).tdiv 4) = some (true, []) := by
        unfold prepareAny
        rw [if_neg (by decide), show ((3 * (-1 : Int)).tdiv 4).toNat = 0 from rfl]
        simp [prepare]
      unfold decodeAny2
      rw [ht1, if_neg (by decide), hp]
      rfl
    · unfold decodeAny2
      rw [ht1]
      cases out with
      | nil => rfl
      | cons a out => rfl

example (n : Nat) : Spec.WellFormed (List.replicate (4 * n) 65#8)
    ∧ (List.replicate (4 * n) 65#8).countP (· != Spec.pad) = 4 * n
    ∧ (2 ^ 32 - 4 = 4 * (2 ^ 30 - 1) ∧ 3 * 2 ^ 32 - 2 ^ 31 ≤ 3 * (2 ^ 32 - 4)) := by
  refine ⟨⟨by rw [List.length_replicate]; omega, List.replicate (4 * n) 65#8, 0, by simp, by omega, ?_⟩, ?_, by decide⟩
  · intro c hc
    rw [List.eq_of_mem_replicate hc]
    exact (isAlpha_iff _).2 (by decide +kernel)
  · rw [List.countP_replicate, if_pos (by decide)]

end Nbdl.Base64
