import Verif.Base64.Model
import Verif.Base64.Spec
/-! Helper lemmas for the base64 properties. -/
namespace Nbdl.Base64

/-- Induction in steps of three. -/
theorem ind3 {α : Type} {P : List α → Prop} (h0 : P []) (h1 : ∀ a, P [a]) (h2 : ∀ a b, P [a, b])
    (h3 : ∀ a b c l, P l → P (a :: b :: c :: l)) : ∀ l, P l
  | [] => h0
  | [a] => h1 a
  | [a, b] => h2 a b
  | a :: b :: c :: l => h3 a b c l (ind3 h0 h1 h2 h3 l)

theorem sextet_eq (x : BitVec 32) (k : Nat) (hk : k ≤ 26) : sextet x k = x.toNat / 2 ^ k % 64 := by
  unfold sextet
  rw [BitVec.ushiftRight_and_distrib]
  have h : ((0x3F#32 <<< k) >>> k : BitVec 32) = 63#32 := by
    have : ∀ k : Fin 27, ((0x3F#32 <<< k.val) >>> k.val : BitVec 32) = 63#32 := by decide
    exact this ⟨k, by omega⟩
  rw [h, BitVec.toNat_and, BitVec.toNat_ushiftRight, Nat.shiftRight_eq_div_pow]
  exact Nat.and_two_pow_sub_one_eq_mod _ 6

theorem sextet_lt (x : BitVec 32) (k : Nat) (hk : k ≤ 26) : sextet x k < 64 := by
  rw [sextet_eq x k hk]; omega

theorem or_toNat {n : Nat} (x y : BitVec n) (i : Nat) (hx : ∃ q, x.toNat = 2 ^ i * q)
    (hy : y.toNat < 2 ^ i) : (x ||| y).toNat = x.toNat + y.toNat := by
  obtain ⟨q, hq⟩ := hx
  rw [BitVec.toNat_or, hq, Nat.two_pow_add_eq_or_of_lt hy]

theorem promote_shift (b : Byte) (k : Nat) (hk : k ≤ 24) :
    (promote false b <<< k).toNat = b.toNat * 2 ^ k := by
  unfold promote
  simp only [Bool.false_eq_true, if_false, BitVec.toNat_shiftLeft, BitVec.toNat_setWidth,
    Nat.shiftLeft_eq]
  have hb := b.isLt
  rw [Nat.mod_eq_of_lt (a := b.toNat) (by omega)]
  apply Nat.mod_eq_of_lt
  calc b.toNat * 2 ^ k < 2 ^ 8 * 2 ^ k := Nat.mul_lt_mul_of_pos_right hb (Nat.two_pow_pos k)
    _ = 2 ^ (8 + k) := by rw [Nat.pow_add]
    _ ≤ 2 ^ 32 := Nat.pow_le_pow_right (by omega) (by omega)

/-- The `uint32_t` built from three bytes. -/
def frag (sg : Bool) (a b c : Byte) : BitVec 32 :=
  promote sg a <<< 24 ||| promote sg b <<< 16 ||| promote sg c <<< 8

theorem frag_toNat (a b c : Byte) :
    (frag false a b c).toNat = a.toNat * 2 ^ 24 + b.toNat * 2 ^ 16 + c.toNat * 2 ^ 8 := by
  have ha := a.isLt; have hb := b.isLt; have hc := c.isLt
  have h1 : (promote false a <<< 24 ||| promote false b <<< 16).toNat
      = a.toNat * 2 ^ 24 + b.toNat * 2 ^ 16 := by
    rw [or_toNat _ _ 24, promote_shift a 24 (by omega), promote_shift b 16 (by omega)]
    · exact ⟨a.toNat, by rw [promote_shift a 24 (by omega)]; omega⟩
    · rw [promote_shift b 16 (by omega)]; omega
  unfold frag
  rw [or_toNat _ _ 16, h1, promote_shift c 8 (by omega)]
  · exact ⟨a.toNat * 2 ^ 8 + b.toNat, by rw [h1]; omega⟩
  · rw [promote_shift c 8 (by omega)]; omega

theorem zero_promote (sg : Bool) (k : Nat) : promote sg 0#8 <<< k = 0#32 := by
  cases sg <;> simp [promote]

theorem encodeRounds_cons (sg : Bool) (a b c : Byte) (l : List Byte) (n : Nat) :
    encodeRounds sg (a :: b :: c :: l) (3 * (n + 1))
      = encodeFragment (frag sg a b c) 3 ++ encodeRounds sg l (3 * n) := by
  unfold encodeRounds
  rw [Nat.mul_div_cancel_left _ (by omega), Nat.mul_div_cancel_left _ (by omega),
    List.range_succ_eq_map, List.flatMap_cons, List.flatMap_map]
  rfl

theorem extras_cons (sg : Bool) (a b c : Byte) (l : List Byte) (n e : Nat) :
    extras sg (a :: b :: c :: l) (n + 3) e = extras sg l n e := by
  unfold extras
  congr 1
  funext acc i
  have : n + 3 + i = (n + i) + 3 := by omega
  rw [this]; rfl

theorem encodeWrites_cons (sg : Bool) (a b c : Byte) (l : List Byte) :
    encodeWrites sg (a :: b :: c :: l)
      = encodeFragment (frag sg a b c) 3 ++ encodeWrites sg l := by
  unfold encodeWrites
  have h1 : (a :: b :: c :: l).length % 3 = l.length % 3 := by simp only [List.length_cons]; omega
  have h2 : (a :: b :: c :: l).length - l.length % 3 = 3 * (l.length / 3 + 1) := by
    simp only [List.length_cons]; omega
  have h3 : l.length - l.length % 3 = 3 * (l.length / 3) := by omega
  simp only [h1, h2, h3]
  rw [encodeRounds_cons, Nat.mul_add, Nat.mul_one, extras_cons, List.append_assoc]

theorem encodeWrites_nil (sg : Bool) : encodeWrites sg [] = [] := rfl

theorem encodeWrites_one (sg : Bool) (a : Byte) :
    encodeWrites sg [a] = encodeFragment (frag sg a 0 0) 1 := by
  unfold encodeWrites
  simp [encodeRounds, extras, frag, zero_promote, List.range_succ]

theorem encodeWrites_two (sg : Bool) (a b : Byte) :
    encodeWrites sg [a, b] = encodeFragment (frag sg a b 0) 2 := by
  unfold encodeWrites
  simp [encodeRounds, extras, frag, zero_promote, List.range_succ]

/-- The character for a 6-bit value. -/
def chr (n : Nat) : Byte := lookup.getD n 0

theorem encodeFragment_three (x : BitVec 32) : encodeFragment x 3 =
    [chr (sextet x 26), chr (sextet x 20), chr (sextet x 14), chr (sextet x 8)] := rfl
theorem encodeFragment_two (x : BitVec 32) : encodeFragment x 2 =
    [chr (sextet x 26), chr (sextet x 20), chr (sextet x 14)] := rfl
theorem encodeFragment_one (x : BitVec 32) : encodeFragment x 1 =
    [chr (sextet x 26), chr (sextet x 20)] := rfl

theorem encodeWrites_length (sg : Bool) (l : List Byte) :
    (encodeWrites sg l).length = (4 * l.length + 2) / 3 := by
  induction l using ind3 with
  | h0 => rfl
  | h1 a => rw [encodeWrites_one, encodeFragment_one]; simp
  | h2 a b => rw [encodeWrites_two, encodeFragment_two]; simp
  | h3 a b c l ih =>
    rw [encodeWrites_cons, List.length_append, ih, encodeFragment_three]
    simp only [List.length_cons, List.length_nil]; omega

theorem encode_eq (sg : Bool) (l : List Byte) (h : 4 * l.length < 2 ^ 31) :
    encode sg l = .ok (encodeWrites sg l ++ List.replicate ((3 - l.length % 3) % 3) eqSign) := by
  unfold encode
  have h1 : ¬ 2 ^ 31 ≤ 4 * l.length := by omega
  rw [if_neg h1]
  have hl := encodeWrites_length sg l
  have h2 : encodingLengthPadded l.length = (encodeWrites sg l).length + (3 - l.length % 3) % 3 := by
    rw [hl]; unfold encodingLengthPadded
    have h3 : l.length = 3 * (l.length / 3) + l.length % 3 := by omega
    generalize l.length / 3 = q at h3
    have h4 : l.length % 3 < 3 := Nat.mod_lt _ (by omega)
    generalize l.length % 3 = r at h3 h4
    have h5 : r = 0 ∨ r = 1 ∨ r = 2 := by omega
    rcases h5 with rfl | rfl | rfl
    · have : 4 * l.length / 3 = 4 * q := by omega
      rw [this]; omega
    · have : 4 * l.length / 3 = 4 * q + 1 := by omega
      rw [this]; omega
    · have : 4 * l.length / 3 = 4 * q + 2 := by omega
      rw [this]; omega
  simp only [h2]
  rw [if_neg (by omega), Nat.add_sub_cancel_left]

/-! ### Table facts (whole table, 64 or 256 entries) -/

theorem reverse_chr (n : Nat) (h : n < 64) : reverseLookup (chr n) = n := by
  have : ∀ n : Fin 64, reverseLookup (chr n.val) = n.val := by decide +kernel
  exact this ⟨n, h⟩

theorem chr_alphabet (n : Nat) (h : n < 64) : chr n = Spec.alphabet n := by
  have : ∀ n : Fin 64, chr n.val = Spec.alphabet n.val := by decide +kernel
  exact this ⟨n, h⟩

theorem byte_forall {P : Byte → Prop} (h : ∀ n : Fin 256, P (BitVec.ofFin n)) (c : Byte) : P c := by
  have := h c.toFin; simpa using this

theorem reverse_class (c : Byte) :
    (reverseLookup c < 64 ∧ chr (reverseLookup c) = c ∧ c ≠ eqSign)
    ∨ (c = eqSign ∧ reverseLookup c = 65) ∨ (c ≠ eqSign ∧ reverseLookup c = 64) := by
  revert c
  apply byte_forall
  decide +kernel

theorem isInvalid_iff (c : Byte) : isInvalid c = false ↔ (reverseLookup c < 64 ∨ c = eqSign) := by
  rcases reverse_class c with h | h | h 
  · simp [isInvalid, INVALID, h]; omega
  · rw [h.1]; decide
  · simp [isInvalid, INVALID, h]

theorem isNotPadding_iff (c : Byte) : isNotPadding c = true ↔ c ≠ eqSign := by
  rcases reverse_class c with h | h | h 
  · simp [isNotPadding, PADDING, h]; omega
  · rw [h.1]; decide
  · simp [isNotPadding, PADDING, h]

theorem isAlpha_iff (c : Byte) : Spec.IsAlpha c ↔ reverseLookup c < 64 := by
  constructor
  · rintro ⟨n, hn, rfl⟩
    rw [← chr_alphabet n hn, reverse_chr n hn]; exact hn
  · intro h
    refine ⟨reverseLookup c, h, ?_⟩
    rw [← chr_alphabet _ h]
    rcases reverse_class c with h' | h' | h'
    · exact h'.2.1
    · omega
    · omega

theorem chr_ne_eq (n : Nat) (h : n < 64) : chr n ≠ eqSign := by
  rcases reverse_class (chr n) with h' | h' | h'
  · exact h'.2.2
  · rw [reverse_chr n h] at h'; omega
  · rw [reverse_chr n h] at h'; omega

/-! ### Decoder, structurally -/

theorem sourceLength_append (a b : List Byte) :
    sourceLengthUnpadded (a ++ b) = sourceLengthUnpadded a + sourceLengthUnpadded b := by
  simp [sourceLengthUnpadded]

theorem sourceLength_alpha (a : List Byte) (h : ∀ c ∈ a, c ≠ eqSign) :
    sourceLengthUnpadded a = a.length := by
  unfold sourceLengthUnpadded
  rw [List.countP_eq_length]
  intro c hc; exact (isNotPadding_iff c).2 (h c hc)

theorem sourceLength_pad (k : Nat) : sourceLengthUnpadded (List.replicate k eqSign) = 0 := by
  unfold sourceLengthUnpadded
  rw [List.countP_eq_zero]
  intro c hc
  have := List.eq_of_mem_replicate hc
  subst this; decide

theorem decodeFragment_cons (w x y z : Byte) (l : List Byte) (i cnt : Nat) :
    decodeFragment (w :: x :: y :: z :: l) (i + 4) cnt = decodeFragment l i cnt := by
  unfold decodeFragment
  congr 1
  funext acc j
  have : i + 4 + j = (i + j) + 4 := by omega
  rw [this]; rfl

theorem decodeWrites_cons (w x y z : Byte) (l : List Byte)
    (hw : w ≠ eqSign) (hx : x ≠ eqSign) (hy : y ≠ eqSign) (hz : z ≠ eqSign) :
    decodeWrites (w :: x :: y :: z :: l)
      = emit (decodeFragment [w, x, y, z] 0 4) 0 ++ decodeWrites l := by
  have hs : sourceLengthUnpadded (w :: x :: y :: z :: l) = sourceLengthUnpadded l + 4 := by
    have := sourceLength_append [w, x, y, z] l
    rw [sourceLength_alpha [w, x, y, z] (by simp [hw, hx, hy, hz])] at this
    simpa [Nat.add_comm] using this
  unfold decodeWrites
  simp only [hs]
  generalize sourceLengthUnpadded l = n
  have h1 : (n + 4) % 4 = n % 4 := by omega
  have h2 : (n + 4 - n % 4) / 4 = n / 4 + 1 := by omega
  have h3 : (n - n % 4) / 4 = n / 4 := by omega
  have h4 : n + 4 - n % 4 = (n - n % 4) + 4 := by omega
  rw [h1, h2, h3, List.range_succ_eq_map, List.flatMap_cons, List.flatMap_map, h4,
    decodeFragment_cons, List.append_assoc]
  congr 1

theorem decodeWrites_nil : decodeWrites [] = [] := rfl

/-- Decoding a final group of two characters. -/
theorem decodeWrites_two (w x : Byte) (hw : w ≠ eqSign) (hx : x ≠ eqSign) (k : Nat) :
    decodeWrites (w :: x :: List.replicate k eqSign)
      = emit (decodeFragment [w, x] 0 2) 2 := by
  have hs : sourceLengthUnpadded (w :: x :: List.replicate k eqSign) = 2 := by
    have := sourceLength_append [w, x] (List.replicate k eqSign)
    rw [sourceLength_alpha [w, x] (by simp [hw, hx]), sourceLength_pad] at this
    simpa using this
  unfold decodeWrites
  simp only [hs]
  rfl

/-- Decoding a final group of three characters. -/
theorem decodeWrites_three (w x y : Byte) (hw : w ≠ eqSign) (hx : x ≠ eqSign) (hy : y ≠ eqSign)
    (k : Nat) :
    decodeWrites (w :: x :: y :: List.replicate k eqSign)
      = emit (decodeFragment [w, x, y] 0 3) 1 := by
  have hs : sourceLengthUnpadded (w :: x :: y :: List.replicate k eqSign) = 3 := by
    have := sourceLength_append [w, x, y] (List.replicate k eqSign)
    rw [sourceLength_alpha [w, x, y] (by simp [hw, hx, hy]), sourceLength_pad] at this
    simpa using this
  unfold decodeWrites
  simp only [hs]
  rfl

theorem shl_toNat (n k : Nat) (hn : n < 64) (hk : k ≤ 26) :
    (BitVec.ofNat 32 n <<< k).toNat = n * 2 ^ k := by
  rw [BitVec.toNat_shiftLeft, BitVec.toNat_ofNat, Nat.shiftLeft_eq,
    Nat.mod_eq_of_lt (a := n) (by omega)]
  apply Nat.mod_eq_of_lt
  calc n * 2 ^ k < 2 ^ 6 * 2 ^ k := Nat.mul_lt_mul_of_pos_right hn (Nat.two_pow_pos k)
    _ = 2 ^ (6 + k) := by rw [Nat.pow_add]
    _ ≤ 2 ^ 32 := Nat.pow_le_pow_right (by omega) (by omega)

/-- `uint32_t` assembled from 6-bit values. -/
def asm4 (p q r s : Nat) : BitVec 32 :=
  0#32 ||| BitVec.ofNat 32 p <<< 26 ||| BitVec.ofNat 32 q <<< 20 ||| BitVec.ofNat 32 r <<< 14
    ||| BitVec.ofNat 32 s <<< 8

theorem asm4_toNat (p q r s : Nat) (hp : p < 64) (hq : q < 64) (hr : r < 64) (hs : s < 64) :
    (asm4 p q r s).toNat = p * 2 ^ 26 + q * 2 ^ 20 + r * 2 ^ 14 + s * 2 ^ 8 := by
  have e1 := shl_toNat p 26 hp (by omega)
  have e2 := shl_toNat q 20 hq (by omega)
  have e3 := shl_toNat r 14 hr (by omega)
  have e4 := shl_toNat s 8 hs (by omega)
  unfold asm4
  have h0 : (0#32 ||| BitVec.ofNat 32 p <<< 26) = BitVec.ofNat 32 p <<< 26 := by simp
  rw [h0]
  have h1 : (BitVec.ofNat 32 p <<< 26 ||| BitVec.ofNat 32 q <<< 20).toNat
      = p * 2 ^ 26 + q * 2 ^ 20 := by
    rw [or_toNat _ _ 26, e1, e2]
    · exact ⟨p, by rw [e1]; omega⟩
    · rw [e2]; omega
  have h2 : (BitVec.ofNat 32 p <<< 26 ||| BitVec.ofNat 32 q <<< 20
      ||| BitVec.ofNat 32 r <<< 14).toNat = p * 2 ^ 26 + q * 2 ^ 20 + r * 2 ^ 14 := by
    rw [or_toNat _ _ 20, h1, e3]
    · exact ⟨p * 64 + q, by rw [h1]; omega⟩
    · rw [e3]; omega
  rw [or_toNat _ _ 14, h2, e4]
  · exact ⟨(p * 64 + q) * 64 + r, by rw [h2]; omega⟩
  · rw [e4]; omega

theorem decodeFragment_four (w x y z : Byte) : decodeFragment [w, x, y, z] 0 4
    = asm4 (reverseLookup w) (reverseLookup x) (reverseLookup y) (reverseLookup z) := rfl
theorem decodeFragment_three (w x y : Byte) : decodeFragment [w, x, y] 0 3
    = asm4 (reverseLookup w) (reverseLookup x) (reverseLookup y) 0 := by
  show _ = _ ||| 0#32
  rw [BitVec.or_zero]; rfl
theorem decodeFragment_two (w x : Byte) : decodeFragment [w, x] 0 2
    = asm4 (reverseLookup w) (reverseLookup x) 0 0 := by
  show _ = _ ||| 0#32 ||| 0#32
  rw [BitVec.or_zero, BitVec.or_zero]; rfl

/-- The byte at bit position `k`. -/
def byteAt (x : BitVec 32) (k : Nat) : Byte := (x >>> k).setWidth 8

theorem byteAt_eq (x : BitVec 32) (k : Nat) (b : Byte) (h : x.toNat / 2 ^ k % 256 = b.toNat) :
    byteAt x k = b := by
  apply BitVec.eq_of_toNat_eq
  unfold byteAt
  rw [BitVec.toNat_setWidth, BitVec.toNat_ushiftRight, Nat.shiftRight_eq_div_pow]
  exact h

theorem emit_zero (x : BitVec 32) : emit x 0 = [byteAt x 24, byteAt x 16, byteAt x 8] := rfl
theorem emit_one (x : BitVec 32) : emit x 1 = [byteAt x 24, byteAt x 16] := rfl
theorem emit_two (x : BitVec 32) : emit x 2 = [byteAt x 24] := rfl

theorem eq_bytes {x : BitVec 32} (a b c : Byte) (h : x.toNat = (frag false a b c).toNat) :
    byteAt x 24 = a ∧ byteAt x 16 = b ∧ byteAt x 8 = c := by
  rw [frag_toNat] at h
  have ha := a.isLt; have hb := b.isLt; have hc := c.isLt
  refine ⟨byteAt_eq _ _ _ ?_, byteAt_eq _ _ _ ?_, byteAt_eq _ _ _ ?_⟩ <;> rw [h] <;> omega

theorem asm4_sextets (x : BitVec 32) (h : x.toNat % 256 = 0) :
    (asm4 (sextet x 26) (sextet x 20) (sextet x 14) (sextet x 8)).toNat = x.toNat := by
  rw [asm4_toNat _ _ _ _ (sextet_lt _ _ (by omega)) (sextet_lt _ _ (by omega))
    (sextet_lt _ _ (by omega)) (sextet_lt _ _ (by omega))]
  rw [sextet_eq _ _ (by omega), sextet_eq _ _ (by omega), sextet_eq _ _ (by omega),
    sextet_eq _ _ (by omega)]
  have := x.isLt
  omega

theorem chr_sextet_ne (x : BitVec 32) (k : Nat) (hk : k ≤ 26) : chr (sextet x k) ≠ eqSign :=
  chr_ne_eq _ (sextet_lt _ _ hk)

theorem rev_chr_sextet (x : BitVec 32) (k : Nat) (hk : k ≤ 26) :
    reverseLookup (chr (sextet x k)) = sextet x k := reverse_chr _ (sextet_lt _ _ hk)

theorem decodeWrites_encode (l : List Byte) (k : Nat) :
    decodeWrites (encodeWrites false l ++ List.replicate k eqSign) = l := by
  induction l using ind3 with
  | h0 =>
    rw [encodeWrites_nil]
    unfold decodeWrites
    have hs : sourceLengthUnpadded ([] ++ List.replicate k eqSign) = 0 := by
      rw [List.nil_append, sourceLength_pad]
    simp only [hs]; rfl
  | h1 a =>
    rw [encodeWrites_one, encodeFragment_one]
    show decodeWrites (_ :: _ :: List.replicate k eqSign) = _
    rw [decodeWrites_two _ _ (chr_sextet_ne _ _ (by omega)) (chr_sextet_ne _ _ (by omega)),
      decodeFragment_two, rev_chr_sextet _ _ (by omega), rev_chr_sextet _ _ (by omega), emit_two]
    have hx := frag_toNat a 0 0
    have h14 : sextet (frag false a 0 0) 14 = 0 := by
      rw [sextet_eq _ _ (by omega), hx]; simp; omega
    have h8 : sextet (frag false a 0 0) 8 = 0 := by
      rw [sextet_eq _ _ (by omega), hx]; simp; omega
    have := asm4_sextets (frag false a 0 0) (by rw [hx]; simp; omega)
    rw [h14, h8] at this
    rw [(eq_bytes _ _ _ this).1]
  | h2 a b =>
    rw [encodeWrites_two, encodeFragment_two]
    show decodeWrites (_ :: _ :: _ :: List.replicate k eqSign) = _
    rw [decodeWrites_three _ _ _ (chr_sextet_ne _ _ (by omega)) (chr_sextet_ne _ _ (by omega))
      (chr_sextet_ne _ _ (by omega)),
      decodeFragment_three, rev_chr_sextet _ _ (by omega), rev_chr_sextet _ _ (by omega),
      rev_chr_sextet _ _ (by omega), emit_one]
    have hx := frag_toNat a b 0
    have h8 : sextet (frag false a b 0) 8 = 0 := by
      rw [sextet_eq _ _ (by omega), hx]; simp; omega
    have := asm4_sextets (frag false a b 0) (by rw [hx]; simp; omega)
    rw [h8] at this
    rw [(eq_bytes _ _ _ this).1, (eq_bytes _ _ _ this).2.1]
  | h3 a b c l ih =>
    rw [encodeWrites_cons, encodeFragment_three]
    show decodeWrites (_ :: _ :: _ :: _ :: (encodeWrites false l ++ List.replicate k eqSign)) = _
    rw [decodeWrites_cons _ _ _ _ _ (chr_sextet_ne _ _ (by omega)) (chr_sextet_ne _ _ (by omega))
      (chr_sextet_ne _ _ (by omega)) (chr_sextet_ne _ _ (by omega)), ih,
      decodeFragment_four, rev_chr_sextet _ _ (by omega), rev_chr_sextet _ _ (by omega),
      rev_chr_sextet _ _ (by omega), rev_chr_sextet _ _ (by omega), emit_zero]
    have hx := frag_toNat a b c
    have := asm4_sextets (frag false a b c) (by rw [hx]; omega)
    obtain ⟨h1, h2, h3⟩ := eq_bytes _ _ _ this
    rw [h1, h2, h3]; rfl

/-! ### The bit-level specification -/

open Spec in
theorem groups_six (b0 b1 b2 b3 b4 b5 : Bool) (r : List Bool) :
    groups (b0 :: b1 :: b2 :: b3 :: b4 :: b5 :: r) = bitsVal [b0, b1, b2, b3, b4, b5] :: groups r := by
  rw [groups]; simp

theorem bits_hi6 (a : Byte) : Spec.bitsVal [a.getLsbD 7, a.getLsbD 6, a.getLsbD 5, a.getLsbD 4,
    a.getLsbD 3, a.getLsbD 2] = a.toNat / 4 := by
  revert a; apply byte_forall; decide +kernel
theorem bits_lo6 (a : Byte) : Spec.bitsVal [a.getLsbD 5, a.getLsbD 4,
    a.getLsbD 3, a.getLsbD 2, a.getLsbD 1, a.getLsbD 0] = a.toNat % 64 := by
  revert a; apply byte_forall; decide +kernel
theorem bits_lo2 (a : Byte) : Spec.bitsVal [a.getLsbD 1, a.getLsbD 0] = a.toNat % 4 := by
  revert a; apply byte_forall; decide +kernel
theorem bits_hi4 (a : Byte) : Spec.bitsVal [a.getLsbD 7, a.getLsbD 6, a.getLsbD 5, a.getLsbD 4]
    = a.toNat / 16 := by
  revert a; apply byte_forall; decide +kernel
theorem bits_lo4 (a : Byte) : Spec.bitsVal [a.getLsbD 3, a.getLsbD 2, a.getLsbD 1, a.getLsbD 0]
    = a.toNat % 16 := by
  revert a; apply byte_forall; decide +kernel
theorem bits_hi2 (a : Byte) : Spec.bitsVal [a.getLsbD 7, a.getLsbD 6] = a.toNat / 64 := by
  revert a; apply byte_forall; decide +kernel

theorem bits_mid (a b : Byte) : Spec.bitsVal [a.getLsbD 1, a.getLsbD 0, b.getLsbD 7, b.getLsbD 6,
    b.getLsbD 5, b.getLsbD 4] = a.toNat % 4 * 16 + b.toNat / 16 := by
  have h1 := bits_lo2 a; have h2 := bits_hi4 b
  simp only [Spec.bitsVal, List.foldl_cons, List.foldl_nil] at *
  omega
theorem bits_mid' (b c : Byte) : Spec.bitsVal [b.getLsbD 3, b.getLsbD 2, b.getLsbD 1, b.getLsbD 0,
    c.getLsbD 7, c.getLsbD 6] = b.toNat % 16 * 4 + c.toNat / 64 := by
  have h1 := bits_lo4 b; have h2 := bits_hi2 c
  simp only [Spec.bitsVal, List.foldl_cons, List.foldl_nil] at *
  omega

theorem sextets_frag (a b c : Byte) :
    sextet (frag false a b c) 26 = a.toNat / 4
    ∧ sextet (frag false a b c) 20 = a.toNat % 4 * 16 + b.toNat / 16
    ∧ sextet (frag false a b c) 14 = b.toNat % 16 * 4 + c.toNat / 64
    ∧ sextet (frag false a b c) 8 = c.toNat % 64 := by
  have ha := a.isLt; have hb := b.isLt; have hc := c.isLt
  refine ⟨?_, ?_, ?_, ?_⟩ <;> rw [sextet_eq _ _ (by omega), frag_toNat] <;> omega

theorem groups_three (a b c : Byte) (r : List Byte) :
    Spec.groups ((a :: b :: c :: r).flatMap Spec.byteBits)
      = sextet (frag false a b c) 26 :: sextet (frag false a b c) 20
        :: sextet (frag false a b c) 14 :: sextet (frag false a b c) 8
        :: Spec.groups (r.flatMap Spec.byteBits) := by
  obtain ⟨h1, h2, h3, h4⟩ := sextets_frag a b c
  rw [h1, h2, h3, h4, ← bits_hi6, ← bits_mid, ← bits_mid', ← bits_lo6]
  simp only [List.flatMap_cons, Spec.byteBits, List.cons_append, List.nil_append]
  rw [groups_six, groups_six, groups_six, groups_six]

theorem bitsVal_false (l : List Bool) : Spec.bitsVal (l ++ [false]) = 2 * Spec.bitsVal l := by
  simp [Spec.bitsVal]

theorem groups_two (a b : Byte) : Spec.groups ([a, b].flatMap Spec.byteBits)
    = [sextet (frag false a b 0) 26, sextet (frag false a b 0) 20, sextet (frag false a b 0) 14] := by
  obtain ⟨h1, h2, h3, _⟩ := sextets_frag a b 0
  rw [h1, h2, h3, ← bits_hi6, ← bits_mid, ← bits_mid']
  simp only [List.flatMap_cons, List.flatMap_nil, Spec.byteBits, List.cons_append, List.nil_append]
  rw [groups_six, groups_six, Spec.groups]
  simp [Spec.groups]

theorem groups_one (a : Byte) : Spec.groups ([a].flatMap Spec.byteBits)
    = [sextet (frag false a 0 0) 26, sextet (frag false a 0 0) 20] := by
  obtain ⟨h1, h2, _, _⟩ := sextets_frag a 0 0
  rw [h1, h2, ← bits_hi6, ← bits_mid]
  simp only [List.flatMap_cons, List.flatMap_nil, Spec.byteBits, List.cons_append, List.nil_append]
  rw [groups_six, Spec.groups]
  simp [Spec.groups]

theorem encodeWrites_spec (l : List Byte) :
    encodeWrites false l = (Spec.groups (l.flatMap Spec.byteBits)).map Spec.alphabet := by
  have key : ∀ (x : BitVec 32) (k : Nat), k ≤ 26 → chr (sextet x k) = Spec.alphabet (sextet x k) :=
    fun x k hk => chr_alphabet _ (sextet_lt _ _ hk)
  induction l using ind3 with
  | h0 => simp [encodeWrites_nil, Spec.groups]
  | h1 a =>
    rw [encodeWrites_one, encodeFragment_one, groups_one, key _ _ (by omega), key _ _ (by omega)]
    rfl
  | h2 a b =>
    rw [encodeWrites_two, encodeFragment_two, groups_two, key _ _ (by omega), key _ _ (by omega),
      key _ _ (by omega)]
    rfl
  | h3 a b c l ih =>
    rw [encodeWrites_cons, encodeFragment_three, groups_three, ih, key _ _ (by omega),
      key _ _ (by omega), key _ _ (by omega), key _ _ (by omega)]
    rfl

theorem encodeWrites_alpha (sg : Bool) (l : List Byte) :
    ∀ c ∈ encodeWrites sg l, reverseLookup c < 64 := by
  have key : ∀ (x : BitVec 32) (k : Nat), k ≤ 26 → reverseLookup (chr (sextet x k)) < 64 := by
    intro x k hk; rw [rev_chr_sextet x k hk]; exact sextet_lt x k hk
  induction l using ind3 with
  | h0 => simp [encodeWrites_nil]
  | h1 a =>
    rw [encodeWrites_one, encodeFragment_one]
    simp [key]
  | h2 a b =>
    rw [encodeWrites_two, encodeFragment_two]
    simp [key]
  | h3 a b c l ih =>
    rw [encodeWrites_cons, encodeFragment_three]
    intro x hx
    rw [List.mem_append] at hx
    rcases hx with hx | hx
    · simp only [List.mem_cons, List.not_mem_nil, or_false] at hx
      rcases hx with rfl | rfl | rfl | rfl <;> exact key _ _ (by omega)
    · exact ih x hx

/-! ### Validation -/

theorem eqSign_spec : Spec.pad = eqSign := by decide

theorem dropWhile_core (core : List Byte) (k : Nat) (h : ∀ c ∈ core, c ≠ eqSign) :
    (core ++ List.replicate k eqSign).dropWhile (· != eqSign) = List.replicate k eqSign := by
  rw [List.dropWhile_append_of_pos]
  · cases k with
    | zero => rfl
    | succ k => simp [List.replicate_succ]
  · intro a ha; simpa using h a ha

theorem alpha_ne {c : Byte} (h : reverseLookup c < 64) : c ≠ eqSign := by
  rcases reverse_class c with h' | h' | h'
  · exact h'.2.2
  · omega
  · omega

theorem validate_of_wellFormed (t : List Byte) (h : Spec.WellFormed t) : validate t = true := by
  obtain ⟨hl, core, k, rfl, hk, hc⟩ := h
  have hc' : ∀ c ∈ core, reverseLookup c < 64 := fun c h => (isAlpha_iff c).1 (hc c h)
  unfold validate
  rw [eqSign_spec] at *
  rw [if_neg (by simpa using hl)]
  have h1 : (core ++ List.replicate k eqSign).any isInvalid = false := by
    rw [List.any_eq_false]
    intro c hcm
    rw [Bool.not_eq_true, isInvalid_iff]
    rw [List.mem_append] at hcm
    rcases hcm with h | h
    · exact Or.inl (hc' c h)
    · exact Or.inr (List.eq_of_mem_replicate h)
  rw [h1]
  rw [dropWhile_core core k (fun c h => alpha_ne (hc' c h))]
  have h2 : (List.replicate k eqSign).any isNotPadding = false := by
    rw [List.any_eq_false]
    intro c h
    rw [List.eq_of_mem_replicate h]; decide
  simp only [List.length_replicate, h2]
  simp; omega

theorem wellFormed_of_validate (t : List Byte) (h : validate t = true) : Spec.WellFormed t := by
  unfold validate at h
  split at h
  · exact absurd h (by simp)
  rename_i hl
  split at h
  · exact absurd h (by simp)
  rename_i hinv
  simp only at h
  split at h
  · exact absurd h (by simp)
  rename_i hlen
  split at h
  · exact absurd h (by simp)
  rename_i hpad
  refine ⟨by omega, t.takeWhile (· != eqSign), (t.dropWhile (· != eqSign)).length, ?_, by omega, ?_⟩
  · rw [eqSign_spec]
    have : t.dropWhile (· != eqSign)
        = List.replicate (t.dropWhile (· != eqSign)).length eqSign := by
      rw [List.eq_replicate_iff]
      refine ⟨rfl, fun b hb => ?_⟩
      have h3 : isNotPadding b = false := by
        rw [Bool.not_eq_true, List.any_eq_false] at hpad
        simpa using hpad b hb
      have := (isNotPadding_iff b)
      rw [h3] at this
      simpa using this
    rw [← this, List.takeWhile_append_dropWhile]
  · intro c hc
    rw [isAlpha_iff]
    have hne : c ≠ eqSign := by
      have := List.all_eq_true.1 (List.all_takeWhile (p := (· != eqSign)) (l := t)) c hc
      simpa using this
    have hmem : c ∈ t := (List.takeWhile_prefix _).subset hc
    have hi : isInvalid c = false := by
      rw [Bool.not_eq_true, List.any_eq_false] at hinv
      simpa using hinv c hmem
    rcases (isInvalid_iff c).1 hi with h | h
    · exact h
    · exact absurd h hne

/-- Induction in steps of four. -/
theorem ind4 {α : Type} {P : List α → Prop} (h0 : P []) (h1 : ∀ a, P [a]) (h2 : ∀ a b, P [a, b])
    (h3 : ∀ a b c, P [a, b, c]) (h4 : ∀ a b c d l, P l → P (a :: b :: c :: d :: l)) :
    ∀ l : List α, P l
  | [] => h0
  | [a] => h1 a
  | [a, b] => h2 a b
  | [a, b, c] => h3 a b c
  | a :: b :: c :: d :: l => h4 a b c d l (ind4 h0 h1 h2 h3 h4 l)

theorem decodeWrites_length (core : List Byte) (k : Nat) (hne : ∀ c ∈ core, c ≠ eqSign)
    (hl : core.length % 4 ≠ 1) :
    (decodeWrites (core ++ List.replicate k eqSign)).length = 3 * core.length / 4 := by
  revert hne hl
  induction core using ind4 with
  | h1 a => intro _ h; exact absurd rfl h
  | h0 =>
    intro _ _
    unfold decodeWrites
    have hs : sourceLengthUnpadded ([] ++ List.replicate k eqSign) = 0 := by
      rw [List.nil_append, sourceLength_pad]
    simp only [hs]; rfl
  | h2 a b =>
    intro h hl
    have := decodeWrites_two a b (h a (by simp)) (h b (by simp)) k
    simp only [List.cons_append, List.nil_append]
    rw [this, emit_two]; simp
  | h3 a b c =>
    intro h hl
    have := decodeWrites_three a b c (h a (by simp)) (h b (by simp)) (h c (by simp)) k
    simp only [List.cons_append, List.nil_append]
    rw [this, emit_one]; simp
  | h4 a b c d l ih =>
    intro h hl
    have := decodeWrites_cons a b c d (l ++ List.replicate k eqSign) (h a (by simp)) (h b (by simp))
      (h c (by simp)) (h d (by simp))
    simp only [List.cons_append]
    rw [this, List.length_append, ih (fun c hc => h c (by simp [hc])) (by simp only [List.length_cons] at hl; omega), emit_zero]
    simp only [List.length_cons, List.length_nil]
    omega

/-- Sextets of the bytes of an assembled group. -/
theorem frag_bytes (p q r s : Nat) (hp : p < 64) (hq : q < 64) (hr : r < 64) (hs : s < 64) :
    frag false (byteAt (asm4 p q r s) 24) (byteAt (asm4 p q r s) 16) (byteAt (asm4 p q r s) 8)
      = asm4 p q r s := by
  have hN := asm4_toNat p q r s hp hq hr hs
  apply BitVec.eq_of_toNat_eq
  rw [frag_toNat]
  simp only [byteAt, BitVec.toNat_setWidth, BitVec.toNat_ushiftRight, Nat.shiftRight_eq_div_pow, hN]
  omega

theorem sextet_asm4 (p q r s : Nat) (hp : p < 64) (hq : q < 64) (hr : r < 64) (hs : s < 64) :
    sextet (asm4 p q r s) 26 = p ∧ sextet (asm4 p q r s) 20 = q
      ∧ sextet (asm4 p q r s) 14 = r ∧ sextet (asm4 p q r s) 8 = s := by
  have hN := asm4_toNat p q r s hp hq hr hs
  refine ⟨?_, ?_, ?_, ?_⟩ <;> rw [sextet_eq _ _ (by omega), hN] <;> omega

theorem chr_rev {c : Byte} (h : reverseLookup c < 64) : chr (reverseLookup c) = c := by
  rcases reverse_class c with h' | h' | h'
  · exact h'.2.1
  · omega
  · omega

theorem decodeWrites_pads (k : Nat) : decodeWrites ([] ++ List.replicate k eqSign) = [] := by
  unfold decodeWrites
  have hs : sourceLengthUnpadded ([] ++ List.replicate k eqSign) = 0 := by
    rw [List.nil_append, sourceLength_pad]
  simp only [hs]; rfl

theorem encodeWrites_decode (core : List Byte) (k : Nat) (ha : ∀ c ∈ core, reverseLookup c < 64)
    (hl : core.length % 4 ≠ 1)
    (h2 : core.length % 4 = 2 → ∀ c, core.getLast? = some c → reverseLookup c % 16 = 0)
    (h3 : core.length % 4 = 3 → ∀ c, core.getLast? = some c → reverseLookup c % 4 = 0) :
    encodeWrites false (decodeWrites (core ++ List.replicate k eqSign)) = core := by
  revert ha hl h2 h3
  induction core using ind4 with
  | h1 a => intro _ h; exact absurd rfl h
  | h0 =>
    intro _ _ _ _
    rw [decodeWrites_pads, encodeWrites_nil]
  | h2 a b =>
    intro ha _ h2 _
    have a1 := ha a (by simp); have b1 := ha b (by simp)
    have := decodeWrites_two a b (alpha_ne a1) (alpha_ne b1) k
    simp only [List.cons_append, List.nil_append]
    rw [this, decodeFragment_two, emit_two, encodeWrites_one, encodeFragment_one]
    have hz := h2 rfl b (by simp)
    have hN := asm4_toNat _ _ 0 0 a1 b1 (by omega) (by omega)
    have e : frag false (byteAt (asm4 (reverseLookup a) (reverseLookup b) 0 0) 24) 0 0
        = asm4 (reverseLookup a) (reverseLookup b) 0 0 := by
      have h := frag_bytes _ _ 0 0 a1 b1 (by omega) (by omega)
      have e1 : byteAt (asm4 (reverseLookup a) (reverseLookup b) 0 0) 16 = 0 := by
        apply byteAt_eq; rw [hN]; show _ = 0; omega
      have e2 : byteAt (asm4 (reverseLookup a) (reverseLookup b) 0 0) 8 = 0 := by
        apply byteAt_eq; rw [hN]; show _ = 0; omega
      rw [e1, e2] at h; exact h
    obtain ⟨s1, s2, _, _⟩ := sextet_asm4 _ _ 0 0 a1 b1 (by omega) (by omega)
    rw [e, s1, s2, chr_rev a1, chr_rev b1]
  | h3 a b c =>
    intro ha _ _ h3
    have a1 := ha a (by simp); have b1 := ha b (by simp); have c1 := ha c (by simp)
    have := decodeWrites_three a b c (alpha_ne a1) (alpha_ne b1) (alpha_ne c1) k
    simp only [List.cons_append, List.nil_append]
    rw [this, decodeFragment_three, emit_one, encodeWrites_two, encodeFragment_two]
    have hz := h3 rfl c (by simp)
    have hN := asm4_toNat _ _ _ 0 a1 b1 c1 (by omega)
    have e : frag false (byteAt (asm4 (reverseLookup a) (reverseLookup b) (reverseLookup c) 0) 24)
        (byteAt (asm4 (reverseLookup a) (reverseLookup b) (reverseLookup c) 0) 16) 0
        = asm4 (reverseLookup a) (reverseLookup b) (reverseLookup c) 0 := by
      have h := frag_bytes _ _ _ 0 a1 b1 c1 (by omega)
      have e2 : byteAt (asm4 (reverseLookup a) (reverseLookup b) (reverseLookup c) 0) 8 = 0 := by
        apply byteAt_eq; rw [hN]; show _ = 0; omega
      rw [e2] at h; exact h
    obtain ⟨s1, s2, s3, _⟩ := sextet_asm4 _ _ _ 0 a1 b1 c1 (by omega)
    rw [e, s1, s2, s3, chr_rev a1, chr_rev b1, chr_rev c1]
  | h4 a b c d l ih =>
    intro ha hl h2 h3
    have a1 := ha a (by simp); have b1 := ha b (by simp); have c1 := ha c (by simp)
    have d1 := ha d (by simp)
    have := decodeWrites_cons a b c d (l ++ List.replicate k eqSign) (alpha_ne a1) (alpha_ne b1)
      (alpha_ne c1) (alpha_ne d1)
    simp only [List.cons_append]
    rw [this, decodeFragment_four, emit_zero]
    simp only [List.cons_append, List.nil_append]
    rw [encodeWrites_cons, frag_bytes _ _ _ _ a1 b1 c1 d1, encodeFragment_three]
    obtain ⟨s1, s2, s3, s4⟩ := sextet_asm4 _ _ _ _ a1 b1 c1 d1
    rw [s1, s2, s3, s4, chr_rev a1, chr_rev b1, chr_rev c1, chr_rev d1, ih]
    · rfl
    · intro x hx; exact ha x (by simp [hx])
    · simp only [List.length_cons] at hl; omega
    · intro hm x hx
      apply h2
      · simp only [List.length_cons]; omega
      · cases l with
        | nil => simp at hx
        | cons y ys => simpa using hx
    · intro hm x hx
      apply h3
      · simp only [List.length_cons]; omega
      · cases l with
        | nil => simp at hx
        | cons y ys => simpa using hx

end Nbdl.Base64
