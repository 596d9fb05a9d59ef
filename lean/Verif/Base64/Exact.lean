import Verif.Base64.Props
/-!
# C03 and C04, exactly: what the decoded bytes are, and which texts have the same

Further specification.
-/
namespace Nbdl.Base64
namespace Spec

/-- The number a character of the alphabet stands for. -/
def value (c : Byte) : Nat := ((List.range 64).find? fun n => alphabet n = c).getD 0

/-- The six bits of a number, most significant first. -/
def sixBits (n : Nat) : List Bool :=
  [n.testBit 5, n.testBit 4, n.testBit 3, n.testBit 2, n.testBit 1, n.testBit 0]

/-- The bits of a text which stand for something: those of the characters before the padding, as many
as make up whole bytes. -/
def usedBits (t : List Byte) : List Bool :=
  let bs := (t.filter fun c => c ≠ pad).flatMap fun c => sixBits (value c)
  bs.take (8 * (bs.length / 8))

end Spec
open Spec

theorem value_rev (c : Byte) (h : reverseLookup c < 64) : value c = reverseLookup c := by
  have : ∀ n : Fin 256, reverseLookup (BitVec.ofFin n) < 64 → value (BitVec.ofFin n) = reverseLookup (BitVec.ofFin n) := by
    decide +kernel
  exact byte_forall (P := fun c => reverseLookup c < 64 → value c = reverseLookup c) this c h

theorem testBit_six (n i : Nat) (h : n < 64) (hi : 6 ≤ i) : n.testBit i = false :=
  Nat.testBit_lt_two_pow (Nat.lt_of_lt_of_le h (Nat.pow_le_pow_right (n := 2) (by omega) hi))

theorem asm4_bit (p q r s i : Nat) (hi : i < 32) : (asm4 p q r s).getLsbD i
    = ((decide (26 ≤ i) && p.testBit (i - 26)) || (decide (20 ≤ i) && q.testBit (i - 20))
      || (decide (14 ≤ i) && r.testBit (i - 14)) || (decide (8 ≤ i) && s.testBit (i - 8))) := by
  have e : ∀ n k : Nat, (BitVec.ofNat 32 n <<< k).getLsbD i = (decide (k ≤ i) && n.testBit (i - k)) := by
    intro n k
    rw [BitVec.getLsbD_shiftLeft, BitVec.getLsbD_ofNat]
    have h1 : i - k < 32 := by omega
    by_cases h : i < k
    · simp [h, Nat.not_le.2 h]
    · simp [h, Nat.le_of_not_lt h, hi, h1]
  unfold asm4
  simp only [BitVec.getLsbD_or, e, BitVec.getLsbD_zero, Bool.false_or]

theorem byteAt_bit (x : BitVec 32) (k i : Nat) (hi : i < 8) : (byteAt x k).getLsbD i = x.getLsbD (k + i) := by
  unfold byteAt
  simp [BitVec.getLsbD_setWidth, hi]

theorem bits_four (p q r s : Nat) (hp : p < 64) (hq : q < 64) (hr : r < 64) (hs : s < 64) :
    byteBits (byteAt (asm4 p q r s) 24) ++ byteBits (byteAt (asm4 p q r s) 16) ++ byteBits (byteAt (asm4 p q r s) 8)
      = sixBits p ++ sixBits q ++ sixBits r ++ sixBits s := by
  simp only [byteBits, sixBits, List.cons_append, List.nil_append, byteAt_bit _ _ _ (by omega : 0 < 8),
    byteAt_bit _ _ _ (by omega : 1 < 8), byteAt_bit _ _ _ (by omega : 2 < 8), byteAt_bit _ _ _ (by omega : 3 < 8),
    byteAt_bit _ _ _ (by omega : 4 < 8), byteAt_bit _ _ _ (by omega : 5 < 8), byteAt_bit _ _ _ (by omega : 6 < 8),
    byteAt_bit _ _ _ (by omega : 7 < 8)]
  simp (disch := omega) only [asm4_bit]
  have z := fun i (h : 6 ≤ i) => testBit_six p i hp h
  have z1 := fun i (h : 6 ≤ i) => testBit_six q i hq h
  have z2 := fun i (h : 6 ≤ i) => testBit_six r i hr h
  have z3 := fun i (h : 6 ≤ i) => testBit_six s i hs h
  simp [z, z1, z2, z3]

theorem bits_three (p q r : Nat) (hp : p < 64) (hq : q < 64) (hr : r < 64) :
    byteBits (byteAt (asm4 p q r 0) 24) ++ byteBits (byteAt (asm4 p q r 0) 16)
      = (sixBits p ++ sixBits q ++ sixBits r).take 16 := by
  have h := congrArg (List.take 16) (bits_four p q r 0 hp hq hr (by omega))
  simpa [byteBits, sixBits] using h

theorem bits_two (p q : Nat) (hp : p < 64) (hq : q < 64) :
    byteBits (byteAt (asm4 p q 0 0) 24) = (sixBits p ++ sixBits q).take 8 := by
  have h := congrArg (List.take 8) (bits_four p q 0 0 hp hq (by omega) (by omega))
  simpa [byteBits, sixBits] using h

theorem used_core (core : List Byte) (k : Nat) (h : ∀ c ∈ core, c ≠ eqSign) :
    usedBits (core ++ List.replicate k eqSign)
      = (core.flatMap fun c => sixBits (value c)).take (8 * ((core.flatMap fun c => sixBits (value c)).length / 8)) := by
  have e : (core ++ List.replicate k eqSign).filter (fun c => decide (c ≠ pad)) = core := by
    rw [List.filter_append, eqSign_spec]
    have h1 : core.filter (fun c => decide (c ≠ eqSign)) = core :=
      List.filter_eq_self.2 fun c hc => by simpa using h c hc
    have h2 : (List.replicate k eqSign).filter (fun c => decide (c ≠ eqSign)) = [] := by
      rw [List.filter_eq_nil_iff]
      intro c hc
      rw [List.eq_of_mem_replicate hc]; simp
    rw [h1, h2, List.append_nil]
  unfold usedBits
  rw [e]

theorem six_length (core : List Byte) : (core.flatMap fun c => sixBits (value c)).length = 6 * core.length := by
  induction core with
  | nil => rfl
  | cons c core ih => simp only [List.flatMap_cons, List.length_append, ih, List.length_cons]; simp [sixBits]; omega

theorem decodeWrites_bits (core : List Byte) (k : Nat) (ha : ∀ c ∈ core, reverseLookup c < 64)
    (hl : core.length % 4 ≠ 1) :
    (decodeWrites (core ++ List.replicate k eqSign)).flatMap byteBits
      = (core.flatMap fun c => sixBits (value c)).take (8 * (6 * core.length / 8)) := by
  revert ha hl
  induction core using ind4 with
  | h1 a => intro _ h; exact absurd rfl h
  | h0 => intro _ _; rw [decodeWrites_pads]; rfl
  | h2 a b =>
    intro ha _
    have a1 := ha a (by simp); have b1 := ha b (by simp)
    have := decodeWrites_two a b (alpha_ne a1) (alpha_ne b1) k
    simp only [List.cons_append, List.nil_append]
    rw [this, decodeFragment_two, emit_two]
    have e := bits_two _ _ a1 b1
    simp only [List.flatMap_cons, List.flatMap_nil, List.append_nil, value_rev a a1, value_rev b b1, e]
    have hn : 8 * (6 * [a, b].length / 8) = 8 := by simp
    rw [hn]
  | h3 a b c =>
    intro ha _
    have a1 := ha a (by simp); have b1 := ha b (by simp); have c1 := ha c (by simp)
    have := decodeWrites_three a b c (alpha_ne a1) (alpha_ne b1) (alpha_ne c1) k
    simp only [List.cons_append, List.nil_append]
    rw [this, decodeFragment_three, emit_one]
    have e := bits_three _ _ _ a1 b1 c1
    simp only [List.flatMap_cons, List.flatMap_nil, List.append_nil, value_rev a a1, value_rev b b1, value_rev c c1, e]
    have hn : 8 * (6 * [a, b, c].length / 8) = 16 := by simp
    rw [hn, List.append_assoc]
  | h4 a b c d l ih =>
    intro ha hl
    have a1 := ha a (by simp); have b1 := ha b (by simp); have c1 := ha c (by simp); have d1 := ha d (by simp)
    have := decodeWrites_cons a b c d (l ++ List.replicate k eqSign) (alpha_ne a1) (alpha_ne b1)
      (alpha_ne c1) (alpha_ne d1)
    simp only [List.cons_append]
    rw [this, decodeFragment_four, emit_zero]
    have e := bits_four _ _ _ _ a1 b1 c1 d1
    have ih := ih (fun c h => ha c (by simp [h])) (by simp only [List.length_cons] at hl; omega)
    simp only [List.flatMap_append, List.flatMap_cons, List.flatMap_nil, List.append_nil, ih, value_rev a a1,
      value_rev b b1, value_rev c c1, value_rev d d1]
    have hn : 8 * (6 * (a :: b :: c :: d :: l).length / 8) = 24 + 8 * (6 * l.length / 8) := by
      simp only [List.length_cons]; omega
    have e' := congrArg (· ++ (l.flatMap fun c => sixBits (value c)).take (8 * (6 * l.length / 8))) e
    have h24 : ∀ p q r s : Nat, (sixBits p ++ sixBits q ++ sixBits r ++ sixBits s).length = 24 := fun _ _ _ _ => rfl
    have e2 : ∀ (p q r s n : Nat) (Z : List Bool), (sixBits p ++ sixBits q ++ sixBits r ++ sixBits s ++ Z).take (24 + n)
        = sixBits p ++ sixBits q ++ sixBits r ++ sixBits s ++ Z.take n := by
      intro p q r s n Z
      rw [← h24 p q r s, List.take_length_add_append]
    have e3 := e2 (reverseLookup a) (reverseLookup b) (reverseLookup c) (reverseLookup d) (8 * (6 * l.length / 8))
      (l.flatMap fun c => sixBits (value c))
    simp only [List.append_assoc] at e' e3 ⊢
    rw [e', hn, e3]

/-- What is decoded from an accepted text, bit by bit: the bits of its characters, as many as make up
whole bytes. -/
theorem decode1_bits (t : List Byte) (hsize : 3 * t.length < 2 ^ 31) (hw : WellFormed t) :
    ∃ bytes, decode1 t = .ok bytes ∧ bytes.flatMap byteBits = usedBits t := by
  have hle : sourceLengthUnpadded t ≤ t.length := List.countP_le_length
  by_cases h0 : t.length = 0
  · have : t = [] := List.eq_nil_of_length_eq_zero h0
    subst this; exact ⟨[], rfl, rfl⟩
  have hv := (validate_iff t).2 hw
  obtain ⟨hI, -⟩ := decodeInto_wellFormed t (List.replicate (targetDecodedLength t) 63#8) hw (by simp)
  refine ⟨decodeWrites t, ?_, ?_⟩
  · unfold decode1
    rw [if_neg h0, hv, if_neg (by simp), if_neg (by omega), hI]
  · obtain ⟨hl, core, k, rfl, hk, hc⟩ := hw
    rw [eqSign_spec] at *
    have ha : ∀ c ∈ core, reverseLookup c < 64 := fun c h => (isAlpha_iff c).1 (hc c h)
    have hlc : core.length % 4 ≠ 1 := by
      rw [List.length_append, List.length_replicate] at hl; omega
    rw [decodeWrites_bits core k ha hlc, used_core core k (fun c h => alpha_ne (ha c h)), six_length]

theorem byteBits_inj : ∀ a b : Byte, byteBits a = byteBits b → a = b := by
  intro a b h
  apply BitVec.eq_of_getLsbD_eq
  simp only [byteBits, List.cons.injEq] at h
  intro i hi
  match i, hi with
  | 0, _ => exact h.2.2.2.2.2.2.2.1
  | 1, _ => exact h.2.2.2.2.2.2.1
  | 2, _ => exact h.2.2.2.2.2.1
  | 3, _ => exact h.2.2.2.2.1
  | 4, _ => exact h.2.2.2.1
  | 5, _ => exact h.2.2.1
  | 6, _ => exact h.2.1
  | 7, _ => exact h.1

theorem bits_inj : ∀ l m : List Byte, l.flatMap byteBits = m.flatMap byteBits → l = m
  | [], [], _ => rfl
  | [], b :: m, h => by simp [byteBits] at h
  | a :: l, [], h => by simp [byteBits] at h
  | a :: l, b :: m, h => by
    simp only [List.flatMap_cons] at h
    obtain ⟨h1, h2⟩ := List.append_inj h (by simp [byteBits])
    rw [byteBits_inj a b h1, bits_inj l m h2]

/-- C04, exactly: two accepted texts decode to the same bytes if and only if they have the same used bits. -/
theorem same_bytes_exact (t₁ t₂ : List Byte) (h1 : 3 * t₁.length < 2 ^ 31) (h2 : 3 * t₂.length < 2 ^ 31)
    (w1 : WellFormed t₁) (w2 : WellFormed t₂) : decode1 t₁ = decode1 t₂ ↔ usedBits t₁ = usedBits t₂ := by
  obtain ⟨b1, e1, f1⟩ := decode1_bits t₁ h1 w1
  obtain ⟨b2, e2, f2⟩ := decode1_bits t₂ h2 w2
  rw [e1, e2, ← f1, ← f2]
  constructor
  · intro h; injection h with h; rw [h]
  · intro h; rw [bits_inj _ _ h]

example : usedBits (ascii "QQ==") = usedBits (ascii "QR==") := by decide +kernel
example : usedBits (ascii "QQ==") ≠ usedBits (ascii "Qg==") := by decide +kernel

/-! ## Re-encoding -/

theorem encode_last_one (l : List Byte) : l.length % 3 = 1 →
    ∃ X n, n < 64 ∧ n % 16 = 0 ∧ encodeWrites false l = X ++ [alphabet n] := by
  induction l using ind3 with
  | h0 => intro h; simp at h
  | h1 a =>
    intro _
    have h := (sextets_frag a 0 0).2.1
    refine ⟨[chr (sextet (frag false a 0 0) 26)], sextet (frag false a 0 0) 20, sextet_lt _ _ (by omega), ?_, ?_⟩
    · rw [h]; show (_ + 0 / 16) % 16 = 0; omega
    · rw [encodeWrites_one, encodeFragment_one, ← chr_alphabet _ (sextet_lt _ _ (by omega))]; rfl
  | h2 a b => intro h; simp at h
  | h3 a b c l ih =>
    intro h
    obtain ⟨X, n, h1, h2, h3⟩ := ih (by simp only [List.length_cons] at h; omega)
    exact ⟨_ ++ X, n, h1, h2, by rw [encodeWrites_cons, h3, List.append_assoc]⟩

theorem encode_last_two (l : List Byte) : l.length % 3 = 2 →
    ∃ X n, n < 64 ∧ n % 4 = 0 ∧ encodeWrites false l = X ++ [alphabet n] := by
  induction l using ind3 with
  | h0 => intro h; simp at h
  | h1 a => intro h; simp at h
  | h2 a b =>
    intro _
    have h := (sextets_frag a b 0).2.2.1
    refine ⟨[chr (sextet (frag false a b 0) 26), chr (sextet (frag false a b 0) 20)], sextet (frag false a b 0) 14,
      sextet_lt _ _ (by omega), ?_, ?_⟩
    · rw [h]; show (_ + 0 / 64) % 4 = 0; omega
    · rw [encodeWrites_two, encodeFragment_two, ← chr_alphabet _ (sextet_lt _ _ (by omega))]; rfl
  | h3 a b c l ih =>
    intro h
    obtain ⟨X, n, h1, h2, h3⟩ := ih (by simp only [List.length_cons] at h; omega)
    exact ⟨_ ++ X, n, h1, h2, by rw [encodeWrites_cons, h3, List.append_assoc]⟩

theorem pads_unique {p c d : Byte} (hc : c ≠ p) (hd : d ≠ p) : ∀ (j k : Nat) (X Y : List Byte),
    List.replicate j p ++ c :: X = List.replicate k p ++ d :: Y → j = k ∧ c = d
  | 0, 0, X, Y, h => by simp at h; exact ⟨rfl, h.1⟩
  | 0, k + 1, X, Y, h => by simp [List.replicate_succ] at h; exact absurd h.1 hc
  | j + 1, 0, X, Y, h => by simp [List.replicate_succ] at h; exact absurd h.1.symm hd
  | j + 1, k + 1, X, Y, h => by
    simp only [List.replicate_succ, List.cons_append, List.cons.injEq, true_and] at h
    obtain ⟨h1, h2⟩ := pads_unique hc hd j k X Y h
    exact ⟨by omega, h2⟩

theorem tail_unique {p c d : Byte} (hc : c ≠ p) (hd : d ≠ p) (j k : Nat) (X Y : List Byte)
    (h : X ++ [c] ++ List.replicate j p = Y ++ [d] ++ List.replicate k p) : j = k ∧ c = d := by
  have h := congrArg List.reverse h
  simp only [List.reverse_append, List.reverse_replicate, List.reverse_cons, List.reverse_nil, List.nil_append] at h
  exact pads_unique hc hd j k X.reverse Y.reverse (by simpa using h)

theorem encode_zeroTail (bytes t : List Byte) (hb : 4 * bytes.length < 2 ^ 31) (h : encode false bytes = .ok t) :
    ZeroTail t := by
  rw [encode_eq _ _ hb] at h
  injection h with h
  have hne : ∀ c, IsAlpha c → c ≠ eqSign := fun c hc => alpha_ne ((isAlpha_iff c).1 hc)
  intro core c k ht hc
  rw [eqSign_spec] at ht
  have hm : bytes.length % 3 = 0 ∨ bytes.length % 3 = 1 ∨ bytes.length % 3 = 2 := by omega
  rcases hm with hm | hm | hm
  · rw [hm] at h
    have hk : k = 0 := by
      cases k with
      | zero => rfl
      | succ k =>
        have hmem : eqSign ∈ encodeWrites false bytes := by
          have e : encodeWrites false bytes = t := by simpa using h
          rw [e, ht]; simp [List.replicate_succ]
        exact absurd rfl (alpha_ne (encodeWrites_alpha false bytes _ hmem))
    subst hk
    exact ⟨by omega, by omega⟩
  · obtain ⟨X, n, h1, h2, h3⟩ := encode_last_one bytes hm
    rw [hm, h3, ht] at h
    obtain ⟨e1, e2⟩ := tail_unique (hne _ ⟨n, h1, rfl⟩) (hne _ hc) _ _ _ _ h
    have e1 : (2 : Nat) = k := e1
    exact ⟨fun _ => ⟨n, h1, e2, h2⟩, fun h => by omega⟩
  · obtain ⟨X, n, h1, h2, h3⟩ := encode_last_two bytes hm
    rw [hm, h3, ht] at h
    obtain ⟨e1, e2⟩ := tail_unique (hne _ ⟨n, h1, rfl⟩) (hne _ hc) _ _ _ _ h
    have e1 : (1 : Nat) = k := e1
    exact ⟨fun h => by omega, fun _ => ⟨n, h1, e2, h2⟩⟩

/-- C04, exactly: encoding the bytes decoded from an accepted text gives the text back if and only if its unused
bits are zero. -/
theorem reencode_exact (t bytes : List Byte) (hsize : 3 * t.length < 2 ^ 31) (hw : WellFormed t)
    (hd : decode1 t = .ok bytes) : encode false bytes = .ok t ↔ ZeroTail t := by
  constructor
  · intro h
    refine encode_zeroTail bytes t ?_ h
    obtain ⟨b, e1, e2⟩ := (decode1_spec t hsize).2 hw
    rw [hd] at e1; injection e1 with e1; subst e1
    have : t.countP (· != pad) ≤ t.length := List.countP_le_length
    omega
  · intro h
    obtain ⟨b, e1, e2⟩ := reencode_partial t hsize hw h
    rw [hd] at e1; injection e1 with e1; subst e1
    exact e2

example : decode1 (ascii "QR==") = .ok [65#8] := by decide +kernel
example : ¬ ZeroTail (ascii "QR==") := by
  intro h
  have := (reencode_exact (ascii "QR==") [65#8] (by decide) ((validate_iff _).1 (by decide +kernel)) (by decide +kernel)).2 h
  revert this
  decide +kernel

end Nbdl.Base64
