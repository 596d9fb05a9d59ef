import Verif.Uid.Spec
/-!
# Properties of identifiers (C98, C99)
-/
namespace Nbdl.Uid

/-! ## Outside of the browser -/

private theorem wordBytes_number (w : BitVec 32) : number (wordBytes w) = w.toNat := by
  simp only [wordBytes, number, BitVec.toNat_setWidth, BitVec.toNat_ushiftRight,
    Nat.shiftRight_eq_div_pow]
  have := w.isLt
  omega

private theorem wordBytes_inj {v w : BitVec 32} (h : wordBytes v = wordBytes w) : v = w := by
  apply BitVec.eq_of_toNat_eq
  rw [← wordBytes_number, ← wordBytes_number, h]

private theorem number_append (xs ys : List Byte) :
    number (xs ++ ys) = number xs + 256 ^ xs.length * number ys := by
  induction xs with
  | nil => simp [number]
  | cons x xs ih =>
    simp only [List.cons_append, number, ih, List.length_cons, Nat.pow_succ]
    rw [Nat.mul_add, Nat.mul_comm (256 ^ xs.length) 256, Nat.mul_assoc]
    omega

/-- C98: an identifier has sixteen bytes, and two are equal exactly if the 128 bits the engine gave
for them are: nothing of what the engine yields is lost. -/
theorem all_bits (mt : BitVec 32 → Nat → BitVec 32) (s t : BitVec 32) (k l : Nat) :
    (generate mt s k).bytes.length = 16 ∧
    ((generate mt s k).eq (generate mt t l) = true ↔
      ∀ i, i < 4 → mt s (4 * k + i) = mt t (4 * l + i)) := by
  refine ⟨rfl, ?_⟩
  simp only [Uid.eq, beq_iff_eq]
  constructor
  · intro h i hi
    simp only [generate] at h
    have h₃ := List.append_inj' h rfl
    have h₂ := List.append_inj' h₃.1 rfl
    have h₁ := List.append_inj' h₂.1 rfl
    match i, hi with
    | 0, _ => exact wordBytes_inj h₁.1
    | 1, _ => exact wordBytes_inj h₁.2
    | 2, _ => exact wordBytes_inj h₂.2
    | 3, _ => exact wordBytes_inj h₃.2
  · intro h
    have h₀ := h 0 (by omega)
    have h₁ := h 1 (by omega)
    have h₂ := h 2 (by omega)
    have h₃ := h 3 (by omega)
    simp only [Nat.add_zero] at h₀
    simp only [generate, h₀, h₁, h₂, h₃]

/-- C98: the number an identifier's bytes write is the engine's four numbers one after the other. -/
theorem in_order (mt : BitVec 32 → Nat → BitVec 32) (s : BitVec 32) (k : Nat) :
    number (generate mt s k).bytes =
      (mt s (4 * k)).toNat + 2 ^ 32 * (mt s (4 * k + 1)).toNat +
        2 ^ 64 * (mt s (4 * k + 2)).toNat + 2 ^ 96 * (mt s (4 * k + 3)).toNat := by
  simp only [generate, number_append, wordBytes_number]
  simp [wordBytes]

/-- C98: equal identifiers have equal hashes, whatever the hash of a byte. -/
theorem equal_hash (h : Byte → BitVec 64) (x y : Uid) (e : x.eq y = true) : x.hash h = y.hash h := by
  simp only [Uid.eq, beq_iff_eq] at e
  simp only [Uid.hash, e]

private theorem no_injection : ∀ (n : Nat) (f : Nat → Nat),
    (∀ i, i ≤ n → f i < n) → ∃ i j, i ≤ n ∧ j ≤ n ∧ i ≠ j ∧ f i = f j
  | 0, f, h => absurd (h 0 (Nat.le_refl _)) (Nat.not_lt_zero _)
  | n + 1, f, h => by
    by_cases hx : ∃ i, i ≤ n ∧ f i = f (n + 1)
    · obtain ⟨i, hi, e⟩ := hx
      exact ⟨i, n + 1, by omega, Nat.le_refl _, by omega, e⟩
    · have hne : ∀ i, i ≤ n → f i ≠ f (n + 1) := fun i hi e => hx ⟨i, hi, e⟩
      obtain ⟨i, j, hi, hj, hij, e⟩ := no_injection n
        (fun i => if f i = n then f (n + 1) else f i) (by
          intro i hi
          have h₁ := h i (by omega)
          have h₂ := h (n + 1) (Nat.le_refl _)
          have h₃ := hne i hi
          by_cases c : f i = n
          · simp only [c, if_true]; omega
          · simp only [c, if_false]; omega)
      refine ⟨i, j, by omega, by omega, hij, ?_⟩
      have h₁ := hne i hi
      have h₂ := hne j hj
      by_cases c : f i = n <;> by_cases d : f j = n <;> simp only [c, d, if_true, if_false] at e <;>
        omega

/-- C98 is violated: of any `2^32 + 1` generators, whatever the engine and whatever seeds the system
yields, two yield the same identifiers forever: only 32 of an identifier's 128 bits are random. -/
theorem sharing_violated (mt : BitVec 32 → Nat → BitVec 32) (seeds : Nat → BitVec 32) :
    (∃ i j, i ≤ 2 ^ 32 ∧ j ≤ 2 ^ 32 ∧ i ≠ j ∧
      ∀ k, generate mt (seeds i) k = generate mt (seeds j) k) ∧
    ¬ NoSharing fun i => generate mt (seeds i) := by
  obtain ⟨i, j, hi, hj, hij, e⟩ := no_injection (2 ^ 32) (fun i => (seeds i).toNat)
    (fun i _ => (seeds i).isLt)
  have e' : seeds i = seeds j := BitVec.eq_of_toNat_eq e
  exact ⟨⟨i, j, hi, hj, hij, fun k => by rw [e']⟩, fun h => h i j 0 0 hij (by simp only [e'])⟩

/-- Two identifiers of one generator with an engine which counts. -/
example : generate (fun s k => s + BitVec.ofNat 32 k) 0x01020304#32 1 =
    ⟨[8, 3, 2, 1, 9, 3, 2, 1, 10, 3, 2, 1, 11, 3, 2, 1]⟩ := by decide +kernel
example : (generate (fun s k => s + BitVec.ofNat 32 k) 1#32 0).eq
    (generate (fun s k => s + BitVec.ofNat 32 k) 1#32 1) = false := by decide +kernel

/-! ## In the browser -/

private theorem log2_top {k : Nat} (h₁ : 2 ^ 52 ≤ k) (h₂ : k < 2 ^ 53) : Nat.log2 k = 52 := by
  have a : 52 ≤ Nat.log2 k := (Nat.le_log2 (by omega)).mpr h₁
  have b : Nat.log2 k < 53 := (Nat.log2_lt (by omega)).mpr h₂
  omega

/-- Rounding never gets past the next power of two. -/
private theorem toFloat_le {k m : Nat} (h : k < 2 ^ m) : toFloat k ≤ 2 ^ m := by
  unfold toFloat
  split
  · omega
  · rename_i hk
    have hk0 : k ≠ 0 := by omega
    have hl : 24 ≤ Nat.log2 k := (Nat.le_log2 hk0).mpr (by omega)
    have hm : Nat.log2 k < m := (Nat.log2_lt hk0).mpr h
    have hu : 0 < 2 ^ (Nat.log2 k - 23) := Nat.two_pow_pos _
    have hq : k / 2 ^ (Nat.log2 k - 23) < 2 ^ (m - (Nat.log2 k - 23)) := by
      rw [Nat.div_lt_iff_lt_mul hu, ← Nat.pow_add]
      have : m - (Nat.log2 k - 23) + (Nat.log2 k - 23) = m := by omega
      rw [this]; exact h
    have e : 2 ^ m = 2 ^ (m - (Nat.log2 k - 23)) * 2 ^ (Nat.log2 k - 23) := by
      rw [← Nat.pow_add]; congr 1; omega
    simp only []
    rw [e]
    split <;> exact Nat.mul_le_mul_right _ (by omega)

private theorem toFloat_top {k : Nat} (h : k < 2 ^ 53) :
    toFloat k < 2 ^ 53 ↔ k < 2 ^ 53 - 2 ^ 28 := by
  by_cases h₁ : 2 ^ 52 ≤ k
  · have hl := log2_top h₁ h
    unfold toFloat
    rw [if_neg (by omega), hl]
    simp only []
    have hu : 2 ^ (52 - 23) = 536870912 := by decide
    rw [hu]
    split <;> omega
  · have := toFloat_le (k := k) (m := 52) (by omega)
    omega

private theorem browserByte_iff {k : Nat} (h : k < 2 ^ 53) :
    browserByte k = .ub ↔ 2 ^ 53 - 2 ^ 28 ≤ k := by
  have ht := toFloat_top h
  simp only [browserByte]
  have hd : toFloat k * 256 / 2 ^ 53 < 256 ↔ toFloat k < 2 ^ 53 := by
    rw [Nat.div_lt_iff_lt_mul (by decide)]
    omega
  split
  · rename_i hv
    simp only [reduceCtorEq, false_iff]
    have := ht.mp (hd.mp hv); omega
  · rename_i hv
    simp only [true_iff]
    have : ¬ k < 2 ^ 53 - 2 ^ 28 := fun c => hv (hd.mpr (ht.mpr c))
    omega

private theorem browserBytes_ok : ∀ (ks : List Nat), (∀ k ∈ ks, k < 2 ^ 53 - 2 ^ 28) →
    ∃ bs, browserBytes ks = .ok bs ∧ bs.length = ks.length
  | [], _ => ⟨[], rfl, rfl⟩
  | k :: ks, h => by
    obtain ⟨bs, hb, hl⟩ := browserBytes_ok ks fun k' hk => h k' (List.mem_cons_of_mem _ hk)
    have hk := h k List.mem_cons_self
    have hn : browserByte k ≠ .ub := fun e => by
      have := (browserByte_iff (by omega)).mp e; omega
    match hbk : browserByte k, hn with
    | .ok b, _ => exact ⟨b :: bs, by simp [browserBytes, hbk, hb, Cpp.bind, Cpp.map], by simp [hl]⟩

private theorem browserBytes_ub : ∀ (ks : List Nat), (∃ k ∈ ks, browserByte k = .ub) →
    browserBytes ks = .ub
  | [], ⟨k, hk, _⟩ => by cases hk
  | k :: ks, ⟨k', hk, e⟩ => by
    rw [browserBytes]
    rcases List.mem_cons.mp hk with rfl | hk
    · rw [e]; rfl
    · have := browserBytes_ub ks ⟨k', hk, e⟩
      cases browserByte k with
      | ub => rfl
      | ok b => simp [Cpp.bind, this, Cpp.map]

/-- C99, partial: if all of the random numbers are less than `1 - 2^-25` then the browser's generator
yields sixteen bytes. -/
theorem browser_partial (ks : List Nat) (hl : ks.length = 16) (h : ∀ k ∈ ks, k < 2 ^ 53 - 2 ^ 28) :
    ∃ x, browserUid ks = .ok x ∧ x.bytes.length = 16 := by
  obtain ⟨bs, hb, hn⟩ := browserBytes_ok ks h
  have e : ks.take 16 = ks := List.take_of_length_le (by omega)
  exact ⟨⟨bs⟩, by simp [browserUid, e, hb, Cpp.map], by simp [hn, hl]⟩

private theorem browserByte_reaches : ∀ n, n < 256 →
    browserByte (n * 2 ^ 45) = .ok (BitVec.ofNat 8 n) := by decide +kernel

private theorem browserBytes_map (f : Byte → Nat) (h : ∀ b, browserByte (f b) = .ok b) :
    ∀ bs : List Byte, browserBytes (bs.map f) = .ok bs
  | [] => rfl
  | b :: bs => by
    rw [List.map_cons, browserBytes, h b, Cpp.bind, browserBytes_map f h bs, Cpp.map]

private theorem byte_reaches (b : Byte) : ∃ k, k < 2 ^ 53 ∧ browserByte k = .ok b := by
  refine ⟨b.toNat * 2 ^ 45, ?_, ?_⟩
  · have := b.isLt
    omega
  · have h := browserByte_reaches b.toNat b.isLt
    rw [BitVec.ofNat_toNat, BitVec.setWidth_eq] at h
    exact h

/-- C99: every identifier of sixteen bytes can be drawn. -/
theorem browser_reaches (x : Uid) (h : x.bytes.length = 16) :
    ∃ ks, IsRandom ks ∧ ks.length = 16 ∧ browserUid ks = .ok x := by
  obtain ⟨f, hf⟩ := Classical.axiomOfChoice byte_reaches
  refine ⟨x.bytes.map f, ?_, by simp [h], ?_⟩
  · intro k hk
    obtain ⟨b, _, rfl⟩ := List.mem_map.mp hk
    exact (hf b).1
  · simp only [browserUid]
    rw [List.take_of_length_le (by simp [h]), browserBytes_map f fun b => (hf b).2]
    rfl

/-- C99 is violated: exactly when one of the random numbers is at least `1 - 2^-25`, which is less
than one but not as a `float`, does the generator convert 256 to a byte, which is undefined. -/
theorem browser_violated (ks : List Nat) (hl : ks.length = 16) (hr : IsRandom ks) :
    browserUid ks = .ub ↔ ∃ k ∈ ks, 2 ^ 53 - 2 ^ 28 ≤ k := by
  constructor
  · intro h
    refine Classical.byContradiction fun hn => ?_
    obtain ⟨x, hx, _⟩ := browser_partial ks hl fun k hk => by
      have : ¬ 2 ^ 53 - 2 ^ 28 ≤ k := fun c => hn ⟨k, hk, c⟩
      omega
    rw [hx] at h; cases h
  · rintro ⟨k, hk, hge⟩
    have e : ks.take 16 = ks := List.take_of_length_le (by omega)
    have := browserBytes_ub ks ⟨k, hk, (browserByte_iff (hr k hk)).mpr hge⟩
    simp [browserUid, e, this, Cpp.map]

/-- A random number of 16 that are multiples of 1/16; and a number just below one. -/
example : browserUid ((List.range 16).map (· * 2 ^ 49)) =
    .ok ⟨[0, 16, 32, 48, 64, 80, 96, 112, 128, 144, 160, 176, 192, 208, 224, 240]⟩ := by
  decide +kernel
example : browserUid ((2 ^ 53 - 1) :: List.replicate 15 0) = .ub := by decide +kernel
example : IsRandom ((2 ^ 53 - 1) :: List.replicate 15 0) := by
  intro k hk; simp at hk; omega

end Nbdl.Uid
