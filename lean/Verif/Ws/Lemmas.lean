import Verif.Ws.Spec
/-! Helper lemmas for the websocket framing properties. -/
namespace Nbdl.Ws

theorem run_eq (hw : Bool) (acc s : List Byte) : run hw acc s =
    match readFrame hw acc s with
    | .waiting => ([], .waiting)
    | .ub => ([], .ub)
    | .close p => ([], .close p)
    | .badInput => ([], .badInput)
    | .ping r => (.ping :: (run hw acc r).1, (run hw acc r).2)
    | .pong r => (.pong :: (run hw acc r).1, (run hw acc r).2)
    | .data fin p r =>
      if fin then (.message p :: (run hw [] r).1, (run hw [] r).2) else run hw p r := by
  rw [run]
  split <;> simp_all

theorem run_nil (hw : Bool) (acc : List Byte) : run hw acc [] = ([], .waiting) := by
  rw [run_eq]; rfl

/-! ### Header bytes -/

theorem byte1_plain (c : Nat) (h : c < 128) :
    lengthCode (BitVec.ofNat 8 c) = c ∧ highBit (BitVec.ofNat 8 c) = false := by
  have : ∀ c : Fin 128, lengthCode (BitVec.ofNat 8 c.val) = c.val
      ∧ highBit (BitVec.ofNat 8 c.val) = false := by decide +kernel
  exact this ⟨c, h⟩

theorem byte1_masked (c : Nat) (h : c < 128) :
    lengthCode (BitVec.ofNat 8 (128 + c)) = c ∧ highBit (BitVec.ofNat 8 (128 + c)) = true := by
  have : ∀ c : Fin 128, lengthCode (BitVec.ofNat 8 (128 + c.val)) = c.val
      ∧ highBit (BitVec.ofNat 8 (128 + c.val)) = true := by decide +kernel
  exact this ⟨c, h⟩

theorem byte0_facts (fin : Bool) (op : Nat) (h : op < 16) :
    opcodeOf (BitVec.ofNat 8 (fin.toNat * 128 + op)) = op
      ∧ highBit (BitVec.ofNat 8 (fin.toNat * 128 + op)) = fin := by
  have : ∀ fin : Bool, ∀ c : Fin 16, opcodeOf (BitVec.ofNat 8 (fin.toNat * 128 + c.val)) = c.val
      ∧ highBit (BitVec.ofNat 8 (fin.toNat * 128 + c.val)) = fin := by decide +kernel
  exact this fin ⟨op, h⟩

/-! ### Lengths -/

theorem shiftByte_ok (hw : Bool) (b : Byte) (k : Nat) (hk : k < 32) (h : b.toNat * 2 ^ k < 2 ^ 31) :
    ∃ v, shiftByte hw b k = .ok v ∧ v.toNat = b.toNat * 2 ^ k := by
  unfold shiftByte
  rw [if_neg (by omega)]
  refine ⟨_, rfl, ?_⟩
  rw [Nat.mod_eq_of_lt hk]
  have hb := b.isLt
  have h1 : ((b.setWidth 32 : BitVec 32) <<< k).toNat = b.toNat * 2 ^ k := by
    rw [BitVec.toNat_shiftLeft, BitVec.toNat_setWidth, Nat.shiftLeft_eq,
      Nat.mod_eq_of_lt (a := b.toNat) (by omega)]
    exact Nat.mod_eq_of_lt (by omega)
  have hmsb : ((b.setWidth 32 : BitVec 32) <<< k).msb = false := by
    rw [BitVec.msb_eq_decide]; simp only [h1]; simp; omega
  rw [BitVec.signExtend_eq_setWidth_of_msb_false hmsb, BitVec.toNat_setWidth, h1]
  exact Nat.mod_eq_of_lt (by omega)

theorem shiftByte_zero (b : Byte) (k : Nat) (hb : b.toNat = 0) :
    shiftByte true b k = .ok 0#64 := by
  have : b = 0#8 := BitVec.eq_of_toNat_eq (by simpa using hb)
  subst this
  unfold shiftByte
  rw [if_neg (by simp)]; simp

theorem or_low {n : Nat} (x y : BitVec n) (i : Nat) (hx : x.toNat < 2 ^ i)
    (hy : ∃ q, y.toNat = 2 ^ i * q) : (x ||| y).toNat = x.toNat + y.toNat := by
  obtain ⟨q, hq⟩ := hy
  rw [BitVec.toNat_or, hq, Nat.or_comm, ← Nat.two_pow_add_eq_or_of_lt hx]; omega

theorem getPayloadLength_small (hw : Bool) (b1 : Byte) (ext : List Byte) (n : Nat) (h : n < 126)
    (hb : lengthCode b1 = n) : getPayloadLength hw b1 ext = .ok n := by
  unfold getPayloadLength
  rw [if_neg (by omega), hb]

theorem getPayloadLength_16 (hw : Bool) (b1 x y : Byte) (hb : lengthCode b1 = 126) :
    getPayloadLength hw b1 [x, y] = .ok (x.toNat * 256 + y.toNat) := by
  have hx := x.isLt; have hy := y.isLt
  unfold getPayloadLength
  rw [if_pos (Or.inl hb)]
  obtain ⟨v0, e0, h0⟩ := shiftByte_ok hw y 0 (by omega) (by omega)
  obtain ⟨v1, e1, h1⟩ := shiftByte_ok hw x 8 (by omega) (by omega)
  have : orBytes hw [x, y] 2 = .ok ((0#64 ||| v0) ||| v1) := by
    simp only [orBytes, Cpp.bind, List.length_cons, List.length_nil, List.getD]
    simp [e0, e1, Cpp.map]
  show (orBytes hw [x, y] 2).bind _ = _
  rw [this]
  have hv : ((0#64 ||| v0) ||| v1).toNat = x.toNat * 256 + y.toNat := by
    rw [BitVec.zero_or, or_low _ _ 8 (by rw [h0]; omega) ⟨x.toNat, by rw [h1]; omega⟩, h0, h1]
    omega
  simp only [Cpp.bind, hv]
  rw [Nat.mod_eq_of_lt (by omega), if_pos (by omega)]

/-- Every 64-bit length is undefined behaviour under the C++ shift rule. -/
theorem getPayloadLength_64_ub (b1 : Byte) (ext : List Byte) (hb : lengthCode b1 = 127)
    (he : ext.length = 8) : getPayloadLength false b1 ext = .ub := by
  unfold getPayloadLength
  rw [if_pos (Or.inr hb), he]
  have h5 : orBytes false ext 5 = .ub := by
    show (orBytes false ext 4).bind _ = _
    cases orBytes false ext 4 with
    | ub => rfl
    | ok a => rfl
  have h8 : orBytes false ext 8 = .ub := by
    show Cpp.bind (Cpp.bind (Cpp.bind (orBytes false ext 5) _) _) _ = _
    rw [h5]; rfl
  rw [h8]; rfl

/-! ### Masks -/

theorem mapIdx_inv (p : List Byte) (k : List Byte) (n : Nat) (hn : n = p.length) :
    unmask (p.mapIdx fun i b => b ^^^ k.getD (i % 4) 0) k n = p := by
  unfold unmask
  apply List.ext_getElem
  · simp
  · intro i h1 h2
    simp only [List.getElem_mapIdx]
    rw [if_pos (by omega), BitVec.xor_assoc, BitVec.xor_self, BitVec.xor_zero]

theorem unmask_zero (p k : List Byte) : unmask p k 0 = p := by
  unfold unmask
  apply List.ext_getElem
  · simp
  · intro i h1 h2
    simp

/-! ### Reading back an encoded frame -/

open Spec

theorem lengthField_facts (n : Nat) (h : n < 65536) (b1 : Byte)
    (hb : lengthCode b1 = (lengthField n).1) :
    (lengthField n).2.length = extN b1 ∧ (lengthField n).1 < 128
      ∧ ∀ hw, getPayloadLength hw b1 (lengthField n).2 = .ok n := by
  unfold lengthField at *
  by_cases h1 : n < 126
  · rw [if_pos h1] at *
    refine ⟨?_, by simp; omega, fun hw => getPayloadLength_small hw b1 _ n h1 hb⟩
    unfold extN; rw [hb]; simp only []; rw [if_neg (by omega), if_neg (by omega)]; rfl
  · rw [if_neg h1, if_pos (by omega)] at *
    refine ⟨?_, by simp, fun hw => ?_⟩
    · unfold extN; rw [hb]; simp
    · rw [getPayloadLength_16 hw b1 _ _ hb]
      simp only [BitVec.toNat_ofNat]
      congr 1; omega

theorem lengthField_code_lt (n : Nat) : (lengthField n).1 < 128 := by
  unfold lengthField
  split
  · simp; omega
  · split <;> simp

/-- Reading the header of an encoded frame. -/
theorem readHeader_encode (f : Frame) (t : List Byte) (hn : f.payload.length < 65536) :
    ∃ b1, readHeader (encodeFrame f ++ t) =
      some ⟨BitVec.ofNat 8 (f.fin.toNat * 128 + f.opcode), b1, (lengthField f.payload.length).2,
        match f.mask with | none => [] | some k => keyBytes k,
        (match f.mask with | none => f.payload | some k => applyMask k f.payload) ++ t⟩
      ∧ highBit b1 = f.mask.isSome
      ∧ ∀ hw, getPayloadLength hw b1 (lengthField f.payload.length).2 = .ok f.payload.length := by
  have hc := lengthField_code_lt f.payload.length
  unfold encodeFrame
  cases hm : f.mask with
  | none =>
    obtain ⟨h1, h2⟩ := byte1_plain _ hc
    obtain ⟨g1, _, g3⟩ := lengthField_facts f.payload.length hn _ h1
    refine ⟨BitVec.ofNat 8 (lengthField f.payload.length).1, ?_, by simp [h2], g3⟩
    simp only [List.cons_append, readHeader]
    have hmn : maskN (BitVec.ofNat 8 (lengthField f.payload.length).1) = 0 := by
      unfold maskN; rw [h2]; rfl
    rw [hmn, ← g1]
    rw [if_neg (by simp)]
    simp [List.append_assoc]
  | some k =>
    obtain ⟨h1, h2⟩ := byte1_masked _ hc
    obtain ⟨g1, _, g3⟩ := lengthField_facts f.payload.length hn _ h1
    refine ⟨BitVec.ofNat 8 (128 + (lengthField f.payload.length).1), ?_, by simp [h2], g3⟩
    simp only [List.cons_append, readHeader]
    have hmn : maskN (BitVec.ofNat 8 (128 + (lengthField f.payload.length).1)) = 4 := by
      unfold maskN; rw [h2]; rfl
    have hk : (keyBytes k).length = 4 := rfl
    rw [hmn, ← g1, ← hk]
    rw [if_neg (by simp)]
    simp [List.append_assoc]

theorem applyMask_length (k : Byte × Byte × Byte × Byte) (p : List Byte) :
    (applyMask k p).length = p.length := by simp [applyMask]

/-- Reading the payload of an encoded frame. -/
theorem readPayload_encode (hw : Bool) (f : Frame) (b1 : Byte) (acc t : List Byte)
    (k : List Byte → List Byte → Step)
    (hb : highBit b1 = f.mask.isSome)
    (hl : getPayloadLength hw b1 (lengthField f.payload.length).2 = .ok f.payload.length)
    (hacc : f.mask.isSome = true → acc = []) :
    readPayload hw b1 (lengthField f.payload.length).2
      (match f.mask with | none => [] | some k => keyBytes k) acc
      ((match f.mask with | none => f.payload | some k => applyMask k f.payload) ++ t) k
      = k (acc ++ f.payload) t := by
  unfold readPayload
  rw [hl]
  simp only
  cases hm : f.mask with
  | none =>
    rw [if_neg (by simp)]
    rw [hm] at hb
    simp [hb]
  | some key =>
    rw [hm] at hb
    have ha : acc = [] := hacc (by rw [hm]; rfl)
    subst ha
    rw [if_neg (by simp [applyMask_length])]
    have e : ((applyMask key f.payload) ++ t).take f.payload.length = applyMask key f.payload := by
      rw [← applyMask_length key f.payload]; simp
    have e2 : ((applyMask key f.payload) ++ t).drop f.payload.length = t := by
      rw [← applyMask_length key f.payload]; simp
    simp only [e, e2, hb, List.nil_append, Option.isSome_some, if_true]
    rw [show applyMask key f.payload = f.payload.mapIdx
      (fun i b => b ^^^ (keyBytes key).getD (i % 4) 0) from rfl, mapIdx_inv _ _ _ rfl]

/-- The reader on a stream of encoded frames agrees with the specification. -/
theorem run_encode (hw : Bool) (fs : List Frame) (acc : List Byte)
    (hop : ∀ f ∈ fs, f.opcode < 16) (hlen : ∀ f ∈ fs, f.payload.length < 65536)
    (hctl : ∀ f ∈ fs, f.opcode = 9 ∨ f.opcode = 10 → f.payload = [])
    (started : Bool) (hst : started = false → acc = []) (hmask : contUnmasked started fs) :
    run hw acc (fs.flatMap encodeFrame) = receive acc fs := by
  induction fs generalizing acc started with
  | nil => simp [run_nil, receive]
  | cons f fs ih =>
    have ih' := fun acc started hst hm => ih acc (fun g hg => hop g (by simp [hg]))
      (fun g hg => hlen g (by simp [hg])) (fun g hg => hctl g (by simp [hg])) started hst hm
    obtain ⟨b1, hh, hb, hl⟩ := readHeader_encode f (fs.flatMap encodeFrame) (hlen f (by simp))
    obtain ⟨o1, o2⟩ := byte0_facts f.fin f.opcode (hop f (by simp))
    rw [List.flatMap_cons, run_eq]
    unfold readFrame
    rw [hh]
    simp only [dispatch, o1, o2]
    rw [receive]
    by_cases h1 : f.opcode ≤ 2
    · rw [if_pos (by omega), if_pos h1]
      simp only [contUnmasked, if_pos h1] at hmask
      have hacc : f.mask.isSome = true → acc = [] := by
        intro hs
        apply hst
        cases started with
        | false => rfl
        | true => rw [hmask.1 rfl] at hs; exact absurd hs (by simp)
      rw [readPayload_encode hw f b1 acc _ _ hb (hl hw) hacc]
      simp only
      cases hf : f.fin with
      | true =>
        have := ih' [] false (fun _ => rfl) (by simpa [hf] using hmask.2)
        simp [this]
      | false =>
        have := ih' (acc ++ f.payload) true (by simp) (by simpa [hf] using hmask.2)
        simp [this]
    · rw [if_neg (by omega), if_neg h1]
      simp only [contUnmasked, if_neg h1] at hmask
      by_cases h8 : f.opcode = 8
      · rw [if_pos h8, if_pos h8, readPayload_encode hw f b1 [] _ _ hb (hl hw) (fun _ => rfl)]
        simp
      · rw [if_neg h8, if_neg h8]
        have hrest : ∀ (h : f.payload = []), (match f.mask with
            | none => f.payload | some k => applyMask k f.payload) = [] := by
          intro h; rw [h]; cases f.mask <;> rfl
        by_cases h9 : f.opcode = 9
        · rw [if_pos h9, if_pos h9, hrest (hctl f (by simp) (Or.inl h9)), List.nil_append]
          simp only [ih' acc started hst hmask]
        · rw [if_neg h9, if_neg h9]
          by_cases h10 : f.opcode = 10
          · rw [if_pos h10, if_pos h10, hrest (hctl f (by simp) (Or.inr h10)), List.nil_append]
            simp only [ih' acc started hst hmask]
          · rw [if_neg h10, if_neg h10]

/-! ### The sender as a sequence of frames -/

theorem encodedLength_spec (n : Nat) (h : n < 65536) :
    encodedLength n = BitVec.ofNat 8 (lengthField n).1 :: (lengthField n).2 := by
  unfold encodedLength lengthField
  by_cases h1 : n < 126
  · simp [h1]
  · rw [if_neg h1, if_pos (by omega), if_neg h1, if_pos (by omega)]
    simp only [Nat.shiftRight_eq_div_pow, List.cons.injEq, and_true, true_and]
    apply BitVec.eq_of_toNat_eq; simp

/-- The frames of a message, as the sender cuts it. -/
def sentFrames (max : Nat) (hmax : 0 < max) (op : Nat) (p : List Byte) : List Frame :=
  if max > p.length then [⟨true, op, none, p⟩]
  else if h : p.drop max = [] then [⟨false, op, none, p.take max⟩]
  else ⟨false, op, none, p.take max⟩ :: sentFrames max hmax 0 (p.drop max)
termination_by p.length
decreasing_by
  have : p ≠ [] := by rintro rfl; simp at h
  have := List.length_pos_iff.2 this
  simp; omega

theorem applyFin_ofNat (op : Nat) (h : op < 16) :
    applyFinBit (BitVec.ofNat 8 op) = BitVec.ofNat 8 (128 + op) := by
  have : ∀ op : Fin 16, applyFinBit (BitVec.ofNat 8 op.val) = BitVec.ofNat 8 (128 + op.val) := by
    decide +kernel
  exact this ⟨op, h⟩

theorem sendFrame_encode (fin : Bool) (op : Nat) (p : List Byte) (h : op < 16)
    (hp : p.length < 65536) :
    sendFrame (if fin then applyFinBit (BitVec.ofNat 8 op) else BitVec.ofNat 8 op) p
      = encodeFrame ⟨fin, op, none, p⟩ := by
  unfold sendFrame encodeFrame
  rw [encodedLength_spec _ hp]
  cases fin with
  | true => simp [applyFin_ofNat op h]
  | false => simp

theorem sendMessage_encode (max : Nat) (hmax : 0 < max) (hm : max < 65536) (op : Nat) (h : op < 16)
    (p : List Byte) :
    sendMessage max hmax (BitVec.ofNat 8 op) p = (sentFrames max hmax op p).flatMap encodeFrame := by
  unfold sendMessage
  induction hn : p.length using Nat.strongRecOn generalizing p op with
  | ind n ih =>
    rw [sendMessageImpl, sentFrames]
    by_cases h1 : max > p.length
    · rw [if_pos h1, if_pos h1]
      have := sendFrame_encode true op p h (by omega)
      simp only [if_true] at this
      simp [this]
    · rw [if_neg h1, if_neg h1]
      have hf := sendFrame_encode false op (p.take max) h (by simp; omega)
      simp only [Bool.false_eq_true, if_false] at hf
      by_cases h2 : p.drop max = []
      · rw [dif_pos h2, dif_pos h2]; simp [hf]
      · rw [dif_neg h2, dif_neg h2]
        have := ih (p.drop max).length (by
          have : p ≠ [] := by rintro rfl; simp at h2
          have := List.length_pos_iff.2 this
          simp; omega) 0 (by omega) (p.drop max) rfl
        rw [List.flatten_cons, List.flatMap_cons, hf]
        congr 1

theorem sentFrames_props (max : Nat) (hmax : 0 < max) (hm : max < 65536) (op : Nat) (h : op ≤ 2)
    (p : List Byte) : ∀ f ∈ sentFrames max hmax op p,
      f.opcode ≤ 2 ∧ f.payload.length < 65536 ∧ f.mask = none := by
  induction hn : p.length using Nat.strongRecOn generalizing p op with
  | ind n ih =>
    rw [sentFrames]
    by_cases h1 : max > p.length
    · rw [if_pos h1]; simp; omega
    · rw [if_neg h1]
      by_cases h2 : p.drop max = []
      · rw [dif_pos h2]; simp; omega
      · rw [dif_neg h2]
        have := ih (p.drop max).length (by
          have : p ≠ [] := by rintro rfl; simp at h2
          have := List.length_pos_iff.2 this
          simp; omega) 0 (by omega) (p.drop max) rfl
        intro f hf
        rw [List.mem_cons] at hf
        rcases hf with rfl | hf
        · simp; omega
        · exact this f hf

/-- Does the sender set the FIN bit on the last frame? -/
def finished (max : Nat) (p : List Byte) : Bool := p.length % max != 0 || p.isEmpty

theorem receive_sent (max : Nat) (hmax : 0 < max) (op : Nat) (hop : op ≤ 2) (p acc : List Byte)
    (fs : List Frame) :
    receive acc (sentFrames max hmax op p ++ fs)
      = if finished max p then
          (.message (acc ++ p) :: (receive [] fs).1, (receive [] fs).2)
        else receive (acc ++ p) fs := by
  induction hn : p.length using Nat.strongRecOn generalizing p op acc with
  | ind n ih =>
    rw [sentFrames]
    by_cases h1 : max > p.length
    · rw [if_pos h1]
      have : finished max p = true := by
        unfold finished
        rw [Nat.mod_eq_of_lt h1]
        cases p <;> simp
      rw [this]
      simp [receive, hop]
    · rw [if_neg h1]
      by_cases h2 : p.drop max = []
      · rw [dif_pos h2]
        have hl : p.length = max := by
          have := List.drop_eq_nil_iff.1 h2; omega
        have : finished max p = false := by
          unfold finished
          rw [hl, Nat.mod_self]
          cases p with
          | nil => simp at hl; omega
          | cons a l => rfl
        rw [this]
        have ht : p.take max = p := by rw [← hl]; simp
        simp [receive, hop, ht]
      · rw [dif_neg h2]
        have hlt : max < p.length := by
          have := mt List.drop_eq_nil_iff.2 h2; omega
        rw [List.cons_append, receive]
        simp only [hop, if_true, Bool.false_eq_true, if_false]
        rw [ih (p.drop max).length (by simp; omega) 0 (by omega) (p.drop max) (acc ++ p.take max) rfl]
        have hf : finished max (p.drop max) = finished max p := by
          unfold finished
          have e1 : (p.drop max).isEmpty = false := by
            cases hd : p.drop max with
            | nil => exact absurd hd h2
            | cons => rfl
          have e2 : p.isEmpty = false := by cases p <;> simp at *
          rw [e1, e2, List.length_drop]
          rw [← Nat.mod_eq_sub_mod (by omega)]
        rw [hf, List.append_assoc, List.take_append_drop]

/-! ### Streams arriving in pieces -/

theorem readHeader_append {s : List Byte} {h : Header} (e : readHeader s = some h) (t : List Byte) :
    readHeader (s ++ t) = some { h with rest := h.rest ++ t } := by
  unfold readHeader at e
  split at e
  · rename_i b0 b1 r
    split at e
    · exact absurd e (by simp)
    · rename_i hl
      injection e with e
      subst e
      simp only [List.cons_append, readHeader]
      rw [if_neg (by simp; omega)]
      congr 2
      · rw [List.take_append_of_le_length (by omega)]
      · rw [List.drop_append_of_le_length (by omega), List.take_append_of_le_length (by simp; omega)]
      · rw [List.drop_append_of_le_length (by omega), List.drop_append_of_le_length (by simp; omega)]
  · exact absurd e (by simp)

/-- A step with more stream behind it. -/
def Step.more (t : List Byte) : Step → Step
  | .data f p r => .data f p (r ++ t)
  | .ping r => .ping (r ++ t)
  | .pong r => .pong (r ++ t)
  | s => s

theorem readFrame_append (hw : Bool) (acc s t : List Byte) (hne : readFrame hw acc s ≠ .waiting) :
    readFrame hw acc (s ++ t) = (readFrame hw acc s).more t := by
  unfold readFrame at *
  cases hh : readHeader s with
  | none => rw [hh] at hne; exact absurd rfl hne
  | some h =>
    rw [readHeader_append hh t]
    rw [hh] at hne
    simp only [dispatch] at *
    by_cases h1 : opcodeOf h.b0 = 0 ∨ opcodeOf h.b0 = 1 ∨ opcodeOf h.b0 = 2
    · rw [if_pos h1] at *
      rw [if_pos h1]
      unfold readPayload at *
      cases hg : getPayloadLength hw h.b1 h.ext with
      | ub => rfl
      | ok n =>
        rw [hg] at hne
        simp only at *
        by_cases hn : h.rest.length < n
        · rw [if_pos hn] at hne; exact absurd rfl hne
        · rw [if_neg (by simp; omega), if_neg hn, List.take_append_of_le_length (by omega),
            List.drop_append_of_le_length (by omega)]
          rfl
    rw [if_neg h1] at *
    rw [if_neg h1]
    by_cases h2 : opcodeOf h.b0 = 8
    · rw [if_pos h2] at *
      rw [if_pos h2]
      unfold readPayload at *
      cases hg : getPayloadLength hw h.b1 h.ext with
      | ub => rfl
      | ok n =>
        rw [hg] at hne
        simp only at *
        by_cases hn : h.rest.length < n
        · rw [if_pos hn] at hne; exact absurd rfl hne
        · rw [if_neg (by simp; omega), if_neg hn, List.take_append_of_le_length (by omega)]
          rfl
    rw [if_neg h2, if_neg h2]
    by_cases h3 : opcodeOf h.b0 = 9
    · rw [if_pos h3, if_pos h3]; rfl
    rw [if_neg h3, if_neg h3]
    by_cases h4 : opcodeOf h.b0 = 10
    · rw [if_pos h4, if_pos h4]; rfl
    rw [if_neg h4, if_neg h4]; rfl

/-- Total number of payload bytes delivered. -/
def delivered : List Event → Nat
  | [] => 0
  | .message p :: es => p.length + delivered es
  | _ :: es => delivered es

theorem unmask_length (p k : List Byte) (n : Nat) : (unmask p k n).length = p.length := by
  simp [unmask]

theorem readFrame_data_length (hw : Bool) (acc s : List Byte) (f : Bool) (p r : List Byte)
    (h : readFrame hw acc s = .data f p r) : p.length + r.length + 2 ≤ acc.length + s.length := by
  unfold readFrame at h
  cases hh : readHeader s with
  | none => rw [hh] at h; exact absurd h (by simp)
  | some hd =>
    rw [hh] at h
    have hl := readHeader_lt hh
    simp only [dispatch] at h
    by_cases h1 : opcodeOf hd.b0 = 0 ∨ opcodeOf hd.b0 = 1 ∨ opcodeOf hd.b0 = 2
    · rw [if_pos h1] at h
      unfold readPayload at h
      cases hg : getPayloadLength hw hd.b1 hd.ext with
      | ub => rw [hg] at h; exact absurd h (by simp)
      | ok n =>
        rw [hg] at h
        simp only at h
        by_cases hn : hd.rest.length < n
        · rw [if_pos hn] at h; exact absurd h (by simp)
        · rw [if_neg hn] at h
          injection h with _ h2 h3
          rw [← h2, ← h3]
          split <;> simp [unmask_length] <;> omega
    rw [if_neg h1] at h
    by_cases h2 : opcodeOf hd.b0 = 8
    · rw [if_pos h2] at h
      unfold readPayload at h
      split at h
      · exact absurd h (by simp)
      · split at h <;> exact absurd h (by simp)
    rw [if_neg h2] at h
    by_cases h3 : opcodeOf hd.b0 = 9
    · rw [if_pos h3] at h; exact absurd h (by simp)
    rw [if_neg h3] at h
    by_cases h4 : opcodeOf hd.b0 = 10
    · rw [if_pos h4] at h; exact absurd h (by simp)
    rw [if_neg h4] at h; exact absurd h (by simp)

end Nbdl.Ws

namespace Nbdl.Ws

theorem readHeader_suffix {s : List Byte} {h : Header} (e : readHeader s = some h) :
    h.rest <:+ s := by
  unfold readHeader at e
  split at e
  · rename_i b0 b1 r
    split at e
    · exact absurd e (by simp)
    · injection e with e
      subst e
      exact ((List.drop_suffix _ _).trans (List.drop_suffix _ _)).trans
        ((List.suffix_cons b1 r).trans (List.suffix_cons b0 _))
  · exact absurd e (by simp)

theorem readFrame_rest_suffix (hw : Bool) (acc s : List Byte) :
    (∀ fin p r, readFrame hw acc s = .data fin p r → r <:+ s)
    ∧ (∀ r, readFrame hw acc s = .ping r → r <:+ s)
    ∧ (∀ r, readFrame hw acc s = .pong r → r <:+ s) := by
  unfold readFrame
  cases hh : readHeader s with
  | none => simp
  | some h =>
    have hl := readHeader_suffix hh
    simp only [dispatch]
    by_cases h1 : opcodeOf h.b0 = 0 ∨ opcodeOf h.b0 = 1 ∨ opcodeOf h.b0 = 2
    · rw [if_pos h1]; unfold readPayload
      cases getPayloadLength hw h.b1 h.ext with
      | ub => simp
      | ok n =>
        simp only
        by_cases hn : h.rest.length < n
        · rw [if_pos hn]; simp
        · rw [if_neg hn]
          refine ⟨fun fin p r e => ?_, by simp, by simp⟩
          injection e with _ _ e
          rw [← e]
          exact (List.drop_suffix _ _).trans hl
    rw [if_neg h1]
    by_cases h2 : opcodeOf h.b0 = 8
    · rw [if_pos h2]; unfold readPayload
      cases getPayloadLength hw h.b1 h.ext with
      | ub => simp
      | ok n =>
        simp only
        by_cases hn : h.rest.length < n
        · rw [if_pos hn]; simp
        · rw [if_neg hn]; simp
    rw [if_neg h2]
    by_cases h3 : opcodeOf h.b0 = 9
    · rw [if_pos h3]
      refine ⟨by simp, fun r e => ?_, by simp⟩
      injection e with e; rw [← e]; exact hl
    rw [if_neg h3]
    by_cases h4 : opcodeOf h.b0 = 10
    · rw [if_pos h4]
      refine ⟨by simp, by simp, fun r e => ?_⟩
      injection e with e; rw [← e]; exact hl
    rw [if_neg h4]; simp

end Nbdl.Ws
