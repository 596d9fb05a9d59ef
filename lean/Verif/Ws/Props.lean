import Verif.Ws.Lemmas
/-!
Websocket framing properties C05–C09.
-/
namespace Nbdl.Ws

open Spec (Frame encodeFrame receive contUnmasked)

/-! ## C05 sending then receiving -/

/-- What the receiver actually delivers for messages sent one after the other: a message whose
length is a positive multiple of the frame size is glued to the next one. -/
def glue (max : Nat) (acc : List Byte) : List (List Byte) → List (List Byte)
  | [] => []
  | p :: ps =>
    if p.length % max = 0 ∧ p ≠ [] then glue max (acc ++ p) ps
    else (acc ++ p) :: glue max [] ps

/-- C05, the exact behaviour of the code for every list of text or binary messages of any length:
the receiver delivers `glue max [] msgs`. -/
theorem send_receive_exact (hw : Bool) (max : Nat) (hmax : 0 < max) (hm : max < 65536)
    (op : Byte) (hop : op = opText ∨ op = opBinary) (msgs : List (List Byte)) :
    run hw [] (msgs.flatMap (sendMessage max hmax op))
      = ((glue max [] msgs).map Event.message, .waiting) := by
  obtain ⟨n, hn, rfl⟩ : ∃ n, (n = 1 ∨ n = 2) ∧ op = BitVec.ofNat 8 n := by
    rcases hop with rfl | rfl
    · exact ⟨1, .inl rfl, rfl⟩
    · exact ⟨2, .inr rfl, rfl⟩
  have hn2 : n ≤ 2 := by omega
  have h1 : msgs.flatMap (sendMessage max hmax (BitVec.ofNat 8 n))
      = (msgs.flatMap (sentFrames max hmax n)).flatMap encodeFrame := by
    rw [List.flatMap_assoc]
    congr 1
    funext p
    exact sendMessage_encode max hmax hm n (by omega) p
  have hp : ∀ f ∈ msgs.flatMap (sentFrames max hmax n),
      f.opcode ≤ 2 ∧ f.payload.length < 65536 ∧ f.mask = none := by
    intro f hf
    obtain ⟨p, _, hfp⟩ := List.mem_flatMap.1 hf
    exact sentFrames_props max hmax hm n hn2 p f hfp
  have hmask : ∀ (fs : List Frame) (st : Bool), (∀ f ∈ fs, f.mask = none) → contUnmasked st fs := by
    intro fs
    induction fs with
    | nil => intro st _; trivial
    | cons f fs ih =>
      intro st h
      have h' := fun g hg => h g (List.mem_cons_of_mem f hg)
      unfold contUnmasked
      split
      · exact ⟨fun _ => h f (by simp), ih _ h'⟩
      · exact ih _ h'
  rw [h1, run_encode hw _ [] (fun f hf => by have := hp f hf; omega) (fun f hf => (hp f hf).2.1)
    (fun f hf h => by have := hp f hf; omega) false (fun _ => rfl)
    (hmask _ _ (fun f hf => (hp f hf).2.2))]
  have key : ∀ acc, receive acc (msgs.flatMap (sentFrames max hmax n))
      = ((glue max acc msgs).map Event.message, .waiting) := by
    clear h1 hp
    induction msgs with
    | nil => intro acc; rfl
    | cons p ps ih =>
      intro acc
      rw [List.flatMap_cons, receive_sent max hmax n hn2]
      unfold glue
      by_cases hf : p.length % max = 0 ∧ p ≠ []
      · have : finished max p = false := by simp [finished, hf.1, hf.2]
        rw [this, if_pos hf, if_neg (by simp), ih]
      · have : finished max p = true := by
          unfold finished
          by_cases h0 : p.length % max = 0
          · have : p = [] := by
              cases p with
              | nil => rfl
              | cons a l => exact absurd ⟨h0, by simp⟩ hf
            simp [this]
          · simp [h0]
        rw [this, if_neg hf, if_pos rfl, ih]; rfl
  exact key []

/-- C05, partial: if no message length is a positive multiple of the frame size (125), the
receiver delivers exactly the messages sent. (The full property has no such hypothesis.) -/
theorem send_receive_partial (hw : Bool) (op : Byte) (hop : op = opText ∨ op = opBinary)
    (msgs : List (List Byte)) (h : ∀ p ∈ msgs, p = [] ∨ p.length % maxFrameSize ≠ 0) :
    run hw [] (msgs.flatMap (sendMessage maxFrameSize (by decide) op))
      = (msgs.map Event.message, .waiting) := by
  rw [send_receive_exact hw maxFrameSize (by decide) (by decide) op hop msgs]
  congr 2
  induction msgs with
  | nil => rfl
  | cons p ps ih =>
    have hp := h p (by simp)
    unfold glue
    rw [if_neg (by rintro ⟨h1, h2⟩; rcases hp with hp | hp; exact h2 hp; exact hp h1),
      ih (fun q hq => h q (by simp [hq]))]
    rfl

example : ∀ p ∈ [ascii "hello", [], List.replicate 300 7#8], p = [] ∨ p.length % maxFrameSize ≠ 0 := by
  intro p hp
  simp only [List.mem_cons, List.not_mem_nil, or_false] at hp
  rcases hp with rfl | rfl | rfl
  · right; decide
  · left; rfl
  · right; rw [List.length_replicate]; decide

/-- C05 fails: a message whose length is a positive multiple of 125 is never delivered, … -/
theorem send_receive_violated (hw : Bool) (op : Byte) (hop : op = opText ∨ op = opBinary)
    (p : List Byte) (h0 : p ≠ []) (h : p.length % maxFrameSize = 0) :
    run hw [] (sendMessage maxFrameSize (by decide) op p) = ([], .waiting) := by
  have := send_receive_exact hw maxFrameSize (by decide) (by decide) op hop [p]
  simpa [glue, h0, h] using this

/-- … and the next message is delivered with the lost one glued in front. -/
theorem send_receive_glued_violated (hw : Bool) (op : Byte) (hop : op = opText ∨ op = opBinary)
    (p q : List Byte) (h0 : p ≠ []) (h : p.length % maxFrameSize = 0)
    (hq : q.length % maxFrameSize ≠ 0) :
    run hw [] (sendMessage maxFrameSize (by decide) op p ++ sendMessage maxFrameSize (by decide) op q)
      = ([.message (p ++ q)], .waiting) := by
  have := send_receive_exact hw maxFrameSize (by decide) (by decide) op hop [p, q]
  simpa [glue, h0, h, hq] using this

example : (List.replicate 125 65#8 : List Byte) ≠ [] ∧
    (List.replicate 125 65#8 : List Byte).length % maxFrameSize = 0 := by
  rw [List.length_replicate]; exact ⟨by simp, by decide⟩

/-! ## C06 the payload length field -/

/-- C06, partial: every length below 65536 is written and read back unchanged, with or without the
C++ shift rule. (Missing: lengths from 65536 on, see below.) -/
theorem length_field_partial (n : Nat) (h : n < 65536) (b0 : Byte) (rest : List Byte) :
    ∃ b1 ext, readHeader (b0 :: (encodedLength n ++ rest)) = some ⟨b0, b1, ext, [], rest⟩
      ∧ ∀ hw, getPayloadLength hw b1 ext = .ok n := by
  have hc := lengthField_code_lt n
  obtain ⟨h1, h2⟩ := byte1_plain _ hc
  obtain ⟨g1, _, g3⟩ := lengthField_facts n h _ h1
  refine ⟨BitVec.ofNat 8 (Spec.lengthField n).1, (Spec.lengthField n).2, ?_, g3⟩
  rw [encodedLength_spec n h]
  simp only [List.cons_append, readHeader]
  have hmn : maskN (BitVec.ofNat 8 (Spec.lengthField n).1) = 0 := by
    unfold maskN; rw [h2]; rfl
  rw [hmn, ← g1, if_neg (by simp)]
  simp

/-- C06 fails: for **every** length from 65536 on, the reader's computation is undefined (an `int`
is shifted by 32 or more bits). -/
theorem length_field_violated (n : Nat) (h : 65536 ≤ n) (b0 : Byte) (rest : List Byte) :
    ∃ b1 ext, readHeader (b0 :: (encodedLength n ++ rest)) = some ⟨b0, b1, ext, [], rest⟩
      ∧ getPayloadLength false b1 ext = .ub := by
  unfold encodedLength
  rw [if_neg (by omega), if_neg (by omega)]
  refine ⟨127#8, [BitVec.ofNat 8 (n >>> 56), BitVec.ofNat 8 (n >>> 48), BitVec.ofNat 8 (n >>> 40),
    BitVec.ofNat 8 (n >>> 32), BitVec.ofNat 8 (n >>> 24), BitVec.ofNat 8 (n >>> 16),
    BitVec.ofNat 8 (n >>> 8), BitVec.ofNat 8 n], ?_,
    getPayloadLength_64_ub 127#8 _ (by decide) rfl⟩
  simp only [List.cons_append, readHeader]
  have e1 : extN 127#8 = 8 := by decide
  have e2 : maskN 127#8 = 0 := by decide
  rw [e1, e2, if_neg (by simp)]
  rfl

/-- C06 on hardware that masks the shift count (x86): lengths below 2^31 do survive. -/
theorem length_field_x86_partial (n : Nat) (h : n < 2 ^ 31) (b0 : Byte) (rest : List Byte) :
    ∃ b1 ext, readHeader (b0 :: (encodedLength n ++ rest)) = some ⟨b0, b1, ext, [], rest⟩
      ∧ getPayloadLength true b1 ext = .ok n := by
  by_cases hs : n < 65536
  · obtain ⟨b1, ext, h1, h2⟩ := length_field_partial n hs b0 rest
    exact ⟨b1, ext, h1, h2 true⟩
  unfold encodedLength
  rw [if_neg (by omega), if_neg (by omega)]
  refine ⟨127#8, [BitVec.ofNat 8 (n >>> 56), BitVec.ofNat 8 (n >>> 48), BitVec.ofNat 8 (n >>> 40),
    BitVec.ofNat 8 (n >>> 32), BitVec.ofNat 8 (n >>> 24), BitVec.ofNat 8 (n >>> 16),
    BitVec.ofNat 8 (n >>> 8), BitVec.ofNat 8 n], ?_, ?_⟩
  · simp only [List.cons_append, readHeader]
    have e1 : extN 127#8 = 8 := by decide
    have e2 : maskN 127#8 = 0 := by decide
    rw [e1, e2, if_neg (by simp)]
    rfl
  · have b0' : (BitVec.ofNat 8 n).toNat = n % 256 := by simp
    have b1' : (BitVec.ofNat 8 (n >>> 8)).toNat = n / 256 % 256 := by
      simp [Nat.shiftRight_eq_div_pow]
    have b2' : (BitVec.ofNat 8 (n >>> 16)).toNat = n / 65536 % 256 := by
      simp [Nat.shiftRight_eq_div_pow]
    have b3' : (BitVec.ofNat 8 (n >>> 24)).toNat = n / 16777216 % 256 := by
      simp [Nat.shiftRight_eq_div_pow]
    have z : ∀ k, 32 ≤ k → (BitVec.ofNat 8 (n >>> k)).toNat = 0 := by
      intro k hk
      rw [BitVec.toNat_ofNat, Nat.shiftRight_eq_div_pow]
      have : n < 2 ^ k := Nat.lt_of_lt_of_le h (Nat.pow_le_pow_right (by omega) (by omega))
      rw [Nat.div_eq_of_lt this]
    obtain ⟨v0, f0, g0⟩ := shiftByte_ok true (BitVec.ofNat 8 n) 0 (by omega) (by rw [b0']; omega)
    obtain ⟨v1, f1, g1⟩ := shiftByte_ok true (BitVec.ofNat 8 (n >>> 8)) 8 (by omega) (by rw [b1']; omega)
    obtain ⟨v2, f2, g2⟩ := shiftByte_ok true (BitVec.ofNat 8 (n >>> 16)) 16 (by omega) (by rw [b2']; omega)
    obtain ⟨v3, f3, g3⟩ := shiftByte_ok true (BitVec.ofNat 8 (n >>> 24)) 24 (by omega) (by rw [b3']; omega)
    have f4 := shiftByte_zero _ 32 (z 32 (by omega))
    have f5 := shiftByte_zero _ 40 (z 40 (by omega))
    have f6 := shiftByte_zero _ 48 (z 48 (by omega))
    have f7 := shiftByte_zero _ 56 (z 56 (by omega))
    rw [b0'] at g0; rw [b1'] at g1; rw [b2'] at g2; rw [b3'] at g3
    have e : orBytes true [BitVec.ofNat 8 (n >>> 56), BitVec.ofNat 8 (n >>> 48),
        BitVec.ofNat 8 (n >>> 40), BitVec.ofNat 8 (n >>> 32), BitVec.ofNat 8 (n >>> 24),
        BitVec.ofNat 8 (n >>> 16), BitVec.ofNat 8 (n >>> 8), BitVec.ofNat 8 n] 8
        = .ok (v0 ||| v1 ||| v2 ||| v3) := by
      simp only [orBytes, Cpp.bind, List.length_cons, List.length_nil, List.getD]
      simp [f0, f1, f2, f3, f4, f5, f6, f7, Cpp.map]
    have h1 : (v0 ||| v1).toNat = n % 256 + n / 256 % 256 * 256 := by
      rw [or_low _ _ 8 (by rw [g0]; omega) ⟨n / 256 % 256, by rw [g1]; omega⟩, g0, g1]; omega
    have h2 : (v0 ||| v1 ||| v2).toNat = n % 256 + n / 256 % 256 * 256 + n / 65536 % 256 * 65536 := by
      rw [or_low _ _ 16 (by rw [h1]; omega) ⟨n / 65536 % 256, by rw [g2]; omega⟩, h1, g2]
    have h3 : (v0 ||| v1 ||| v2 ||| v3).toNat = n := by
      rw [or_low _ _ 24 (by rw [h2]; omega) ⟨n / 16777216 % 256, by rw [g3]; omega⟩, h2, g3]; omega
    unfold getPayloadLength
    rw [if_pos (Or.inr (by decide))]
    show (orBytes true _ 8).bind _ = _
    rw [e]
    simp only [Cpp.bind, h3]
    rw [Nat.mod_eq_of_lt (by omega), if_pos (by omega)]

/-- C06 on such hardware: no length from 2^31 on survives, however it is written. -/
theorem length_field_x86_violated (n : Nat) (h : 2 ^ 31 ≤ n) (hw : Bool) (b1 : Byte) (ext : List Byte) :
    getPayloadLength hw b1 ext ≠ .ok n := by
  unfold getPayloadLength
  split
  · cases orBytes hw ext ext.length with
    | ub => simp [Cpp.bind]
    | ok v =>
      simp only [Cpp.bind]
      split
      · intro e; injection e with e; omega
      · simp
  · have : lengthCode b1 < 256 := by unfold lengthCode; omega
    intro e; injection e with e; omega

example : ∃ b1 ext, readHeader (0x82#8 :: (encodedLength 70000 ++ [])) = some ⟨0x82#8, b1, ext, [], []⟩
    ∧ getPayloadLength true b1 ext = .ok 70000 := length_field_x86_partial 70000 (by decide) _ _

/-! ## C07 and C08: frames from any peer -/

/-- C07 and C08, partial: on the octets of any sequence of RFC 6455 frames — any fragmentation, any
opcodes, control frames anywhere, masked or not — the reader reports exactly what the specification
says, provided that masked data frames are the first of their message, that pings and pongs carry
no payload and that payloads are shorter than 65536.  (Each proviso is necessary: see the
`_violated` theorems.) -/
theorem reader_refines_spec_partial (hw : Bool) (fs : List Frame)
    (hop : ∀ f ∈ fs, f.opcode < 16) (hlen : ∀ f ∈ fs, f.payload.length < 65536)
    (hctl : ∀ f ∈ fs, f.opcode = 9 ∨ f.opcode = 10 → f.payload = [])
    (hmask : contUnmasked false fs) :
    run hw [] (fs.flatMap encodeFrame) = receive [] fs :=
  run_encode hw fs [] hop hlen hctl false (fun _ => rfl) hmask

/-- A non-trivial frame sequence meeting the hypotheses: a masked first fragment, a ping, an
unmasked final fragment, a masked single-frame message and a masked close. -/
def sampleFrames : List Frame :=
  [⟨false, 1, some (1#8, 2#8, 3#8, 4#8), ascii "Hello "⟩, ⟨true, 9, none, []⟩,
   ⟨true, 0, none, ascii "World"⟩, ⟨true, 2, some (9#8, 8#8, 7#8, 6#8), ascii "bin"⟩,
   ⟨true, 8, some (1#8, 1#8, 1#8, 1#8), [3#8, 232#8]⟩]

example : run false [] (sampleFrames.flatMap encodeFrame)
    = ([.ping, .message (ascii "Hello World"), .message (ascii "bin")], .close [3#8, 232#8]) := by
  rw [reader_refines_spec_partial false sampleFrames (by decide) (by decide) (by decide)
    (by simp [sampleFrames, contUnmasked])]
  decide

/-- C07, unfragmented masked messages: delivered unmasked, for every key and payload. -/
theorem masked_message_partial (hw : Bool) (k : Byte × Byte × Byte × Byte) (p : List Byte)
    (h : p.length < 65536) :
    run hw [] (encodeFrame ⟨true, 1, some k, p⟩) = ([.message p], .waiting) := by
  have := reader_refines_spec_partial hw [⟨true, 1, some k, p⟩] (by simp) (by simpa using h) (by simp)
    (by simp [contUnmasked])
  simpa [receive] using this

/-- C07 fails for fragmented masked messages: the second fragment stays masked and the first one
is masked again. -/
theorem masked_fragments_violated :
    ∃ fs : List Frame, (∀ f ∈ fs, f.opcode ≤ 2 ∧ f.mask.isSome = true)
      ∧ receive [] fs = ([.message (ascii "ab")], .waiting)
      ∧ run false [] (fs.flatMap encodeFrame) = ([.message [96#8, 99#8]], .waiting) := by
  refine ⟨[⟨false, 1, some (1#8, 1#8, 1#8, 1#8), ascii "a"⟩,
    ⟨true, 0, some (1#8, 1#8, 1#8, 1#8), ascii "b"⟩], by simp, by decide, ?_⟩
  rw [run_eq, show readFrame false [] _ = Step.data false (ascii "a")
    [128#8, 129#8, 1#8, 1#8, 1#8, 1#8, 99#8] by decide +kernel]
  simp only [Bool.false_eq_true, if_false]
  rw [run_eq, show readFrame false (ascii "a") _ = Step.data true [96#8, 99#8] [] by decide +kernel]
  simp [run_nil]

/-- C08 fails for pings with a payload: the payload is parsed as frames, so that a message that
was never sent is delivered. -/
theorem ping_payload_violated :
    ∃ fs : List Frame, receive [] fs = ([.ping], .waiting)
      ∧ run false [] (fs.flatMap encodeFrame) = ([.ping, .message (ascii "X")], .waiting) := by
  refine ⟨[⟨true, 9, none, [0x81#8, 1#8, 0x58#8]⟩], by decide, ?_⟩
  rw [run_eq, show readFrame false [] _ = Step.ping [0x81#8, 1#8, 0x58#8] by decide +kernel]
  simp only
  rw [run_eq, show readFrame false [] [0x81#8, 1#8, 0x58#8] = Step.data true (ascii "X") []
    by decide +kernel]
  simp [run_nil]

/-- C08 restricted to the fragments of one message: inserting payload-free pings and pongs
anywhere between unmasked fragments leaves the delivered messages unchanged. -/
theorem control_interleaving_partial (hw : Bool) (frags : List Frame)
    (hd : ∀ f ∈ frags, f.mask = none ∧ f.payload.length < 65536 ∧
      (f.opcode ≤ 2 ∨ ((f.opcode = 9 ∨ f.opcode = 10) ∧ f.payload = []))) :
    (run hw [] (frags.flatMap encodeFrame)).1.filter (fun e => e matches .message _)
      = (run hw [] ((frags.filter (·.opcode ≤ 2)).flatMap encodeFrame)).1 := by
  have hmask : ∀ (fs : List Frame) (st : Bool), (∀ f ∈ fs, f.mask = none) → contUnmasked st fs := by
    intro fs
    induction fs with
    | nil => intro st _; trivial
    | cons f fs ih =>
      intro st h
      have h' := fun g hg => h g (List.mem_cons_of_mem f hg)
      unfold contUnmasked
      split
      · exact ⟨fun _ => h f (by simp), ih _ h'⟩
      · exact ih _ h'
  have hd' : ∀ f ∈ frags.filter (·.opcode ≤ 2), f ∈ frags := fun f hf => (List.mem_filter.1 hf).1
  rw [reader_refines_spec_partial hw frags
    (fun f hf => by have := (hd f hf).2.2; omega) (fun f hf => (hd f hf).2.1)
    (fun f hf h => by
      rcases (hd f hf).2.2 with h' | h'
      · omega
      · exact h'.2) (hmask _ _ (fun f hf => (hd f hf).1)),
    reader_refines_spec_partial hw _
    (fun f hf => by have := (hd f (hd' f hf)).2.2; omega) (fun f hf => (hd f (hd' f hf)).2.1)
    (fun f hf h => by
      rcases (hd f (hd' f hf)).2.2 with h' | h'
      · omega
      · exact h'.2) (hmask _ _ (fun f hf => (hd f (hd' f hf)).1))]
  have key : ∀ acc, (receive acc frags).1.filter (fun e => e matches .message _)
      = (receive acc (frags.filter (·.opcode ≤ 2))).1 := by
    clear hd'
    induction frags with
    | nil => intro acc; rfl
    | cons f fs ih =>
      intro acc
      have ih' := ih (fun g hg => hd g (by simp [hg]))
      rcases (hd f (by simp)).2.2 with h | ⟨h, _⟩
      · rw [List.filter_cons_of_pos (by simpa using h)]
        simp only [receive, h, if_true]
        split
        · simp [ih']
        · exact ih' _
      · have h2 : ¬ f.opcode ≤ 2 := by omega
        have h8 : ¬ f.opcode = 8 := by omega
        rw [List.filter_cons_of_neg (by simpa using h2)]
        rcases h with h | h
        · simp only [receive, if_neg h2, if_neg h8, if_pos h]
          simpa using ih' acc
        · have h9 : ¬ f.opcode = 9 := by omega
          simp only [receive, if_neg h2, if_neg h8, if_neg h9, if_pos h]
          simpa using ih' acc
  exact key []

example : ∀ f ∈ [(⟨false, 1, none, ascii "a"⟩ : Frame), ⟨true, 9, none, []⟩, ⟨true, 0, none, ascii "b"⟩],
    f.mask = none ∧ f.payload.length < 65536 ∧
      (f.opcode ≤ 2 ∨ ((f.opcode = 9 ∨ f.opcode = 10) ∧ f.payload = [])) := by decide

/-! ## C09 arbitrary byte streams -/

/-- C09 (a): how the stream is cut in pieces does not matter, and nothing is retracted: what was
reported for the bytes received so far stays reported, and reading resumes from a state that
depends only on those bytes.  If reading stopped for another reason than missing bytes (close,
unknown opcode), no later byte is ever looked at. -/
theorem stream_resume (hw : Bool) (acc s : List Byte) :
    ((run hw acc s).2 ≠ .waiting → ∀ t, run hw acc (s ++ t) = run hw acc s)
    ∧ ((run hw acc s).2 = .waiting → ∃ acc' left, left <:+ s ∧
        readFrame hw acc' left = .waiting ∧
        ∀ t, run hw acc (s ++ t)
          = ((run hw acc s).1 ++ (run hw acc' (left ++ t)).1, (run hw acc' (left ++ t)).2)) := by
  induction hn : s.length using Nat.strongRecOn generalizing s acc with
  | ind n ih =>
    have hlt := readFrame_rest_lt hw acc s
    cases hf : readFrame hw acc s with
    | waiting =>
      have e : run hw acc s = ([], .waiting) := by rw [run_eq, hf]
      rw [e]
      refine ⟨fun h => absurd rfl h, fun _ => ⟨acc, s, List.suffix_refl s, hf, fun t => ?_⟩⟩
      simp
    | ub =>
      have e : run hw acc s = ([], .ub) := by rw [run_eq, hf]
      rw [e]
      refine ⟨fun _ t => ?_, fun h => absurd h (by simp)⟩
      rw [run_eq, readFrame_append hw acc s t (by rw [hf]; simp), hf]; rfl
    | badInput =>
      have e : run hw acc s = ([], .badInput) := by rw [run_eq, hf]
      rw [e]
      refine ⟨fun _ t => ?_, fun h => absurd h (by simp)⟩
      rw [run_eq, readFrame_append hw acc s t (by rw [hf]; simp), hf]; rfl
    | close p =>
      have e : run hw acc s = ([], .close p) := by rw [run_eq, hf]
      rw [e]
      refine ⟨fun _ t => ?_, fun h => absurd h (by simp)⟩
      rw [run_eq, readFrame_append hw acc s t (by rw [hf]; simp), hf]; rfl
    | ping r =>
      rw [hf] at hlt
      have hsuf : r <:+ s := (readFrame_rest_suffix hw acc s).2.1 r hf
      obtain ⟨i1, i2⟩ := ih r.length (by simp only at hlt; omega) acc r rfl
      have e : run hw acc s = (.ping :: (run hw acc r).1, (run hw acc r).2) := by rw [run_eq, hf]
      have e' : ∀ t, run hw acc (s ++ t)
          = (.ping :: (run hw acc (r ++ t)).1, (run hw acc (r ++ t)).2) := by
        intro t
        rw [run_eq, readFrame_append hw acc s t (by rw [hf]; simp), hf]; rfl
      rw [e]
      refine ⟨fun h t => by rw [e', i1 h], fun h => ?_⟩
      obtain ⟨acc', left, hl, hw', ht⟩ := i2 h
      exact ⟨acc', left, hl.trans hsuf, hw', fun t => by rw [e', ht]; rfl⟩
    | pong r =>
      rw [hf] at hlt
      have hsuf : r <:+ s := (readFrame_rest_suffix hw acc s).2.2 r hf
      obtain ⟨i1, i2⟩ := ih r.length (by simp only at hlt; omega) acc r rfl
      have e : run hw acc s = (.pong :: (run hw acc r).1, (run hw acc r).2) := by rw [run_eq, hf]
      have e' : ∀ t, run hw acc (s ++ t)
          = (.pong :: (run hw acc (r ++ t)).1, (run hw acc (r ++ t)).2) := by
        intro t
        rw [run_eq, readFrame_append hw acc s t (by rw [hf]; simp), hf]; rfl
      rw [e]
      refine ⟨fun h t => by rw [e', i1 h], fun h => ?_⟩
      obtain ⟨acc', left, hl, hw', ht⟩ := i2 h
      exact ⟨acc', left, hl.trans hsuf, hw', fun t => by rw [e', ht]; rfl⟩
    | data fin p r =>
      rw [hf] at hlt
      have hsuf : r <:+ s := (readFrame_rest_suffix hw acc s).1 fin p r hf
      cases fin with
      | true =>
        obtain ⟨i1, i2⟩ := ih r.length (by simp only at hlt; omega) [] r rfl
        have e : run hw acc s = (.message p :: (run hw [] r).1, (run hw [] r).2) := by
          rw [run_eq, hf]; rfl
        have e' : ∀ t, run hw acc (s ++ t)
            = (.message p :: (run hw [] (r ++ t)).1, (run hw [] (r ++ t)).2) := by
          intro t
          rw [run_eq, readFrame_append hw acc s t (by rw [hf]; simp), hf]; rfl
        rw [e]
        refine ⟨fun h t => by rw [e', i1 h], fun h => ?_⟩
        obtain ⟨acc', left, hl, hw', ht⟩ := i2 h
        exact ⟨acc', left, hl.trans hsuf, hw', fun t => by rw [e', ht]; rfl⟩
      | false =>
        obtain ⟨i1, i2⟩ := ih r.length (by simp only at hlt; omega) p r rfl
        have e : run hw acc s = run hw p r := by
          rw [run_eq, hf]; rfl
        have e' : ∀ t, run hw acc (s ++ t) = run hw p (r ++ t) := by
          intro t
          rw [run_eq, readFrame_append hw acc s t (by rw [hf]; simp), hf]; rfl
        rw [e]
        refine ⟨fun h t => by rw [e', i1 h], fun h => ?_⟩
        obtain ⟨acc', left, hl, hw', ht⟩ := i2 h
        exact ⟨acc', left, hl.trans hsuf, hw', fun t => by rw [e', ht]⟩

example : (run false [] (sampleFrames.flatMap encodeFrame)).2 ≠ .waiting := by
  rw [reader_refines_spec_partial false sampleFrames (by decide) (by decide) (by decide)
    (by simp [sampleFrames, contUnmasked])]
  decide
example : (run false [] [0x81#8]).2 = .waiting := by
  rw [run_eq, show readFrame false [] [0x81#8] = Step.waiting by decide]

/-- C09 (b): for every byte stream the delivered payload bytes never exceed the bytes received
(nothing is delivered that was not received: no read outside the stream). -/
theorem delivered_le (hw : Bool) (acc s : List Byte) :
    delivered (run hw acc s).1 ≤ acc.length + s.length := by
  induction hn : s.length using Nat.strongRecOn generalizing s acc with
  | ind n ih =>
    have hlt := readFrame_rest_lt hw acc s
    rw [run_eq]
    cases hf : readFrame hw acc s with
    | waiting => simp [delivered]
    | ub => simp [delivered]
    | badInput => simp [delivered]
    | close p => simp [delivered]
    | ping r =>
      rw [hf] at hlt; simp only at hlt
      have := ih r.length (by omega) acc r rfl
      simp only [delivered]; omega
    | pong r =>
      rw [hf] at hlt; simp only at hlt
      have := ih r.length (by omega) acc r rfl
      simp only [delivered]; omega
    | data fin p r =>
      rw [hf] at hlt; simp only at hlt
      have hl := readFrame_data_length hw acc s fin p r hf
      cases fin with
      | true =>
        have := ih r.length (by omega) [] r rfl
        simp only [delivered, if_true]
        simp at this; omega
      | false =>
        have := ih r.length (by omega) p r rfl
        simp only [Bool.false_eq_true, if_false]; omega

end Nbdl.Ws
