import Verif.Ws.Props
/-!
# C07: exactly which masked fragments are unmasked correctly
-/
namespace Nbdl.Ws.Spec

/-- The key does not change the payload: there is none, or the octets of it that are used are zero. -/
def Frame.Idle (f : Frame) : Prop :=
  ∀ k, f.mask = some k → ∀ i, i < f.payload.length → (keyBytes k).getD (i % 4) 0 = 0

/-- Every fragment is without a mask in effect, or nothing of its message came before it. -/
def MaskedFirst (before : List Byte) : List Frame → Prop
  | [] => True
  | f :: fs => (before = [] ∨ f.Idle) ∧ MaskedFirst (before ++ f.payload) fs

/-- The fragments of one message. -/
def IsMessage (fs : List Frame) : Prop :=
  ∃ a g, fs = a ++ [g] ∧ g.fin = true ∧ (∀ f ∈ a, f.fin = false) ∧ ∀ f ∈ fs, f.opcode ≤ 2 ∧ f.payload.length < 65536

/-- The payload as it is sent. -/
def Frame.sent (f : Frame) : List Byte :=
  match f.mask with
  | none => f.payload
  | some k => applyMask k f.payload

end Nbdl.Ws.Spec

namespace Nbdl.Ws
open Spec

/-- What the reader makes of the fragments so far and one more. -/
def stepMask (acc : List Byte) (f : Frame) : List Byte :=
  match f.mask with
  | none => acc ++ f.payload
  | some k => unmask (acc ++ applyMask k f.payload) (keyBytes k) f.payload.length

theorem readPayload_any (hw : Bool) (f : Frame) (b1 : Byte) (acc t : List Byte)
    (k : List Byte → List Byte → Step)
    (hb : highBit b1 = f.mask.isSome)
    (hl : getPayloadLength hw b1 (lengthField f.payload.length).2 = .ok f.payload.length) :
    readPayload hw b1 (lengthField f.payload.length).2
      (match f.mask with | none => [] | some k => keyBytes k) acc
      ((match f.mask with | none => f.payload | some k => applyMask k f.payload) ++ t) k
      = k (stepMask acc f) t := by
  unfold readPayload
  rw [hl]
  simp only
  cases hm : f.mask with
  | none =>
    rw [if_neg (by simp)]
    rw [hm] at hb
    simp [hb, stepMask, hm]
  | some key =>
    rw [hm] at hb
    rw [if_neg (by simp [applyMask_length])]
    have e : ((applyMask key f.payload) ++ t).take f.payload.length = applyMask key f.payload := by
      rw [← applyMask_length key f.payload]; simp
    have e2 : ((applyMask key f.payload) ++ t).drop f.payload.length = t := by
      rw [← applyMask_length key f.payload]; simp
    simp only [e, e2, hb, Option.isSome_some, if_true, stepMask, hm]

theorem run_data (hw : Bool) (f : Frame) (acc t : List Byte) (hop : f.opcode ≤ 2) (hn : f.payload.length < 65536) :
    run hw acc (encodeFrame f ++ t) =
      if f.fin then (.message (stepMask acc f) :: (run hw [] t).1, (run hw [] t).2) else run hw (stepMask acc f) t := by
  obtain ⟨b1, hh, hb, hl⟩ := readHeader_encode f t hn
  obtain ⟨o1, o2⟩ := byte0_facts f.fin f.opcode (by omega)
  rw [run_eq]
  unfold readFrame
  rw [hh]
  simp only [dispatch, o1, o2]
  rw [if_pos (by omega)]
  erw [readPayload_any hw f b1 acc t _ hb (hl hw)]

theorem run_message (hw : Bool) (t : List Byte) (g : Frame) (hg : g.fin = true) (hgo : g.opcode ≤ 2)
    (hgn : g.payload.length < 65536) : ∀ (a : List Frame) (acc : List Byte), (∀ f ∈ a, f.fin = false) →
    (∀ f ∈ a, f.opcode ≤ 2 ∧ f.payload.length < 65536) →
    run hw acc ((a ++ [g]).flatMap encodeFrame ++ t)
      = (.message ((a ++ [g]).foldl stepMask acc) :: (run hw [] t).1, (run hw [] t).2)
  | [], acc, _, _ => by
    simp only [List.nil_append, List.flatMap_cons, List.flatMap_nil, List.append_nil, List.foldl_cons, List.foldl_nil]
    rw [run_data hw g acc t hgo hgn, if_pos hg]
  | f :: a, acc, h1, h2 => by
    simp only [List.cons_append, List.flatMap_cons, List.append_assoc, List.foldl_cons]
    rw [run_data hw f acc _ (h2 f (by simp)).1 (h2 f (by simp)).2, if_neg (by simp [h1 f (by simp)])]
    have := run_message hw t g hg hgo hgn a (stepMask acc f) (fun x hx => h1 x (by simp [hx])) (fun x hx => h2 x (by simp [hx]))
    simpa only [List.flatMap_append, List.flatMap_cons, List.flatMap_nil, List.append_nil, List.append_assoc] using this

theorem stepMask_length (acc : List Byte) (f : Frame) : (stepMask acc f).length = acc.length + f.payload.length := by
  unfold stepMask
  cases f.mask <;> simp [unmask_length, applyMask_length]

theorem unmask_idle (p key : List Byte) (n : Nat) (h : ∀ i, i < n → key.getD (i % 4) 0 = 0) : unmask p key n = p := by
  unfold unmask
  apply List.ext_getElem
  · simp
  · intro i h1 h2
    simp only [List.getElem_mapIdx]
    split
    · rename_i hi
      rw [h i hi]
      exact BitVec.xor_zero
    · rfl

theorem applyMask_idle (k : Byte × Byte × Byte × Byte) (p : List Byte)
    (h : ∀ i, i < p.length → (keyBytes k).getD (i % 4) 0 = 0) : applyMask k p = p := by
  unfold applyMask
  apply List.ext_getElem
  · simp
  · intro i h1 h2
    simp only [List.getElem_mapIdx]
    rw [h i h2]
    exact BitVec.xor_zero

theorem xor_cancel {a b c : Byte} (h : (a ^^^ b) ^^^ c = a) : b = c := by
  have h1 : a ^^^ (a ^^^ b ^^^ c) = a ^^^ a := congrArg (a ^^^ ·) h
  rw [BitVec.xor_self, BitVec.xor_assoc, ← BitVec.xor_assoc, BitVec.xor_self, BitVec.zero_xor] at h1
  have h2 : (b ^^^ c) ^^^ c = 0#8 ^^^ c := congrArg (· ^^^ c) h1
  rwa [BitVec.xor_assoc, BitVec.xor_self, BitVec.xor_zero, BitVec.zero_xor] at h2

/-- One more fragment is added as it should be exactly if it has no mask in effect or nothing came before. -/
theorem stepMask_right (acc acc' : List Byte) (f : Frame) (hl : acc.length = acc'.length) :
    stepMask acc f = acc' ++ f.payload ↔ acc = acc' ∧ (acc = [] ∨ f.Idle) := by
  have idle : f.Idle → stepMask acc f = acc ++ f.payload := by
    intro hi
    unfold stepMask
    cases hm : f.mask with
    | none => rfl
    | some k =>
      simp only
      rw [applyMask_idle k _ (hi k hm), unmask_idle _ _ _ (hi k hm)]
  constructor
  · intro h
    by_cases ha : acc = []
    · subst ha
      have : acc' = [] := List.length_eq_zero_iff.1 hl.symm
      exact ⟨this.symm, Or.inl rfl⟩
    · have hi : f.Idle := by
        intro k hm
        have hpos : 0 < acc.length := List.length_pos_iff.2 ha
        have hstep : stepMask acc f = unmask (acc ++ applyMask k f.payload) (keyBytes k) f.payload.length := by
          unfold stepMask
          rw [hm]
        rw [hstep] at h
        -- from the end to the beginning
        have key : ∀ d j, f.payload.length - j ≤ d → j < f.payload.length → (keyBytes k).getD (j % 4) 0 = 0 := by
          intro d
          induction d with
          | zero => intro j h1 h2; omega
          | succ d ih =>
            intro j h1 h2
            have hg : (unmask (acc ++ applyMask k f.payload) (keyBytes k) f.payload.length)[acc.length + j]?
                = (acc' ++ f.payload)[acc.length + j]? := by rw [h]
            rw [List.getElem?_append_right (by omega), show acc.length + j - acc'.length = j by omega,
              List.getElem?_eq_getElem h2] at hg
            unfold unmask at hg
            rw [List.getElem?_mapIdx, List.getElem?_append_right (by omega),
              show acc.length + j - acc.length = j by omega] at hg
            unfold applyMask at hg
            rw [List.getElem?_mapIdx, List.getElem?_eq_getElem h2] at hg
            simp only [Option.map_some, Option.some.injEq] at hg
            by_cases hc : acc.length + j < f.payload.length
            · rw [if_pos hc] at hg
              rw [xor_cancel hg]
              exact ih (acc.length + j) (by omega) hc
            · rw [if_neg hc] at hg
              exact xor_cancel (c := 0#8) (by rw [BitVec.xor_zero]; exact hg)
        intro i hi
        exact key _ i (Nat.le_refl _) hi
      rw [idle hi] at h
      exact ⟨(List.append_inj h hl).1, Or.inr hi⟩
  · rintro ⟨rfl, rfl | hi⟩
    · unfold stepMask
      cases hm : f.mask with
      | none => rfl
      | some k =>
        simp only [List.nil_append]
        exact mapIdx_inv f.payload (keyBytes k) _ rfl
    · exact idle hi

theorem foldl_stepMask : ∀ (fs : List Frame) (acc acc' : List Byte), acc.length = acc'.length →
    (fs.foldl stepMask acc = acc' ++ fs.flatMap (·.payload) ↔ acc = acc' ∧ MaskedFirst acc fs)
  | [], acc, acc', _ => by simp [MaskedFirst]
  | f :: fs, acc, acc', hl => by
    rw [List.foldl_cons, List.flatMap_cons, ← List.append_assoc,
      foldl_stepMask fs (stepMask acc f) (acc' ++ f.payload) (by simp [stepMask_length, hl]),
      stepMask_right acc acc' f hl, MaskedFirst]
    constructor
    · rintro ⟨⟨rfl, h⟩, h2⟩
      rw [(stepMask_right acc acc f rfl).2 ⟨rfl, h⟩] at h2
      exact ⟨rfl, h, h2⟩
    · rintro ⟨rfl, h, h2⟩
      refine ⟨⟨rfl, h⟩, ?_⟩
      rw [(stepMask_right acc acc f rfl).2 ⟨rfl, h⟩]
      exact h2

/-- C07, exactly when it holds: messages of any number of fragments, masked in any way, are delivered as they are
meant if and only if in each of them no fragment with a mask in effect comes after any octet of its message. -/
theorem masked_exact_partial (hw : Bool) (ms : List (List Frame)) (hm : ∀ m ∈ ms, IsMessage m) :
    run hw [] (ms.flatMap fun m => m.flatMap encodeFrame) = (ms.map fun m => .message (m.flatMap (·.payload)), .waiting)
      ↔ ∀ m ∈ ms, MaskedFirst [] m := by
  induction ms with
  | nil => simp [run_nil]
  | cons m ms ih =>
    have ih := ih fun x hx => hm x (by simp [hx])
    obtain ⟨a, g, e, hg, ha, hall⟩ := hm m (by simp)
    have hr := run_message hw (ms.flatMap fun m => m.flatMap encodeFrame) g hg (hall g (by simp [e])).1
      (hall g (by simp [e])).2 a [] ha (fun f hf => hall f (by simp [e, hf]))
    rw [← e] at hr
    rw [List.flatMap_cons, hr]
    have hf := foldl_stepMask m [] [] rfl
    simp only [List.nil_append, true_and] at hf
    simp only [List.map_cons, Prod.mk.injEq, List.cons.injEq, Event.message.injEq, List.mem_cons, forall_eq_or_imp,
      and_assoc]
    rw [hf, ← ih, Prod.ext_iff]

/-- Two messages: one whose first fragment is masked, and one whose second fragment is masked too. -/
def maskedSample : List (List Frame) :=
  [[⟨false, 1, some (1#8, 2#8, 3#8, 4#8), ascii "ab"⟩, ⟨true, 0, none, ascii "c"⟩],
   [⟨false, 1, some (1#8, 2#8, 3#8, 4#8), ascii "a"⟩, ⟨true, 0, some (0#8, 2#8, 0#8, 0#8), ascii "bc"⟩]]

example : ∀ m ∈ maskedSample, IsMessage m := by
  intro m hm
  simp only [maskedSample, List.mem_cons, List.not_mem_nil, or_false] at hm
  rcases hm with rfl | rfl
  · refine ⟨[_], _, rfl, rfl, ?_, ?_⟩ <;> simp [ascii]
  · refine ⟨[_], _, rfl, rfl, ?_, ?_⟩ <;> simp [ascii]
example : run false [] (maskedSample.flatMap fun m => m.flatMap encodeFrame)
    = ([.message (ascii "abc"), .message [0x61#8, 0x60#8, 0x61#8]], .waiting) := by decide +kernel
example : MaskedFirst [] maskedSample[0] ∧ ¬ MaskedFirst [] maskedSample[1] := by
  constructor
  · refine ⟨Or.inl rfl, Or.inr ?_, trivial⟩
    intro k hk
    cases hk
  · rintro ⟨-, h | h, -⟩
    · cases h
    · exact absurd (h _ rfl 1 (by decide)) (by decide)

/-- C08, exactly what happens at any place of any stream: a ping or a pong is reported, and what it carries is read as if
it were the next frames. -/
theorem control_exact (hw : Bool) (f : Frame) (acc t : List Byte) (hop : f.opcode = 9 ∨ f.opcode = 10)
    (hn : f.payload.length < 65536) :
    run hw acc (encodeFrame f ++ t)
      = ((if f.opcode = 9 then .ping else .pong) :: (run hw acc (f.sent ++ t)).1, (run hw acc (f.sent ++ t)).2) := by
  obtain ⟨b1, hh, hb, hl⟩ := readHeader_encode f t hn
  obtain ⟨o1, o2⟩ := byte0_facts f.fin f.opcode (by omega)
  rw [run_eq]
  unfold readFrame
  rw [hh]
  simp only [dispatch, o1, o2]
  rw [if_neg (by omega), if_neg (by omega)]
  rcases hop with h | h
  · rw [if_pos h, if_pos h]
    rfl
  · rw [if_neg (by omega), if_pos h, if_neg (by omega)]
    rfl

example : run false [] (encodeFrame ⟨true, 9, none, [0x8a#8, 0x00#8]⟩) = ([.ping, .pong], .waiting) := by decide +kernel

end Nbdl.Ws
