import Verif.Ws.Props
/-!
# C09: what a reader makes of any octets whatsoever

The specification takes octets apart into frames by the numbers of RFC 6455 section 5.2. It says what is
reported for them, whatever the frames are.
-/
namespace Nbdl.Ws.Spec

/-- A frame as it is on the wire. -/
structure Piece where
  b0 : Byte
  b1 : Byte
  ext : List Byte
  key : List Byte
  payload : List Byte
deriving DecidableEq, Repr

namespace Piece
def opcode (p : Piece) : Nat := p.b0.toNat % 16
def fin (p : Piece) : Bool := 128 ≤ p.b0.toNat
def masked (p : Piece) : Bool := 128 ≤ p.b1.toNat
def code (p : Piece) : Nat := p.b1.toNat % 128

/-- Its octets. -/
def octets (p : Piece) : List Byte := p.b0 :: p.b1 :: (p.ext ++ (p.key ++ p.payload))

/-- The parts of the header have the sizes that the second octet tells. -/
def HeaderOk (p : Piece) : Prop :=
  p.ext.length = (if p.code = 126 then 2 else if p.code = 127 then 8 else 0)
  ∧ p.key.length = (if p.masked then 4 else 0)

/-- The length that is told; there is none if it takes 64 bits (C06). -/
def size (p : Piece) : Option Nat :=
  if p.code < 126 then some p.code
  else match p.ext with
    | [x, y] => some (256 * x.toNat + y.toNat)
    | _ => none

/-- Frames with a payload: data and close. -/
def carries (p : Piece) : Bool := p.opcode ≤ 2 || p.opcode == 8

/-- Frames which are read to the end without an end to the reading. What a ping or a pong carries
is taken for further frames (C08). -/
def goesOn (p : Piece) : Bool := p.opcode ≤ 2 || p.opcode == 9 || p.opcode == 10

/-- A whole frame. -/
def Whole (p : Piece) : Prop :=
  p.HeaderOk ∧ (if p.carries then p.size = some p.payload.length else p.payload = [])

/-- `acc` and then the payload; the mask is taken off as many octets as the payload has, from the beginning of
`acc` on (C07). -/
def onto (acc : List Byte) (p : Piece) : List Byte :=
  if p.masked then (acc ++ p.payload).mapIdx fun i b => if i < p.payload.length then b ^^^ p.key.getD (i % 4) 0 else b
  else acc ++ p.payload
end Piece

/-- What is reported for whole frames. -/
def collect (acc : List Byte) : List Piece → List Event
  | [] => []
  | p :: ps =>
    if p.opcode = 9 then .ping :: collect acc ps
    else if p.opcode = 10 then .pong :: collect acc ps
    else if p.fin then .message (p.onto acc) :: collect [] ps
    else collect (p.onto acc) ps

/-- Why the reading stopped at `left`. -/
def EndsAt (left : List Byte) : Stop → Prop
  /- whatever header is there belongs to a frame whose payload is not there yet -/
  | .waiting => ∀ p : Piece, p.HeaderOk → p.payload = [] → p.octets <+: left →
      p.carries = true ∧ ∃ n, p.size = some n ∧ left.length < p.octets.length + n
  | .close pay => ∃ p : Piece, p.Whole ∧ p.opcode = 8 ∧ p.octets <+: left ∧ pay = p.onto []
  | .badInput => ∃ p : Piece, p.HeaderOk ∧ p.payload = [] ∧ p.octets <+: left
      ∧ p.carries = false ∧ p.goesOn = false
  | .ub => ∃ p : Piece, p.HeaderOk ∧ p.payload = [] ∧ p.octets <+: left ∧ p.carries = true ∧ p.size = none

end Nbdl.Ws.Spec

namespace Nbdl.Ws
open Spec

theorem byte_facts (b : Byte) : opcodeOf b = b.toNat % 16 ∧ highBit b = decide (128 ≤ b.toNat)
    ∧ lengthCode b = b.toNat % 128 := by
  have : ∀ c : Fin 256, opcodeOf (BitVec.ofNat 8 c.val) = (BitVec.ofNat 8 c.val).toNat % 16
      ∧ highBit (BitVec.ofNat 8 c.val) = decide (128 ≤ (BitVec.ofNat 8 c.val).toNat)
      ∧ lengthCode (BitVec.ofNat 8 c.val) = (BitVec.ofNat 8 c.val).toNat % 128 := by decide +kernel
  have h := this ⟨b.toNat, b.isLt⟩
  simpa using h

/-- The header of a frame, as a piece without payload. -/
def Header.piece (h : Header) (payload : List Byte) : Piece := ⟨h.b0, h.b1, h.ext, h.key, payload⟩

theorem extN_eq (b1 : Byte) : extN b1 = if b1.toNat % 128 = 126 then 2 else if b1.toNat % 128 = 127 then 8 else 0 := by
  rw [extN, (byte_facts b1).2.2]

theorem maskN_eq (b1 : Byte) : maskN b1 = if decide (128 ≤ b1.toNat) then 4 else 0 := by
  rw [maskN, (byte_facts b1).2.1]

theorem header_some {s : List Byte} {h : Header} (e : readHeader s = some h) (payload : List Byte) :
    (h.piece payload).HeaderOk ∧ s = (h.piece []).octets ++ h.rest := by
  unfold readHeader at e
  split at e
  · rename_i b0 b1 r
    split at e
    · cases e
    · rename_i hl
      cases e
      refine ⟨⟨?_, ?_⟩, ?_⟩
      · show (r.take (extN b1)).length = _
        refine Eq.trans ?_ (extN_eq b1)
        simp only [List.length_take]; omega
      · show ((r.drop (extN b1)).take (maskN b1)).length = _
        refine Eq.trans ?_ (maskN_eq b1)
        simp only [List.length_take, List.length_drop]; omega
      · show _ = b0 :: b1 :: (r.take (extN b1) ++ ((r.drop (extN b1)).take (maskN b1) ++ []))
          ++ (r.drop (extN b1)).drop (maskN b1)
        simp only [List.append_nil, List.cons_append, List.append_assoc, List.take_append_drop]
  · cases e

theorem header_of {p : Piece} (hp : p.HeaderOk) (hn : p.payload = []) (t : List Byte) :
    readHeader (p.octets ++ t) = some ⟨p.b0, p.b1, p.ext, p.key, t⟩ := by
  obtain ⟨h1, h2⟩ := hp
  have e1 : p.ext.length = extN p.b1 := by rw [extN_eq]; exact h1
  have e2 : p.key.length = maskN p.b1 := by rw [maskN_eq]; exact h2
  simp only [Piece.octets, hn, List.append_nil, List.cons_append, readHeader, List.append_assoc]
  rw [if_neg (by simp only [List.length_append]; omega)]
  simp [← e1, ← e2]

theorem header_none {s : List Byte} (e : readHeader s = none) {p : Piece} (hp : p.HeaderOk) (hn : p.payload = [])
    (hpre : p.octets <+: s) : False := by
  obtain ⟨t, rfl⟩ := hpre
  rw [header_of hp hn] at e
  cases e

theorem length_of {h : Header} {q : List Byte} (hok : (h.piece q).HeaderOk) :
    getPayloadLength false h.b1 h.ext = match (h.piece q).size with
      | some n => .ok n
      | none => .ub := by
  have hc := (byte_facts h.b1).2.2
  have hsz : (h.piece q).size = if h.b1.toNat % 128 < 126 then some (h.b1.toNat % 128)
      else match h.ext with
        | [x, y] => some (256 * x.toNat + y.toNat)
        | _ => none := rfl
  rw [hsz]
  by_cases h1 : h.b1.toNat % 128 < 126
  · rw [if_pos h1]
    exact getPayloadLength_small false h.b1 h.ext _ h1 hc
  · rw [if_neg h1]
    have hext : h.ext.length = (if h.b1.toNat % 128 = 126 then 2 else if h.b1.toNat % 128 = 127 then 8 else 0) := hok.1
    by_cases h2 : h.b1.toNat % 128 = 126
    · rw [if_pos h2] at hext
      match he : h.ext, hext with
      | [x, y], _ =>
        rw [getPayloadLength_16 false h.b1 x y (by rw [hc]; exact h2), Nat.mul_comm]
    · have h3 : h.b1.toNat % 128 = 127 := by omega
      rw [if_neg h2, if_pos h3] at hext
      rw [getPayloadLength_64_ub h.b1 h.ext (by rw [hc]; exact h3) hext]
      match h.ext, hext with
      | [_, _, _, _, _, _, _, _], _ => rfl

/-- C09: any octets are, from the beginning, some whole frames and something that is left. What is reported
is reported for these frames; each message is made of the payloads of its frames, in order. The reading
stopped at what is left because that is not yet a frame, or is a close frame, a header with an unknown opcode or
a length of 64 bits. -/
theorem stream_exact (acc s : List Byte) :
    ∃ ps left, s = ps.flatMap Piece.octets ++ left ∧ (∀ p ∈ ps, p.Whole ∧ p.goesOn = true)
      ∧ (run false acc s).1 = collect acc ps ∧ EndsAt left (run false acc s).2 := by
  induction hn : s.length using Nat.strongRecOn generalizing s acc with
  | ind n ih =>
    rw [run_eq]
    unfold readFrame
    cases hh : readHeader s with
    | none =>
      exact ⟨[], s, rfl, by simp, rfl, fun p hp he hpre => (header_none hh hp he hpre).elim⟩
    | some h =>
      have hlt := readHeader_lt hh
      obtain ⟨hok, hs⟩ := header_some hh []
      have hok' : ∀ q, (h.piece q).HeaderOk := fun q => (header_some hh q).1
      have hop := (byte_facts h.b0).1
      have hfin := (byte_facts h.b0).2.1
      have hmask := (byte_facts h.b1).2.1
      have hpre : (h.piece []).octets <+: s := ⟨h.rest, hs.symm⟩
      have hpop : ∀ q, (h.piece q).opcode = opcodeOf h.b0 := fun q => hop.symm
      have hoct : ∀ q, (h.piece q).octets = (h.piece []).octets ++ q := fun q => by
        simp [Header.piece, Piece.octets]
      -- a payload of the length told, and what is made of it
      have honto : ∀ acc' q : List Byte, q.length ≤ h.rest.length → (h.piece (h.rest.take q.length)).onto acc'
          = if highBit h.b1 then unmask (acc' ++ h.rest.take q.length) h.key q.length else acc' ++ h.rest.take q.length := by
        intro acc' q hq
        have hl : (h.rest.take q.length).length = q.length := by simp; omega
        have hmk : (h.piece (h.rest.take q.length)).masked = highBit h.b1 := hmask.symm
        unfold Piece.onto
        rw [hmk]
        simp only [Header.piece, hl, unmask]
      have wait : ∀ m, (h.piece []).carries = true → (h.piece []).size = some m → h.rest.length < m →
          EndsAt s .waiting := by
        intro m hc hm hlen p hp he hpp
        obtain ⟨t, rfl⟩ := hpp
        rw [header_of hp he] at hh
        cases hh
        have hpeq : p = Header.piece ⟨p.b0, p.b1, p.ext, p.key, t⟩ [] := by
          cases p; simp only at he; subst he; rfl
        refine ⟨by rw [hpeq]; exact hc, m, by rw [hpeq]; exact hm, ?_⟩
        simp only [List.length_append]
        simp only at hlen
        omega
      simp only [dispatch]
      by_cases h1 : opcodeOf h.b0 = 0 ∨ opcodeOf h.b0 = 1 ∨ opcodeOf h.b0 = 2
      · have h1' : opcodeOf h.b0 ≤ 2 := by omega
        have hcar : ∀ q, (h.piece q).carries = true := fun q => by simp [Piece.carries, hpop, h1']
        have hgo : ∀ q, (h.piece q).goesOn = true := fun q => by simp [Piece.goesOn, hpop, h1']
        rw [if_pos h1]; unfold readPayload
        rw [length_of hok]
        cases hsz : (h.piece []).size with
        | none => exact ⟨[], s, rfl, by simp, rfl, h.piece [], hok, rfl, hpre, hcar _, hsz⟩
        | some m =>
          simp only
          by_cases hm : h.rest.length < m
          · rw [if_pos hm]
            exact ⟨[], s, rfl, by simp, rfl, wait m (hcar _) hsz hm⟩
          · rw [if_neg hm]
            have hl : (h.rest.take m).length = m := by simp; omega
            have hon := honto acc (h.rest.take m) (by omega)
            rw [hl] at hon
            generalize (if highBit h.b1 then unmask (acc ++ h.rest.take m) h.key m else acc ++ h.rest.take m) = P at hon ⊢
            obtain ⟨ps, left, e1, e2, e3, e4⟩ := ih (h.rest.drop m).length (by simp; omega)
              (if highBit h.b0 then [] else P)
              (h.rest.drop m) rfl
            refine ⟨h.piece (h.rest.take m) :: ps, left, ?_, ?_, ?_, ?_⟩
            · rw [List.flatMap_cons, hoct, List.append_assoc, List.append_assoc, ← e1, List.take_append_drop]
              exact hs
            · intro p hp
              rcases List.mem_cons.1 hp with rfl | hp
              · refine ⟨⟨hok' _, ?_⟩, hgo _⟩
                rw [if_pos (hcar _)]
                show (h.piece []).size = _
                rw [hsz]
                exact congrArg some hl.symm
              · exact e2 p hp
            · rw [collect, if_neg (by rw [hpop]; omega), if_neg (by rw [hpop]; omega), hon]
              have hf : (h.piece (h.rest.take m)).fin = highBit h.b0 := hfin.symm
              rw [hf]
              cases hb : highBit h.b0
              · rw [hb] at e3
                simp only [Bool.false_eq_true, if_false] at e3 ⊢
                exact e3
              · rw [hb] at e3
                simp only [if_true] at e3 ⊢
                rw [e3]
            · cases hb : highBit h.b0
              · rw [hb] at e4
                simp only [Bool.false_eq_true, if_false] at e4 ⊢
                exact e4
              · rw [hb] at e4
                simp only [if_true] at e4 ⊢
                exact e4
      · rw [if_neg h1]
        by_cases h2 : opcodeOf h.b0 = 8
        · rw [if_pos h2]; unfold readPayload
          have hcar : ∀ q, (h.piece q).carries = true := fun q => by simp [Piece.carries, hpop, h2]
          rw [length_of hok]
          cases hsz : (h.piece []).size with
          | none => exact ⟨[], s, rfl, by simp, rfl, h.piece [], hok, rfl, hpre, hcar _, hsz⟩
          | some m =>
            simp only
            by_cases hm : h.rest.length < m
            · rw [if_pos hm]
              exact ⟨[], s, rfl, by simp, rfl, wait m (hcar _) hsz hm⟩
            · rw [if_neg hm]
              have hl : (h.rest.take m).length = m := by simp; omega
              have hon := fun a => honto a (h.rest.take m) (by omega)
              rw [hl] at hon
              refine ⟨[], s, rfl, by simp, rfl, h.piece (h.rest.take m), ⟨hok' _, ?_⟩, by rw [hpop, h2],
                ⟨h.rest.drop m, ?_⟩, ?_⟩
              · rw [if_pos (hcar _)]
                show (h.piece []).size = _
                rw [hsz]
                exact congrArg some hl.symm
              · rw [hoct, List.append_assoc, List.take_append_drop]; exact hs.symm
              · rw [hon]
        · rw [if_neg h2]
          have hncar : (h.piece []).carries = false := by simp [Piece.carries, hpop]; omega
          have hoct9 : ∀ ps left, h.rest = ps.flatMap Piece.octets ++ left →
              s = (h.piece [] :: ps).flatMap Piece.octets ++ left := by
            intro ps left e
            rw [List.flatMap_cons, List.append_assoc, ← e]; exact hs
          by_cases h3 : opcodeOf h.b0 = 9
          · rw [if_pos h3]
            obtain ⟨ps, left, e1, e2, e3, e4⟩ := ih h.rest.length (by omega) acc h.rest rfl
            refine ⟨h.piece [] :: ps, left, hoct9 _ _ e1, ?_, ?_, e4⟩
            · intro p hp
              rcases List.mem_cons.1 hp with rfl | hp
              · exact ⟨⟨hok, by rw [hncar]; rfl⟩, by simp [Piece.goesOn, hpop, h3]⟩
              · exact e2 p hp
            · rw [collect, if_pos (by rw [hpop, h3])]
              simp only [e3]
          · rw [if_neg h3]
            by_cases h4 : opcodeOf h.b0 = 10
            · rw [if_pos h4]
              obtain ⟨ps, left, e1, e2, e3, e4⟩ := ih h.rest.length (by omega) acc h.rest rfl
              refine ⟨h.piece [] :: ps, left, hoct9 _ _ e1, ?_, ?_, e4⟩
              · intro p hp
                rcases List.mem_cons.1 hp with rfl | hp
                · exact ⟨⟨hok, by rw [hncar]; rfl⟩, by simp [Piece.goesOn, hpop, h4]⟩
                · exact e2 p hp
              · rw [collect, if_neg (by rw [hpop]; omega), if_pos (by rw [hpop, h4])]
                simp only [e3]
            · rw [if_neg h4]
              refine ⟨[], s, rfl, by simp, rfl, h.piece [], hok, rfl, hpre, hncar, ?_⟩
              simp [Piece.goesOn, hpop]
              omega

/-- Frames are taken apart in one way only. -/
theorem pieces_unique : ∀ (ps qs : List Piece) (s t : List Byte), (∀ p ∈ ps, p.Whole) → (∀ p ∈ qs, p.Whole) →
    ps.length = qs.length → ps.flatMap Piece.octets ++ s = qs.flatMap Piece.octets ++ t → ps = qs ∧ s = t := by
  intro ps
  induction ps with
  | nil =>
    intro qs s t _ _ hl e
    cases qs with
    | nil => exact ⟨rfl, by simpa using e⟩
    | cons q qs => simp at hl
  | cons p ps ih =>
    intro qs s t hp hq hl e
    cases qs with
    | nil => simp at hl
    | cons q qs =>
      obtain ⟨b0, b1, x, k, y⟩ := p
      obtain ⟨c0, c1, x', k', y'⟩ := q
      have wp := hp ⟨b0, b1, x, k, y⟩ (by simp)
      have wq := hq ⟨c0, c1, x', k', y'⟩ (by simp)
      simp only [List.flatMap_cons, Piece.octets, List.cons_append, List.append_assoc, List.cons.injEq] at e
      obtain ⟨rfl, rfl, e⟩ := e
      have h1 := wp.1.1.trans wq.1.1.symm
      obtain ⟨rfl, e2⟩ := List.append_inj e h1
      have h2 := wp.1.2.trans wq.1.2.symm
      obtain ⟨rfl, e3⟩ := List.append_inj e2 h2
      have h3 : y.length = y'.length := by
        have a := wp.2
        have b := wq.2
        cases hc : (Piece.mk b0 b1 x k y).carries
        · rw [hc] at a
          have hc' : (Piece.mk b0 b1 x k y').carries = false := hc
          rw [hc'] at b
          have a : y = [] := a
          have b : y' = [] := b
          rw [a, b]
        · rw [hc] at a
          have hc' : (Piece.mk b0 b1 x k y').carries = true := hc
          rw [hc'] at b
          have a : (Piece.mk b0 b1 x k y).size = some y.length := a
          have b : (Piece.mk b0 b1 x k y).size = some y'.length := b
          rw [a] at b
          exact Option.some.inj b
      obtain ⟨rfl, e4⟩ := List.append_inj e3 h3
      obtain ⟨rfl, rfl⟩ := ih qs s t (fun p h => hp p (by simp [h])) (fun p h => hq p (by simp [h]))
        (by simpa using hl) e4
      exact ⟨rfl, rfl⟩

/-- C09: if nothing is masked, the messages are the payloads of the frames that carry data, joined up to each final
frame. -/
theorem collect_unmasked (acc : List Byte) (ps : List Piece) (h : ∀ p ∈ ps, p.masked = false ∧ p.goesOn = true) :
    (collect acc ps) = (receive acc (ps.map fun p => ⟨p.fin, p.opcode, none, p.payload⟩)).1 := by
  induction ps generalizing acc with
  | nil => rfl
  | cons p ps ih =>
    obtain ⟨hm, hg⟩ := h p (by simp)
    have ih := fun acc => ih acc fun q hq => h q (by simp [hq])
    simp only [Piece.goesOn, Bool.or_eq_true, decide_eq_true_eq, beq_iff_eq] at hg
    have hon : p.onto acc = acc ++ p.payload := by simp [Piece.onto, hm]
    simp only [collect, List.map_cons, receive, hon, ih]
    by_cases h9 : p.opcode = 9
    · simp [h9]
    · by_cases h10 : p.opcode = 10
      · simp [h10]
      · have h2 : p.opcode ≤ 2 := by omega
        simp only [h9, h10, h2, if_true, if_false]
        cases p.fin <;> rfl

/-- Two frames of a message, one of them masked, a ping between them. -/
def samplePieces : List Piece :=
  [⟨0x01#8, 0x81#8, [], [1#8, 2#8, 3#8, 4#8], [64#8]⟩, ⟨0x89#8, 0x00#8, [], [], []⟩,
    ⟨0x80#8, 126#8, [0#8, 1#8], [], [66#8]⟩]

example : ∀ p ∈ samplePieces, p.Whole ∧ p.goesOn = true := by
  simp [samplePieces, Piece.Whole, Piece.HeaderOk, Piece.code, Piece.masked, Piece.carries, Piece.opcode, Piece.size,
    Piece.goesOn]
example : collect [] samplePieces = [.ping, .message (ascii "AB")] := by decide
example : EndsAt [0x81#8] .waiting := by
  rintro p - - ⟨t, ht⟩
  simp [Piece.octets] at ht

end Nbdl.Ws
