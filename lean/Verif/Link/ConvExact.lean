import Verif.Link.Props
/-! C109: exactly what is handed over, for messages of all lengths. -/
namespace Nbdl.Link
open Nbdl.Endpoint (St In Obs Frame Err Note)
open Nbdl.Ws (opText opBinary glue)

theorem glue_length_le (k : Nat) : ∀ (xs : List Msg) (acc : Msg), (glue k acc xs).length ≤ xs.length
  | [], _ => Nat.le_refl _
  | x :: xs, acc => by
    unfold glue
    split
    · exact Nat.le_succ_of_le (glue_length_le k xs _)
    · exact Nat.succ_le_succ (glue_length_le k xs _)

theorem glue_eq_iff : ∀ (xs : List Msg), glue 125 [] xs = xs ↔ ∀ m ∈ xs, Fits m
  | [] => by simp [glue]
  | x :: xs => by
    constructor
    · intro h
      unfold glue at h
      split at h
      · have := congrArg List.length h
        have := glue_length_le 125 xs ([] ++ x)
        simp only [List.length_cons] at *
        omega
      · rename_i hx
        injection h with _ h
        intro m hm
        rcases List.mem_cons.1 hm with rfl | hm
        · by_cases h0 : m = []
          · exact .inl h0
          · exact .inr fun h1 => hx ⟨h1, h0⟩
        · exact (glue_eq_iff xs).1 h m hm
    · exact glue_fits _

/-- C109, for messages of all lengths: at any moment a user was handed a beginning of the other's messages, in order and
each once, where each message whose length is a positive multiple of 125 is put in front of the one after it. -/
theorem conversation_in_order_exact (c : Conf) (hop : c.op = opText ∨ c.op = opBinary)
    (xs : List (Bool × Act)) (n : Net) (h : talk c xs = .ok n) :
    handedTo c n.b <+: glue 125 [] (sentBy c n.a) ∧ handedTo c n.a <+: glue 125 [] (sentBy c n.b) := by
  obtain ⟨n', e, hp, -⟩ := pair_talk hop xs
  rw [h] at e
  cases e
  exact ⟨handed_glued hop hp.symm, handed_glued hop hp⟩

/-- C109, exactly: when the sender is done writing and everything has arrived, the other user was handed what was sent,
if and only if no message has a length that is a positive multiple of 125. -/
theorem conversation_delivered_exact (c : Conf) (hop : c.op = opText ∨ c.op = opBinary)
    (xs : List (Bool × Act)) (n : Net) (h : talk c xs = .ok n) (hs : Sound xs)
    (hstart : In.start ∈ n.a.ins) (hstop : In.stop ∉ n.a.ins ∧ In.stop ∉ n.b.ins)
    (hclose : In.close ∉ n.a.ins ∧ In.close ∉ n.b.ins) (hi : Idle c n.a) (ha : Arrived c n.a n.b) :
    handedTo c n.b = glue 125 [] (sentBy c n.a)
    ∧ (handedTo c n.b = sentBy c n.a ↔ ∀ m ∈ sentBy c n.a, m = [] ∨ m.length % 125 ≠ 0) := by
  obtain ⟨n', e, hp, hf⟩ := pair_talk hop xs
  rw [h] at e
  cases e
  have := delivered_exact hop hp (hf hs).1 (hf hs).2 hstart hstop hclose hi ha
  exact ⟨this, by rw [this]; exact glue_eq_iff _⟩

/-- A message of 125 bytes and a short one arrive as one. -/
example : glue 125 [] [[1#8], List.replicate 125 (0#8), [2#8], []] = [[1#8], List.replicate 125 (0#8) ++ [2#8], []] := by
  decide +kernel

end Nbdl.Link
