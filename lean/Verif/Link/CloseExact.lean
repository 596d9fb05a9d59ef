import Verif.Link.FarewellExact
import Verif.Endpoint.CloseCuts
/-!
# Which messages reach the other user before the close (C110)
-/
namespace Nbdl.Link
open Nbdl.Endpoint (St In Obs Frame Err Note trace)
open Nbdl.Ws (opText opBinary glue)
open Nbdl.Endpoint.Spec (accepted inFlight flying onWire)

/-- What has been written or is being written is a beginning of what was accepted. -/
theorem begun_prefix (conv : Bool) (is : List (In Msg)) :
    onWire (trace conv is) <+: accepted (trace conv is) := by
  rw [onWire]
  obtain ⟨h1, h2⟩ := Endpoint.queue_fifo_lossless conv is
  cases hi : inFlight none (trace conv is) with
  | none => exact ⟨(Endpoint.exec conv {} is).1.queue, by rw [h1]; simp [flying]⟩
  | some f =>
    cases f with
    | data m =>
      obtain ⟨rest, hr⟩ := h2 m hi
      exact ⟨rest, by rw [hr]; simp [flying]⟩
    | close => exact ⟨(Endpoint.exec conv {} is).1.queue, by rw [h1]; simp [flying]⟩
    | pong => exact ⟨(Endpoint.exec conv {} is).1.queue, by rw [h1]; simp [flying]⟩

/-- C110, exactly: when a user of two used endpoints called `send_close`, no write failed, the connection held and nothing is
left to do, then the other user was handed the messages that were written or being written when it was called, and no
others.  So all messages sent before reach the other user exactly if none of them was still waiting at that time. -/
theorem close_delivers_exact (c : Conf) (hop : c.op = opText ∨ c.op = opBinary)
    (xs : List (Bool × Act)) (n : Net) (h : talk c xs = .ok n) (hs : Sound xs) (hc : Connected xs)
    (hu : Used n.a ∧ Used n.b) (hset : Settled c n) (w : Bool) (is js : List (In Msg))
    (he : (n.me w).ins = is ++ .close :: js) :
    handedTo c (n.me (!w)) = glue 125 [] (onWire (trace c.conv is))
    ∧ ((∀ m ∈ accepted (trace c.conv is), Fits m) →
      (accepted (trace c.conv is) <+: handedTo c (n.me (!w)) ↔
        accepted (trace c.conv is) = onWire (trace c.conv is))) := by
  have hw := settled_written_exact c hop xs n h hs hc hu hset
  have hid := (settled_both hop h hs hc hu hset).1
  obtain ⟨n', e, -, hf⟩ := pair_talk hop xs
  rw [h] at e
  cases e
  have hme : handedTo c (n.me (!w)) = glue 125 [] (Endpoint.Spec.written ((n.me w).seen c)) ∧ Idle c (n.me w) ∧ NoFail (n.me w) := by
    cases w with
    | true => exact ⟨hw.1, hid.1, (hf hs).1⟩
    | false => exact ⟨hw.2, hid.2, (hf hs).2⟩
  obtain ⟨hh, hi, hn⟩ := hme
  have hfj : ∀ e, In.writeFailed e ∉ js := by
    intro x hx
    exact hn x (by rw [he]; simp [hx])
  have hcut := Endpoint.written_after_close_exact c.conv is js hfj
  rw [← he] at hcut
  have hid' : inFlight none (trace c.conv (n.me w).ins) = none := hi
  rw [onWire, hid'] at hcut
  have hcut' : Endpoint.Spec.written ((n.me w).seen c) = onWire (trace c.conv is) := by
    rw [← hcut]; exact (List.append_nil _).symm
  rw [hcut'] at hh
  refine ⟨hh, fun hfit => ?_⟩
  have hp := begun_prefix c.conv is
  rw [hh, glue_fits _ (fun m hm => hfit m (hp.subset hm))]
  constructor
  · intro hq
    exact hq.eq_of_length (Nat.le_antisymm hq.length_le hp.length_le)
  · intro hq
    exact ⟨[], by rw [List.append_nil]; exact hq⟩

/-- The hypotheses are met, and both cases happen: in the history of `close_overtakes_violated` one of the messages
waits when the close is asked for. -/
example : accepted (trace true [.start, .send [1#8], .send [2#8]]) ≠
      onWire (trace true [.start, .send [1#8], .send [2#8]])
    ∧ accepted (trace true [.start, .send [1#8], .wrote, .send [2#8]]) =
      onWire (trace true [.start, .send [1#8], .wrote, .send [2#8]]) := by decide

end Nbdl.Link
