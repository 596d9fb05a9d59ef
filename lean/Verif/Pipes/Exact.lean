import Verif.Pipes.Props
/-!
# When the process of the example ends (C134)
-/
namespace Nbdl.Pipes
open RawMsg.Spec (reception settles)
open Spec
variable {M X : Type}

/-- C134: if the connection holds and is made within the attempts, then the process ends, when nothing
more can happen, exactly if something in what the client can send settles the server's pipeline; and
this is the same for all such behaviours of the network. -/
theorem ends_exact (p : Prog M X) (hfit : Fits p) (h : List In) (hh : Holds h) (hq : Quiet p (run p h))
    (hc : (h.count (.attempt false) : Int) ≤ p.attempts) :
    Done (run p h) ↔ ∃ o ∈ reception p.app (bodies p.encode p.messages), settles o = true := by
  rw [done_iff p h hq, quiet_outcome_partial p hfit h hh hq hc]

/-- C134: with at least one attempt, the process ends whenever the connection holds and is made, exactly
if what the client can send settles the server's pipeline. -/
theorem always_ends_exact (p : Prog M X) (hfit : Fits p) (hatt : 0 ≤ p.attempts) :
    (∀ h, Holds h → Quiet p (run p h) → (h.count (.attempt false) : Int) ≤ p.attempts → Done (run p h))
    ↔ ∃ o ∈ reception p.app (bodies p.encode p.messages), settles o = true := by
  constructor
  · intro hx
    obtain ⟨h, -, hh, h0, hq⟩ := quiet_reached p
    have hc : (h.count (.attempt false) : Int) ≤ p.attempts := by rw [h0]; simpa using hatt
    exact (ends_exact p hfit h hh hq hc).mp (hx h hh hq hc)
  · exact fun hs h hh hq hc => (ends_exact p hfit h hh hq hc).mpr hs

/-- With the terminating message, and with one before it that cannot be encoded. -/
example : (∃ o ∈ reception (sample [5, 6, 1]).app (bodies (sample [5, 6, 1]).encode (sample [5, 6, 1]).messages), settles o = true)
    ∧ ¬ ∃ o ∈ reception (sample [5, 250, 1]).app (bodies (sample [5, 250, 1]).encode (sample [5, 250, 1]).messages),
      settles o = true := by decide +kernel

end Nbdl.Pipes
