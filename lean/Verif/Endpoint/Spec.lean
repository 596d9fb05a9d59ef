import Verif.Endpoint.Model
/-!
What the endpoint properties say, in terms of observations only.
-/
namespace Nbdl.Endpoint.Spec
variable {α : Type}

/-- The messages handed to `send_message`, in order. -/
def accepted : List (Obs α) → List α
  | [] => []
  | .accepted m :: t => m :: accepted t
  | _ :: t => accepted t

/-- The data messages completely written to the network, in order. -/
def written : List (Obs α) → List α
  | [] => []
  | .wrote (.data m) :: t => m :: written t
  | _ :: t => written t

/-- The write in progress after a trace. -/
def inFlight (cur : Option (Frame α)) : List (Obs α) → Option (Frame α)
  | [] => cur
  | .begin f :: t => inFlight (some f) t
  | .wrote _ :: t => inFlight none t
  | .failed _ :: t => inFlight none t
  | _ :: t => inFlight cur t

/-- Writes do not overlap: a write begins only when none is in progress. -/
def Serial (t : List (Obs α)) : Prop :=
  ∀ pre f post, t = pre ++ .begin f :: post → inFlight none pre = none

/-- How often the user was told of the close. -/
def closeNotes [DecidableEq α] (t : List (Obs α)) : Nat := t.count (.note .close)

end Nbdl.Endpoint.Spec
