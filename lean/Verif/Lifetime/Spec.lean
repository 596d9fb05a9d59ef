import Verif.Lifetime.Model
/-! What the user of an endpoint relies on. -/
namespace Nbdl.Lifetime.Spec
open Endpoint (In)
variable {α : Type}

/-- What the user does in an event, in the handler or elsewhere. -/
def doneBy : Event α → List (Api α)
  | .user a => [a]
  | .shaken calls => calls
  | .net _ calls => calls

/-- The user never lets go of the pointer. -/
def Keeps (es : List (Event α)) : Prop := ∀ e ∈ es, Api.letGo ∉ doneBy e

/-- Nobody closes the connection: no call of the user and no close frame from the peer. -/
def NobodyCloses (es : List (Event α)) : Prop :=
  ∀ e ∈ es, Api.close ∉ doneBy e ∧ ∀ calls, e ≠ .net .readClose calls

/-- The state after the handshake. -/
def connected : St α := { shaking := false }

end Nbdl.Lifetime.Spec
