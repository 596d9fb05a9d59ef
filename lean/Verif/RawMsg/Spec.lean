import Verif.RawMsg.Model
/-!
What the properties of length-prefixed messages say.
-/
namespace Nbdl.RawMsg.Spec
open Nbdl.RawMsg

/-- What a receiver that is given the bodies `bs` in order does, up to and including the first one
that ends the reception: an undecodable body, a message whose action throws, or the terminating
message.  Unresolved messages are skipped. -/
def reception {M : Type} (app : App M) : List (List Byte) → List (Obs M)
  | [] => []
  | b :: bs =>
    match app.parse b with
    | none => [.rejected]
    | some m =>
      if app.kind m = .unresolved then reception app bs
      else if app.throws m then [.action m, .rejected]
      else if app.kind m = .terminate then [.action m, .closed, .resolved m]
      else .action m :: reception app bs

/-- An observation that settles the promise. -/
def settles {M : Type} : Obs M → Bool
  | .resolved _ => true
  | .rejected => true
  | .rejectedIo _ => true
  | _ => false

end Nbdl.RawMsg.Spec
