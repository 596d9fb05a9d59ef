import Verif.Pipes.Model
import Verif.RawMsg.Spec
/-! The words of the statements about the example program with pipes. -/
namespace Nbdl.Pipes.Spec
variable {M X : Type}

/-- The bodies of the messages, up to the first one that cannot be encoded. -/
def bodies (encode : M → Except X (List Byte)) : List M → List (List Byte)
  | [] => []
  | m :: ms =>
    match encode m with
    | .ok b => b :: bodies encode ms
    | .error _ => []

/-- Every message can be encoded. -/
def Encodes (p : Prog M X) : Prop := ∀ m ∈ p.messages, ∃ b, p.encode m = .ok b

/-- No body is too long for its length field (see C70). -/
def Fits (p : Prog M X) : Prop := ∀ b ∈ bodies p.encode p.messages, b.length < 2 ^ 32

/-- No write and no read fails. -/
def Holds (h : List In) : Prop := (∀ e, .writeFailed e ∉ h) ∧ ∀ e, .lost e ∉ h

/-- Something can happen without a failure: the step changes the state. -/
def Moves (p : Prog M X) (s : Sys M X) : In → Prop
  | .attempt _ => s.op = some .connect
  | .wrote => ∃ b, s.op = some (.write b)
  | .arrive k => 0 < ((s.sent.drop s.got).take k).length
  | _ => False

/-- A sequence of such things. -/
def Busy (p : Prog M X) : Sys M X → List In → Prop
  | _, [] => True
  | s, i :: is => Moves p s i ∧ Busy p (step p s i) is

/-- Nothing can happen any more. -/
def Quiet (p : Prog M X) (s : Sys M X) : Prop := ∀ i, ¬ Moves p s i

/-- `io.run()` returns: no operation is outstanding (the client's, or a read of the server). -/
def Done (s : Sys M X) : Prop := s.op = none ∧ s.server = .finished

end Nbdl.Pipes.Spec
