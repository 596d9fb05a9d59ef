import Verif.Optimist.Model
import Verif.Delta.Spec
/-! The words of the statements about clients that show changes at once. -/
namespace Nbdl.Optimist.Spec
open Delta Delta.Spec
variable {n : Nat} {T : Fin n → Type} {U : Type}

/-- The uids of the changes that are asked for. -/
def uids : List (Step U T) → List U
  | [] => []
  | .request _ u _ :: h => u :: uids h
  | .change u _ :: h => u :: uids h
  | _ :: h => uids h

/-- What the program of a client asks for, in order. -/
def asked (i : Nat) : List (Step U T) → List (Delta T)
  | [] => []
  | .request j _ d :: h => if j = i then d :: asked i h else asked i h
  | _ :: h => asked i h

/-- Nobody but client `i` asks for a change of the member. -/
def OnlyBy (i : Nat) (m : Fin n) : List (Step U T) → Prop
  | [] => True
  | .request j _ d :: h => (j ≠ i → d m = none) ∧ OnlyBy i m h
  | .change _ d :: h => d m = none ∧ OnlyBy i m h
  | _ :: h => OnlyBy i m h

/-- What the server has done: the changes in the order in which they were carried out. -/
def carriedOut [DecidableEq U] [∀ i, DecidableEq (T i)] (conf : Bool) : Sys U T → List (Step U T) → List (Delta T)
  | _, [] => []
  | s, x :: h =>
    (match x with
      | .serve i => (((s.clients[i]?.map (·.outbox)).getD []).take 1).map (·.2)
      | .change _ d => [d]
      | _ => []) ++ carriedOut conf (step conf s x) h

/-- All messages to and from the client have been read. -/
def Idle (c : Client U T) : Prop := c.inbox = [] ∧ c.outbox = []

end Nbdl.Optimist.Spec
