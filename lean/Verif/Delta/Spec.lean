import Verif.Delta.Model
/-! Specification vocabulary for deltas and local versions: what writing members means. -/
namespace Nbdl.Delta.Spec
variable {n : Nat} {T : Fin n → Type} {U : Type}

/-- The record with the members named by a delta overwritten. -/
def patch (d : Delta T) (r : Record T) : Record T := fun i => (d i).getD (r i)

/-- Patching with several deltas, first to last. -/
def patches (ds : List (Delta T)) (r : Record T) : Record T := ds.foldl (fun r d => patch d r) r

/-- The deltas requested by this client, in order. -/
def requested : List (Msg U T) → List (Delta T)
  | [] => []
  | .request _ d :: h => d :: requested h
  | _ :: h => requested h

/-- The authoritative record: only what the producer has said counts. -/
def authoritative (r : Record T) : List (Msg U T) → Record T
  | [] => r
  | .request _ _ :: h => authoritative r h
  | .confirmed _ d :: h => authoritative (patch d r) h
  | .replace v :: h => authoritative v h

/-- `d'` writes every member that `d` writes. -/
def Covers (d' d : Delta T) : Prop := ∀ i, (d i).isSome → (d' i).isSome

/-- Histories of this client's requests and foreign updates in which requests have fresh uids, are
confirmed at most once, in any order, and a confirmation writes every member its request wrote.
`open_` are the outstanding requests. -/
inductive Fair : List (U × Delta T) → List (Msg U T) → Prop
  | nil (o) : Fair o []
  | request (o u d h) (fresh : ∀ x ∈ o, x.1 ≠ u) : Fair (o ++ [(u, d)]) h → Fair o (.request u d :: h)
  | confirm (o₁ o₂ u d d' h) (covers : Covers d' d) :
      Fair (o₁ ++ o₂) h → Fair (o₁ ++ (u, d) :: o₂) (.confirmed u d' :: h)
  | foreign (o u d h) (other : ∀ x ∈ o, x.1 ≠ u) : Fair o h → Fair o (.confirmed u d :: h)

/-- Histories of requests and their confirmations only, confirmed as requested and in order. -/
inductive InOrder : List (U × Delta T) → List (Msg U T) → Prop
  | nil (o) : InOrder o []
  | request (o u d h) (fresh : ∀ x ∈ o, x.1 ≠ u) : InOrder (o ++ [(u, d)]) h → InOrder o (.request u d :: h)
  | confirm (o u d h) : InOrder o h → InOrder ((u, d) :: o) (.confirmed u d :: h)

/-- The requests still outstanding after a history. -/
def outstanding [DecidableEq U] (o : List U) : List (Msg U T) → List U
  | [] => o
  | .request u _ :: h => outstanding (o ++ [u]) h
  | .confirmed u _ :: h => outstanding (o.erase u) h
  | .replace _ :: h => outstanding o h

end Nbdl.Delta.Spec
