import Verif.Common
/-!
# Deltas and local versions

Models `/repo/include/nbdl/delta.hpp`, `/repo/include/nbdl/make_delta.hpp`,
`/repo/include/nbdl/apply_delta.hpp` and `/repo/include/nbdl/local_version.hpp`.

A record is a `BindableSequence` of `n` members; member `i` has type `T i`, whose `hana::equal` is
taken to be equality.  Simplification: members are treated at once instead of from left to right;
the code treats each of them on its own.
-/
namespace Nbdl.Delta
variable {n : Nat} {T : Fin n → Type}

/-- A `BindableSequence` with `n` members. -/
abbrev Record (T : Fin n → Type) := ∀ i, T i

/-- `nbdl::delta<Bindable>`, delta.hpp:21-43: an `optional` for each member. -/
abbrev Delta (T : Fin n → Type) := ∀ i, Option (T i)

/-- Default constructed delta (delta.hpp:30): every optional holds `nothing`. -/
def Delta.none : Delta T := fun _ => Option.none

/-- `make_delta(e1)`, delta.hpp:48-60 -/
def makeFull (e : Record T) : Delta T := fun i => some (e i)

/-- `make_delta(e1, e2)`, delta.hpp:62-79 -/
def make [∀ i, DecidableEq (T i)] (e1 e2 : Record T) : Delta T :=
  fun i => if e1 i = e2 i then Option.none else some (e1 i)

/-- One member of `apply_delta` on a record, delta.hpp:104-114: the new member and whether it was set. -/
def applyMember {A : Type} [DecidableEq A] (opt : Option A) (x : A) : A × Bool :=
  match opt with
  | .none => (x, false)
  | some value => if value = x then (x, false) else (value, true)

/-- `apply_delta` on a record, delta.hpp:82-120: the new record and the returned flag. -/
def apply [∀ i, DecidableEq (T i)] (d : Delta T) (b : Record T) : Record T × Bool :=
  (fun i => (applyMember (d i) (b i)).1, (List.finRange n).any fun i => (applyMember (d i) (b i)).2)

/-- `apply_delta` on another delta, delta.hpp:82-120.  Its members are optionals, which never compare
equal to a plain value (`hana::equal` of unrelated tags is false), so a present value is always
assigned.  The returned flag is ignored by every caller. -/
def applyDelta (d : Delta T) (b : Delta T) : Delta T :=
  fun i => match d i with
    | .none => b i
    | some value => some value

/-- `local_version`, local_version.hpp:87-108.  Simplification: the set of uids is a list without
duplicates. -/
structure LocalVersion (U : Type) (T : Fin n → Type) where
  value : Record T
  pending : Delta T
  uids : List U

variable {U : Type} [DecidableEq U] [∀ i, DecidableEq (T i)]

/-- Constructor from a value, local_version.hpp:103-107 -/
def LocalVersion.init (v : Record T) : LocalVersion U T := ⟨v, Delta.none, []⟩

/-- `unordered_set::insert` -/
def insertUid (u : U) (us : List U) : List U := if u ∈ us then us else us ++ [u]

/-- `apply_local_delta`, local_version.hpp:36-44 -/
def applyLocal (s : LocalVersion U T) (u : U) (d : Delta T) : LocalVersion U T × Bool :=
  (⟨(apply d s.value).1, applyDelta d s.pending, insertUid u s.uids⟩, (apply d s.value).2)

/-- `apply_confirmed_delta`, local_version.hpp:46-78 -/
def applyConfirmed (s : LocalVersion U T) (u : U) (d : Delta T) : LocalVersion U T × Bool :=
  if u ∈ s.uids then
    if s.uids.erase u = [] then
      (⟨(apply (applyDelta d s.pending) s.value).1, Delta.none, s.uids.erase u⟩,
        (apply (applyDelta d s.pending) s.value).2)
    else
      (⟨s.value, applyDelta d s.pending, s.uids.erase u⟩, false)
  else
    (⟨(apply d s.value).1, applyDelta d s.pending, s.uids⟩, (apply d s.value).2)

/-- The messages a local version distinguishes. -/
inductive Msg (U : Type) (T : Fin n → Type) where
  /-- a delta that is not confirmed -/
  | request (u : U) (d : Delta T)
  /-- a confirmed delta -/
  | confirmed (u : U) (d : Delta T)
  /-- any other payload: `apply_action` (apply_action.hpp:53-68) assigns it -/
  | replace (v : Record T)

/-- `apply_message`, local_version.hpp:110-168: the new state and the returned value.  The branch for
deltas discards the flag and returns `void` (131-155): `none` here. -/
def applyMessage (s : LocalVersion U T) : Msg U T → LocalVersion U T × Option Bool
  | .request u d => ((applyLocal s u d).1, .none)
  | .confirmed u d => ((applyConfirmed s u d).1, .none)
  | .replace v => ({ s with value := v }, some true)

/-- A history of messages. -/
def runAll (s : LocalVersion U T) (h : List (Msg U T)) : LocalVersion U T :=
  h.foldl (fun s m => (applyMessage s m).1) s

end Nbdl.Delta
