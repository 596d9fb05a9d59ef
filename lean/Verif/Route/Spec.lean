import Verif.Route.Model
/-!
# What a route text means
-/
namespace Nbdl.Route.Spec
open Route

/-- The text of a route: its name and its parameters, each after a slash. -/
def url (name : List Byte) (params : List (List Byte)) : List Byte :=
  (name :: params).flatMap (slash :: ·)

/-- A text that can stand between slashes. -/
def Segment (t : List Byte) : Prop := t ≠ [] ∧ slash ∉ t

def isDigit (c : Byte) : Prop := 48 ≤ c.toNat ∧ c.toNat ≤ 57

/-- The number a text of digits stands for. -/
def number (t : List Byte) : Nat := t.foldl (fun n c => n * 10 + (c.toNat - 48)) 0

/-- The parameter text stands for the member.  Numbers are taken modulo the size of `std::size_t` and then
of the member; none may be zero. -/
def Denotes (W : Nat) : PTy → List Byte → PVal → Prop
  | .str, t, v => v = .str t
  | .int bits signed, t, v =>
    (∀ c ∈ t, isDigit c) ∧ ∃ i, v = .int i ∧ i ≠ 0 ∧ i = wrap bits signed (number t % 2 ^ W)

/-- The members have the types. -/
def Typed : List PTy → List PVal → Prop
  | [], [] => True
  | .str :: ts, .str _ :: vs => Typed ts vs
  | .int bits signed :: ts, .int i :: vs =>
    (if signed then -(2 ^ bits : Int) ≤ 2 * i ∧ 2 * i < 2 ^ bits else 0 ≤ i ∧ i < 2 ^ bits) ∧ Typed ts vs
  | _, _ => False

/-- A route map as users write it: the names differ. -/
def Distinct (rm : List Pair) : Prop := (rm.map (·.name)).Nodup

/-- No route has more than nine members. -/
def Small (rm : List Pair) : Prop := ∀ p ∈ rm, p.members.length ≤ 9

/-- A member whose text can be read back. -/
def Readable (W : Nat) : PVal → Prop
  | .str s => Segment s
  | .int i => 0 < i ∧ i < 2 ^ W

/-- The parameters stand for the members, one by one. -/
def DenotesAll (W : Nat) : List PTy → List (List Byte) → List PVal → Prop
  | [], [], [] => True
  | t :: ts, x :: xs, v :: vs => Denotes W t x v ∧ DenotesAll W ts xs vs
  | _, _, _ => False

/-- The text `s` stands for the route value `v`: the name of the route and parameters for all members, with
or without a slash at the end; a single slash stands for a route with an empty name and no members. -/
def Means (W : Nat) (rm : List Pair) (s : List Byte) (v : Value) : Prop :=
  ∃ p, rm[v.idx]? = some p ∧ (∀ j < v.idx, ∀ q, rm[j]? = some q → q.name ≠ p.name) ∧
    ((s = [slash] ∧ p.name = [] ∧ p.members = [] ∧ v.members = []) ∨
      ∃ xs, Segment p.name ∧ (∀ x ∈ xs, Segment x) ∧ xs.length ≤ 9 ∧
        (s = url p.name xs ∨ (s = url p.name xs ++ [slash] ∧ xs.length < 9)) ∧
        DenotesAll W p.members xs v.members)

end Nbdl.Route.Spec
