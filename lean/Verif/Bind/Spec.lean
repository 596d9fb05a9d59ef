import Verif.Bind.Model
/-!
Which JSON documents describe which values.  `describes false` is what is meant; `describes true` is
what the reader accepts: the differences are written `if lax then … else …`.
-/
namespace Nbdl.Bind.Spec

/-- The names of members or alternatives. -/
def names : Tys → List Name
  | .nil => []
  | .cons n _ ts => n :: names ts

/-- Two lists of the same length, related one by one. -/
def All2 {α β : Type} (R : α → β → Prop) : List α → List β → Prop
  | [], [] => True
  | a :: as, b :: bs => R a b ∧ All2 R as bs
  | _, _ => False

/-- A variant's document: its index and, unless that alternative is empty, its value. -/
def altDoc (lax : Bool) (isEmpty : Bool) (i : Nat) (j : Json) (value : Json → Prop) : Prop :=
  (lax = true → i < 2 ^ 31) ∧
    if isEmpty then j = .num i else ∃ x, j = .arr [.num i, x] ∧ value x

mutual
def describes (lax : Bool) : (t : Ty) → Json → denote t → Prop
  | .empty, j, _ => if lax then True else j = .null
  | .uint, j, n => j = .num n.toNat
  | .int, j, n => j = .num n.toInt
  | .enum, j, n => if lax then j = .num n.toNat else j = .num n.toInt
  | .str, j, s => if lax then ∃ s', j = .str s' ∧ s = s'.takeWhile (· ≠ 0#8) else j = .str s
  | .buf, j, b =>
    if lax then ∃ s' ok, j = .str s' ∧ Base64.decode2 true (s'.takeWhile (· ≠ 0#8)) [] = .ok (ok, b)
    else j = .str (Base64.Spec.encode b)
  | .fixed n, j, b =>
    if lax then ∃ s' ok out, j = .str s'
      ∧ Base64.decode2 false (s'.takeWhile (· ≠ 0#8)) (List.replicate n 0#8) = .ok (ok, out)
      ∧ b = fun i : Fin n => out.getD i 0#8
    else j = .str (Base64.Spec.encode (List.ofFn b))
  | .cont t, j, vs => ∃ js, j = .arr js ∧ All2 (describes lax t) js vs
  | .seq ts, j, v =>
    match ts.count with
    | 0 => if lax then True else j = .null
    | 1 => describesMany lax ts [j] v
    | _ => ∃ js, j = .arr js ∧ describesMany lax ts js v
  | .record ts, j, v =>
    if lax then describesNamed true ts j v
    else match ts with
      | .nil => j = .null
      | ts => (∃ ms, j = .obj ms) ∧ describesNamed false ts j v
  | .var t ts, j, .inl v =>
    altDoc lax t.isEmpty 0 j (describes lax t · v)
    ∨ (lax = true ∧ v = init t ∧ ∃ id, typeId j = some id ∧ ¬ (0 ≤ id ∧ id < (names ts).length + 1))
  | .var _ ts, j, .inr v => describesAlts lax ts 1 j v
/-- The members that are not empty, one document each. -/
def describesMany (lax : Bool) : (ts : Tys) → List Json → members ts → Prop
  | .nil, js, _ => js = []
  | .cons _ t ts, js, v =>
    if t.isEmpty then describesMany lax ts js v.2
    else ∃ j js', js = j :: js' ∧ describes lax t j v.1 ∧ describesMany lax ts js' v.2
/-- Every member is found under its name. -/
def describesNamed (lax : Bool) : (ts : Tys) → Json → members ts → Prop
  | .nil, _, _ => True
  | .cons name t ts, j, v =>
    (∃ m, member j name = some m ∧ describes lax t m v.1) ∧ describesNamed lax ts j v.2
/-- One of the alternatives from the `i`-th on. -/
def describesAlts (lax : Bool) : (ts : Tys) → Nat → Json → alts ts → Prop
  | .cons _ t _, i, j, .inl v => altDoc lax t.isEmpty i j (describes lax t · v)
  | .cons _ _ ts, i, j, .inr v => describesAlts lax ts (i + 1) j v
end

mutual
/-- The values that survive being written and read: strings without NUL, enumerators that are not
negative, buffers small enough to encode, and no empty containers, at any depth. -/
def Kept : (t : Ty) → denote t → Prop
  | .empty, _ => True
  | .uint, _ => True
  | .int, _ => True
  | .enum, n => 0 ≤ n.toInt
  | .str, s => 0#8 ∉ s
  | .buf, b => 4 * b.length < 2 ^ 31
  | .fixed _, _ => True
  | .cont t, vs => vs ≠ [] ∧ ∀ v ∈ vs, Kept t v
  | .seq ts, v => KeptAll ts v
  | .record ts, v => KeptAll ts v
  | .var t _, .inl v => Kept t v
  | .var _ ts, .inr v => KeptAlt ts 1 v
def KeptAll : (ts : Tys) → members ts → Prop
  | .nil, _ => True
  | .cons _ t ts, v => Kept t v.1 ∧ KeptAll ts v.2
/-- (Indices of alternatives are `int`s.) -/
def KeptAlt : (ts : Tys) → Nat → alts ts → Prop
  | .cons _ t _, i, .inl v => i < 2 ^ 31 ∧ Kept t v
  | .cons _ _ ts, i, .inr v => KeptAlt ts (i + 1) v
end

mutual
/-- The members of a record have different names, and no array has 2^29 bytes or more. -/
def Wf : Ty → Prop
  | .fixed n => 4 * n < 2 ^ 31
  | .cont t => Wf t
  | .seq ts => WfAll ts
  | .record ts => (names ts).Nodup ∧ WfAll ts
  | .var t ts => Wf t ∧ WfAll ts
  | _ => True
def WfAll : Tys → Prop
  | .nil => True
  | .cons _ t ts => Wf t ∧ WfAll ts
end

mutual
/-- Types made of numbers and strings only, without empty parts. -/
def Strict : Ty → Prop
  | .uint => True
  | .int => True
  | .str => True
  | .cont t => Strict t
  | .seq ts => ts ≠ .nil ∧ StrictAll ts
  | .record ts => ts ≠ .nil ∧ StrictAll ts
  | _ => False
def StrictAll : Tys → Prop
  | .nil => True
  | .cons _ t ts => Strict t ∧ StrictAll ts
end

mutual
/-- No string in the document contains NUL. -/
def NulFree : Json → Prop
  | .str s => 0#8 ∉ s
  | .arr js => NulFreeAll js
  | .obj ms => NulFreeMembers ms
  | _ => True
def NulFreeAll : List Json → Prop
  | [] => True
  | j :: js => NulFree j ∧ NulFreeAll js
def NulFreeMembers : List (Name × Json) → Prop
  | [] => True
  | m :: ms => NulFreeMember m ∧ NulFreeMembers ms
def NulFreeMember : Name × Json → Prop
  | (_, j) => NulFree j
end

end Nbdl.Bind.Spec
