import Verif.Print.Model
/-!
What the property of printing says.
-/
namespace Nbdl.Print.Spec
open Nbdl.Print

mutual
/-- Two values of one type: they differ in nothing but what their leaves hold. -/
def SameType : Val → Val → Prop
  | .leaf _, .leaf _ => True
  | .const t, .const t' => t = t'
  | .str t, .str t' => t = t'
  | .nothing, .nothing => True
  | .just v, .just v' => SameType v v'
  | .pair a b, .pair a' b' => SameType a a' ∧ SameType b b'
  | .seq xs, .seq ys => SameTypes xs ys
  | .set xs, .set ys => SameTypes xs ys
  | .map es, .map es' => SameEntries es es'
  | _, _ => False
/-- See `SameType`. -/
def SameTypes : Vals → Vals → Prop
  | .nil, .nil => True
  | .cons v vs, .cons w ws => SameType v w ∧ SameTypes vs ws
  | _, _ => False
/-- See `SameType`. -/
def SameEntries : Entries → Entries → Prop
  | .nil, .nil => True
  | .cons k v es, .cons k' v' es' => SameType k k' ∧ SameType v v' ∧ SameEntries es es'
  | _, _ => False
end

/-- No character of the text can be taken for the end of an element: no `,`, `)` or `}`, and no ` =`. -/
def Plain : Text → Prop
  | [] => True
  | c :: cs => c ≠ ',' ∧ c ≠ ')' ∧ c ≠ '}' ∧ ¬ (c = ' ' ∧ cs.head? = some '=') ∧ Plain cs

mutual
/-- All the leaves are plain. -/
def PlainLeaves : Val → Prop
  | .leaf t => Plain t
  | .const _ => True
  | .str _ => True
  | .nothing => True
  | .just v => PlainLeaves v
  | .pair a b => PlainLeaves a ∧ PlainLeaves b
  | .seq xs => PlainAll xs
  | .set xs => PlainAll xs
  | .map es => PlainEntries es
/-- See `PlainLeaves`. -/
def PlainAll : Vals → Prop
  | .nil => True
  | .cons v vs => PlainLeaves v ∧ PlainAll vs
/-- See `PlainLeaves`. -/
def PlainEntries : Entries → Prop
  | .nil => True
  | .cons k v es => PlainLeaves k ∧ PlainLeaves v ∧ PlainEntries es
end

/-- The texts one after the other with `, ` between them. -/
def commas : List Text → Text
  | [] => []
  | [t] => t
  | t :: ts => t ++ ", ".toList ++ commas ts

/-- The elements in order. -/
def elements : Vals → List Val
  | .nil => []
  | .cons v vs => v :: elements vs

/-- The pairs in order. -/
def entries : Entries → List (Val × Val)
  | .nil => []
  | .cons k v es => (k, v) :: entries es

end Nbdl.Print.Spec
