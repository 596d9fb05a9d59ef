import Verif.ApiSig.Model
/-!
# When two programs understand each other (C102)
-/
namespace Nbdl.ApiSig.Spec
open Nbdl.Bind

/-- Two types with one format of documents: what is written for a value of the one is written for a value
of the other, and a document that is read as the one is read as the other, with the same meaning (the
value read is written as the same document). -/
def SameWire (t t' : Ty) : Prop :=
  (∀ v : denote t, ∃ v' : denote t', write t' v' = write t v) ∧
  (∀ v' : denote t', ∃ v : denote t, write t v = write t' v') ∧
  ∀ j, (read t j (init t)).map (write t) = (read t' j (init t')).map (write t')

mutual
/-- The sizes of the buffers of fixed size, in order. -/
def sizes : CppTy → List Nat
  | .fixed n => [n]
  | .cont t => sizes t
  | .seq ts => sizesAll ts
  | .map ts => sizesAll ts
  | .entity ts => sizesAll ts
  | .var t ts => sizes t ++ sizesAll ts
  | _ => []
def sizesAll : CppTys → List Nat
  | .nil => []
  | .cons _ t ts => sizes t ++ sizesAll ts
end

mutual
/-- No entity and no enumeration anywhere. -/
def Signable : CppTy → Prop
  | .enum => False
  | .entity _ => False
  | .cont t => Signable t
  | .seq ts => SignableAll ts
  | .map ts => SignableAll ts
  | .var t ts => Signable t ∧ SignableAll ts
  | _ => True
def SignableAll : CppTys → Prop
  | .nil => True
  | .cons _ t ts => Signable t ∧ SignableAll ts
end

/-- A name without brackets and commas. -/
def Plain (n : Text) : Prop := n ≠ [] ∧ ∀ c ∈ n, c ≠ lt ∧ c ≠ gt ∧ c ≠ comma

instance (n : Text) : Decidable (Plain n) := inferInstanceAs (Decidable (_ ∧ ∀ c ∈ n, _))

/-- A name which a class of a program can have: not that of a fundamental type, and outside of the
namespace of the tags. -/
def UserName (n : Text) : Prop := Plain n ∧ (∀ f : Fund, n ≠ f.name) ∧ ¬ tagNs <+: n

mutual
/-- All names are such. -/
def Named : CppTy → Prop
  | .cls n => UserName n
  | .type n => Plain n
  | .const v => Plain v
  | .cont t => Named t
  | .seq ts => NamedAll ts
  | .map ts => NamedAll ts
  | .entity ts => NamedAll ts
  | .var t ts => Named t ∧ NamedAll ts
  | _ => True
def NamedAll : CppTys → Prop
  | .nil => True
  | .cons _ t ts => Named t ∧ NamedAll ts
end

/-- The compiler writes different characters differently, without brackets and commas. -/
def Writes (chr : Byte → Text) : Prop := (∀ a b, chr a = chr b → a = b) ∧ ∀ a, Plain (chr a)

end Nbdl.ApiSig.Spec
