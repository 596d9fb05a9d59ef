import Verif.Macros.Decl

/-!
# Specification of the declaring macros

The texts a user expects, without tables, counts or arithmetic on macro names.
-/

namespace Nbdl.Macros

/-- What a user writes in the parentheses: a name, and then names, separated by commas. -/
def written (record : List Tok) (names : List (List Byte)) : List Tok :=
  record ++ (names.map fun x => [Tok.comma, .id x]).flatten

/-- Every one of `depth` open parentheses, and of those opened in the text, is closed in it, and commas are
only inside of parentheses. -/
def closes : Nat → List Tok → Bool
  | depth, [] => depth == 0
  | depth, .lpar :: ts => closes (depth + 1) ts
  | 0, .rpar :: _ => false
  | depth + 1, .rpar :: ts => closes depth ts
  | 0, .comma :: _ => false
  | depth, _ :: ts => closes depth ts

/-- No commas outside of parentheses, and parentheses in pairs. -/
def Plain (text : List Tok) : Prop := closes 0 text = true

/-- `text, text, …` -/
def commas : List (List Tok) → List Tok
  | [] => []
  | [t] => t
  | t :: ts => t ++ .comma :: commas ts

/-- `NBDL_MEMBER(&record::x)` -/
def memberText (record : List Tok) (x : List Byte) : List Tok :=
  [.member, .lpar, .amp] ++ record ++ [.colons, .id x, .rpar]

/-- `NBDL_MEMBER_NAME(record, x);` -/
def nameText (record : List Tok) (x : List Byte) : List Tok :=
  [.memberName, .lpar] ++ record ++ [.comma, .id x, .rpar, .semi]

/-- `NBDL_MEMBER_ID(&record::x, size - k)`, which gives the member the number `size - k`. -/
def idText (record : List Tok) (x : List Byte) (size k : Nat) : List Tok :=
  [.memberId, .lpar, .amp] ++ record ++ [.colons, .id x, .comma, .num size, .minus, .num k, .rpar]

/-- `static constexpr auto x = at_c<length - k>;`, which makes `x` the key with the index
`length - k`. -/
def keyText (x : List Byte) (k : Nat) : List Tok :=
  [.kwStatic, .kwConstexpr, .kwAuto, .id x, .eq, .atC, .lt, .length, .minus, .num k, .gt, .semi]

/-- The keys of a meta struct with `n` of them are used once each. -/
def Complete {V : Type} (n : Nat) (pairs : List (Nat × V)) : Prop :=
  (pairs.map Prod.fst).Perm (List.range n)

end Nbdl.Macros
