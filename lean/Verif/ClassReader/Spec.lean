import Verif.Reader.Spec
import Verif.StoreDef.Spec
/-!
# Reading C++ classes

A reader of the part of C++ that the spec compiler's store definitions use: from the tokens of `Reader/Spec.lean` to
the tree of `StoreDef/Spec.lean`.  This is a specification: it models the C++ language ([class], [class.base.init],
[dcl.fct]), not code of /repo.

Simplifications.
* Types are (qualified) names with or without template arguments.  In template arguments all brackets nest, angle
  brackets too; text where they do not is refused.
* The text of an argument that is no literal, no parameter and no forwarded parameter is opaque, but must not mention a
  parameter in another way: the tree has nothing for that, so it is refused.
* Text is recovered from tokens with a blank only where two words would run together.
-/
namespace Nbdl.ClassReader
open Nbdl.Dsl Nbdl.Reader Nbdl.StoreDef

/-! ### Brackets -/

/-- An operator. -/
def op (s : String) : Tok := .op (tx s)

/-- A word. -/
def kw (s : String) : Tok := .word (tx s)

/-- The brackets that are still open, innermost first, each as the token that closes it, after a token; `none` if the
token closes another one. -/
def nest (angles : Bool) (stack : List Tok) (t : Tok) : Option (List Tok) :=
  if t = op "(" then some (op ")" :: stack)
  else if t = op "[" then some (op "]" :: stack)
  else if t = op "{" then some (op "}" :: stack)
  else if angles = true ∧ t = op "<" then some (op ">" :: stack)
  else if t = op ")" ∨ t = op "]" ∨ t = op "}" ∨ (angles = true ∧ t = op ">") then
    match stack with
    | [] => none
    | c :: stack => if c = t then some stack else none
  else if t = op ";" ∧ stack.head? ≠ some (op "}") then none
  else some stack

/-! ### Types -/

/-- The words of [dcl.type.simple] that name a type. -/
def typeWords : List Text :=
  ["bool", "char", "char8_t", "char16_t", "char32_t", "double", "float", "int", "long", "short", "signed", "unsigned",
   "wchar_t"].map tx

/-- Template arguments with the bracket that ends them; `stack` is what is open, never empty. -/
def readAngles (stack : List Tok) : List Tok → Option (List Tok × List Tok)
  | [] => none
  | t :: r =>
    match nest true stack t with
    | none => none
    | some [] => some ([t], r)
    | some (c :: stack) => (readAngles (c :: stack) r).map fun q => (t :: q.1, q.2)

/-- A name with its template arguments. -/
def readPart : List Tok → Option (List Tok × List Tok)
  | .word w :: r =>
    if w ∈ keywords ∧ w ∉ typeWords then none else
      match expect "<" r with
      | some r => (readAngles [op ">"] r).map fun q => (.word w :: op "<" :: q.1, q.2)
      | none => some ([.word w], r)
  | _ => none

/-- Names with `::` between them. -/
def readParts : Nat → List Tok → Option (List Tok × List Tok)
  | 0, _ => none
  | n + 1, ts =>
    match readPart ts with
    | none => none
    | some (a, r) =>
      match expect "::" r with
      | some r => (readParts n r).map fun q => (a ++ (op "::" :: q.1), q.2)
      | none => some (a, r)

/-- A type: its tokens. -/
def readTypeName (n : Nat) (ts : List Tok) : Option (List Tok × List Tok) :=
  match expect "::" ts with
  | some r => (readParts n r).map fun q => (op "::" :: q.1, q.2)
  | none => readParts n ts

/-! ### Arguments -/

/-- The tokens of an argument: up to a comma or closing parenthesis outside of all brackets, which is not taken. -/
def readArgToks (stack : List Tok) : List Tok → Option (List Tok × List Tok)
  | [] => none
  | t :: r =>
    if stack = [] ∧ (t = op "," ∨ t = op ")") then some ([], t :: r)
    else
      match nest false stack t with
      | none => none
      | some stack => (readArgToks stack r).map fun q => (t :: q.1, q.2)

/-- The value of a literal. -/
def literal : List Tok → Option CArg
  | [.num t] => (natOf t).map fun (n : Nat) => .int (n : Int)
  | [.op m, .num t] => if m = tx "-" then (natOf t).map fun (n : Nat) => .int (-(n : Int)) else none
  | [.str t] => some (.str t)
  | _ => none

/-- `static_cast<decltype(x)>(x)` -/
def castToks (x : Text) : List Tok :=
  [kw "static_cast", op "<", kw "decltype", op "(", .word x, op ")", op ">", op "(", .word x, op ")"]

/-- What an argument is, among these parameters. -/
def readArg (params : List Text) (ts : List Tok) : Option CArg :=
  if ts = [] then none
  else
    match params.find? fun x => ts = [.word x] with
    | some x => some (.name x false)
    | none =>
      match params.find? fun x => ts = castToks x with
      | some x => some (.name x true)
      | none =>
        match literal ts with
        | some a => some a
        | none => if ∃ x ∈ params, .word x ∈ ts then none else some (.raw (untok ts))

/-- Arguments, at least one, up to the closing parenthesis. -/
def readArgs1 (params : List Text) : Nat → List Tok → Option (List CArg × List Tok)
  | 0, _ => none
  | n + 1, ts =>
    match readArgToks [] ts with
    | none => none
    | some (as, r) =>
      match readArg params as with
      | none => none
      | some a =>
        match expect "," r with
        | some r => (readArgs1 params n r).map fun q => (a :: q.1, q.2)
        | none => (expect ")" r).map fun r => ([a], r)

/-- Arguments after the opening parenthesis. -/
def readArgs (params : List Text) (n : Nat) (ts : List Tok) : Option (List CArg × List Tok) :=
  match expect ")" ts with
  | some r => some ([], r)
  | none => readArgs1 params n ts

/-! ### Classes -/

/-- Member declarations, up to the constructors: type and name. -/
def readDecls (cls : Text) : Nat → List Tok → Option (List (Text × Text) × List Tok)
  | 0, _ => none
  | n + 1, ts =>
    if (expectWord "explicit" ts).isSome ∨ (expectAll [.word cls, op "("] ts).isSome then some ([], ts)
    else
      match readTypeName n ts with
      | none => none
      | some (type, r) =>
        match readWord r with
        | none => none
        | some (x, r) =>
          match expect ";" r with
          | none => none
          | some r => (readDecls cls n r).map fun q => ((untok type, x) :: q.1, q.2)

/-- The default constructor, if it is there. -/
def readDefault (cls : Text) (ts : List Tok) : Bool × List Tok :=
  match expectAll [.word cls, op "(", op ")", op "=", kw "default", op ";"] ts with
  | some r => (true, r)
  | none => (false, ts)

/-- Parameters, at least one, up to the closing parenthesis. -/
def readParams1 : Nat → List Tok → Option (List Text × List Tok)
  | 0, _ => none
  | n + 1, ts =>
    match expectAll autoToks ts with
    | none => none
    | some r =>
      match readWord r with
      | none => none
      | some (x, r) =>
        match expect "," r with
        | some r => (readParams1 n r).map fun q => (x :: q.1, q.2)
        | none => (expect ")" r).map fun r => ([x], r)

/-- Parameters after the opening parenthesis. -/
def readParams (n : Nat) (ts : List Tok) : Option (List Text × List Tok) :=
  match expect ")" ts with
  | some r => some ([], r)
  | none => readParams1 n ts

/-- Member initialisers with commas. -/
def readInits (params : List Text) : Nat → List Tok → Option (List (Text × List CArg) × List Tok)
  | 0, _ => none
  | n + 1, ts =>
    match readWord ts with
    | none => none
    | some (x, r) =>
      match expect "(" r with
      | none => none
      | some r =>
        match readArgs params n r with
        | none => none
        | some (as, r) =>
          match expect "," r with
          | some r => (readInits params n r).map fun q => ((x, as) :: q.1, q.2)
          | none => some ([(x, as)], r)

/-- The class of declarations and initialisers.  Names of parameters, and names of members, are distinct, and no member
has the name of the class.  Every member is initialised once and nothing else is.  The members are initialised in the
order of the declarations, whatever the order of the initialisers ([class.base.init]/13).  There is a default
constructor exactly if the other one has parameters. -/
def assemble (cls : Text) (decls : List (Text × Text)) (dflt : Bool) (params : List Text)
    (inits : List (Text × List CArg)) : Option CClass :=
  if params.Nodup ∧ (decls.map (·.2)).Nodup ∧ (inits.map (·.1)).Nodup ∧ cls ∉ decls.map (·.2) ∧
      (∀ x ∈ inits.map (·.1), x ∈ decls.map (·.2)) ∧ (∀ x ∈ decls.map (·.2), x ∈ inits.map (·.1)) ∧
      (dflt = true ↔ params ≠ []) then
    some ⟨cls, params, decls.map fun d => ⟨d.1, d.2, (inits.lookup d.2).getD []⟩⟩
  else none

/-- A class, from its name on, which ends with its tokens. -/
def readMembers (n : Nat) (cls : Text) (ts : List Tok) : Option CClass :=
  match expectAll [op "{", kw "public", op ":"] ts with
  | none => none
  | some r =>
    match readDecls cls n r with
    | none => none
    | some (decls, r) =>
      match expectAll [kw "explicit", .word cls, op "("] (readDefault cls r).2 with
      | none => none
      | some r' =>
        match readParams n r' with
        | none => none
        | some (params, r') =>
          match expect ":" r' with
          | none => none
          | some r' =>
            match readInits params n r' with
            | none => none
            | some (inits, r') =>
              if r' = [op "{", op "}", op "}", op ";"] then
                assemble cls decls (readDefault cls r).1 params inits
              else none

/-- A declaration: an empty struct, a strong alias of a type (its tokens), or a class with members. -/
inductive CDecl where
  | tag (name : Text)
  | alias (name : Text) (type : List Tok)
  | cls (c : CClass)
  deriving DecidableEq, Repr

/-- `nbdl::strong_alias<` -/
def strongToks : List Tok := [kw "nbdl", op "::", kw "strong_alias", op "<"]

/-- A strong alias, from its name on: the base is named twice, and its constructors and assignments are taken over. -/
def readAlias (n : Nat) (name : Text) (ts : List Tok) : Option CDecl :=
  match expectAll (op ":" :: kw "public" :: strongToks) ts with
  | none => none
  | some r =>
    match readTypeName n r with
    | none => none
    | some (type, r) =>
      if r = [op ">", op "{", kw "public", op ":", kw "using", kw "Base", op "="] ++ (strongToks ++ (type ++
          [op ">", op ";", kw "using", kw "Base", op "::", kw "Base", op ";",
           kw "using", kw "Base", op "::", kw "operator", op "=", op ";", op "}", op ";"]))
      then some (.alias name type)
      else none

/-- A declaration, which ends with its tokens. -/
def readDeclToks (n : Nat) (ts : List Tok) : Option CDecl :=
  match expectWord "struct" ts with
  | some r =>
    match readWord r with
    | none => none
    | some (name, r) => if r = [op "{", op "}", op ";"] then some (.tag name) else none
  | none =>
    match expectWord "class" ts with
    | none => none
    | some r =>
      match readWord r with
      | none => none
      | some (name, r) =>
        match readAlias n name r with
        | some d => some d
        | none => (readMembers n name r).map .cls

/-- The declaration a text is in C++; `none` if it is none, as far as this reader knows. -/
def readDecl (t : Text) : Option CDecl :=
  match lex t with
  | none => none
  | some ts => readDeclToks (ts.length + 1) ts

/-! ### Definitions which can be read -/

/-- A (qualified) name, with template arguments or without. -/
def plainTypeName (t : Text) : Prop :=
  ∃ ts, lex t = some ts ∧ untok ts = t ∧ readTypeName ts.length ts = some (ts, [])

/-- Any other text of an argument: commas and unmatched parentheses only inside brackets, no literal, and no parameter
is mentioned. -/
def plainRaw (params : Nat) (t : Text) : Prop :=
  ∃ ts, lex t = some ts ∧ untok ts = t ∧ readArgToks [] (ts ++ [op ")"]) = some (ts, [op ")"]) ∧
    literal ts = none ∧ ∀ i, i < params → .word (paramName i) ∉ ts

/-- An argument that can be read. -/
def plainArg (params : Nat) : Expr → Prop
  | .sym t => plainRaw params t
  | .str s => plainString s
  | _ => True

/-- A member that can be read. -/
def plainElem (params : Nat) : Elem → Prop
  | .compose k (.store type es) =>
    (∀ n, k = .member n → plainWord n) ∧ plainTypeName type ∧ ∀ e ∈ es, plainArg params e
  | _ => False

mutual
/-- A store with a type that can be read. -/
def plainStore : Store → Prop
  | .store type _ => plainTypeName type
  | .variant s ss => plainStore s ∧ plainStores ss
  | .param _ => False
/-- Several. -/
def plainStores : List Store → Prop
  | [] => True
  | s :: ss => plainStore s ∧ plainStores ss
end

/-- The names that are made up for members. -/
def anonName (i : Nat) : Text := tx "anon_" ++ (toString i).toList

/-- A definition all of whose parts can be read, and whose names are distinct. -/
structure plainDef (d : Def) : Prop where
  name : plainWord d.name
  elems : ∀ e ∈ d.elems, plainElem d.params e
  nodup : d.givenNames.Nodup
  anon : ∀ i, anonName i ∉ d.givenNames ∧ anonName i ≠ d.name
  other : d.name ∉ d.givenNames

end Nbdl.ClassReader
