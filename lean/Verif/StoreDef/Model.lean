import Verif.Dsl.Model
/-!
# Store definitions

Models `define-store` of `/repo/include/nbdl/spec.sld` (lines 50-244: `store`, `store-compose`, `variant`,
`define-store`, and `context`, which is `define-store` with other brackets) and `DefineStoreWriter` of
`/repo/tool/heavy_plugins/lib/Nbdl/NbdlTranslateCpp.cpp` (lines 140-342, 586-795): the description of a store is
turned into a C++ class.

Simplifications.
* A store value is used where it is made, so the values of the body form a tree (`SVal`); the program that binds a
  store to a variable and composes it twice is left out (`findLaterUse` asserts that it does not exist, 757).
* The constants among the arguments are separate operations with one use each (hash-consing is not done at this
  stage), so they are never looked for by `hasOneUse` and `findLaterUse`.
* The arguments of a `store` are constants and parameters; a store given as an argument of another, for which the
  writer has no text (`WriteExpr`, 232-264), is left out.
* Source locations and flushing are left out, as in `Verif/Dsl/Ir.lean`.
* `llvm_unreachable`, and `TypeSwitch` on a null pointer, are undefined behaviour (`Out.ub`); it wins over an error
  reported in the same run.
-/
namespace Nbdl.StoreDef
open Nbdl.Dsl

/-! ### The language -/

/-- The key of `store-compose` (168-179, 120-125): a member name (a symbol that begins with a dot), other C++ text, or a
parameter. -/
inductive Key where
  | member (name : Text)
  | text (t : Text)
  | param (i : Nat)
  deriving DecidableEq, Repr

/-- A store: `(store Typename (init-args: ...))` (153-166), `(variant Store ...)` (182-191), or a parameter. -/
inductive Store where
  | store (type : Text) (args : List Expr)
  | variant (first : Store) (rest : List Store)
  | param (i : Nat)

/-- An element of the body of `define-store` (207-220): `(store-compose Key Store)` or a store on its own. -/
inductive Elem where
  | compose (key : Key) (store : Store)
  | single (store : Store)

/-- `(define-store Name (InitParams ...) Elem ...)` (193-230). -/
structure Def where
  name : Text
  params : Nat
  elems : List Elem

/-! ### The operations -/

/-- A value in the body of `nbdl.define_store`: the result of `nbdl.unit`, a block argument, the result of
`nbdl.store`, `nbdl.variant` or `nbdl.store_compose` (Nbdl.td:229-258, 329-339). -/
inductive SVal where
  | unit
  | param (i : Nat)
  | store (type : Text) (args : List Val)
  | variant (alts : List SVal)
  | compose (key : Key) (lhs rhs : SVal)

/-! ### The front end -/

/-- An argument of `store`: `maybe-build-expr` (51-61), or a parameter. -/
def buildArg (params : Nat) : Expr → Option Val
  | .var x => if x < params then some (.id x) else none
  | e => constant false e

/-- `map maybe-build-expr` (161-163). -/
def buildArgs (params : Nat) : List Expr → Option (List Val)
  | [] => some []
  | e :: es =>
    match buildArg params e with
    | none => none
    | some v =>
      match buildArgs params es with
      | none => none
      | some vs => some (v :: vs)

mutual
/-- A store (153-166, 182-191). -/
def buildStore (params : Nat) : Store → Option SVal
  | .store type args => (buildArgs params args).map (.store type)
  | .param i => if i < params then some (.param i) else none
  | .variant s ss =>
    match buildStore params s with
    | none => none
    | some v =>
      match buildStores params ss with
      | none => none
      | some vs => some (.variant (v :: vs))

/-- The alternatives of a variant. -/
def buildStores (params : Nat) : List Store → Option (List SVal)
  | [] => some []
  | s :: ss =>
    match buildStore params s with
    | none => none
    | some v =>
      match buildStores params ss with
      | none => none
      | some vs => some (v :: vs)
end

/-- `build-store-key` (120-125); symbols are not empty. -/
def buildKey (params : Nat) : Key → Option Key
  | .member n => some (.member n)
  | .text [] => none
  | .text ('.' :: _) => none
  | .text t => some (.text t)
  | .param i => if i < params then some (.param i) else none

/-- Is the value of unit type (`value? !nbdl.unit`, 214)? -/
def SVal.isUnit : SVal → Bool
  | .unit => true
  | _ => false

/-- `ProcessBody` for each element (208-220). -/
def buildElems (params : Nat) (parent : SVal) : List Elem → Option SVal
  | [] => some parent
  | .compose k s :: es =>
    match buildKey params k with
    | none => none
    | some k =>
      match buildStore params s with
      | none => none
      | some v => buildElems params (.compose k v parent) es
  | .single s :: es =>
    match buildStore params s with
    | none => none
    | some v => if parent.isUnit then buildElems params v es else none

/-- The operand of `nbdl.cont` (206-225). -/
def build (d : Def) : Option SVal := buildElems d.params .unit d.elems

/-! ### The writer -/

/-- What the writer does. -/
inductive Out where
  | ok (t : Text)
  | error
  | ub
  deriving DecidableEq, Repr

/-- `StringRef::rfind(':')`; `none` is `npos`. -/
def rfind (s : Text) : Option Nat :=
  match s.reverse.idxOf? ':' with
  | none => none
  | some i => some (s.length - 1 - i)

/-- `StringRef::take_back(n)`; `none` is `npos`. -/
def takeBack (s : Text) : Option Nat → Text
  | none => s
  | some n => s.drop (s.length - n)

/-- `DefineStoreOp::getName()` (Nbdl.td:285-288). -/
def getName (symName : Text) : Text := takeBack symName (rfind symName)

/-- `llvm::interleaveComma`. -/
def commas : List Text → Text
  | [] => []
  | [t] => t
  | t :: u :: ts => t ++ tx ", " ++ commas (u :: ts)

mutual
/-- `VisitType(V)` (270-313); `none` is an error.  A block argument of a definition has the type `!nbdl.store`, which
is refused (290-294).  A composed store has no text: the assertion in `VisitTypeOrUnitType` (330-331) does not hold
when that of 318 does; it is not reached, since `store-compose` gives no value to be used as a member. -/
def visitType : SVal → Option Text
  | .unit => none
  | .param _ => none
  | .store type _ => some type
  | .variant alts => (visitTypes alts).map fun ts => tx "::nbdl::variant_holder<" ++ commas ts ++ tx ">"
  | .compose _ _ _ => none

/-- The types of the alternatives (306-310). -/
def visitTypes : List SVal → Option (List Text)
  | [] => some []
  | v :: vs =>
    match visitType v with
    | none => none
    | some t =>
      match visitTypes vs with
      | none => none
      | some ts => some (t :: ts)
end

/-- A member: its key, the value, and the left operands of the compositions it is followed by, nearest first. -/
structure Entry where
  key : Key
  lhs : SVal
  above : List SVal

/-- `WriteMemberDeclRec` (666-710) without the text: the members in the order they are pushed to `Members`. -/
def entries : SVal → List SVal → List Entry
  | .compose k l r, above => entries r (l :: above) ++ [⟨k, l, above⟩]
  | _, _ => []

/-- The end of the chain is the unit or a block argument (672-678). -/
def baseOk : SVal → Bool
  | .unit => true
  | .param _ => true
  | .compose _ _ r => baseOk r
  | _ => false

/-- The name of a member (690-702) and the next value of `CurrentAnonVarCount`. -/
def memberName (cnt : Nat) : Key → Text × Nat
  | .member n => (n, cnt)
  | _ => (tx "anon_" ++ (toString cnt).toList, cnt + 1)

/-- The names of the members in order. -/
def memberNames (cnt : Nat) : List Entry → List Text
  | [] => []
  | e :: es => (memberName cnt e.key).1 :: memberNames (memberName cnt e.key).2 es

/-- The name of a parameter (602-603). -/
def paramName (i : Nat) : Text := tx "arg_" ++ (toString i).toList

mutual
/-- The number of uses of a parameter in the operands of a value (for `hasOneUse`, 742). -/
def uses (p : Nat) : SVal → Nat
  | .unit => 0
  | .param i => if i = p then 1 else 0
  | .store _ args => args.count (.id p)
  | .variant alts => usesAll p alts
  | .compose k l r => (if k = .param p then 1 else 0) + uses p l + uses p r

/-- The same for several values. -/
def usesAll (p : Nat) : List SVal → Nat
  | [] => 0
  | v :: vs => uses p v + usesAll p vs
end

/-- `findUse` (779-795); `none` is undefined behaviour. -/
def findUse (p : Nat) : SVal → Option Bool
  | .store _ args => some (args.contains (.id p))
  | .compose _ l r =>
    match findUse p l with
    | none => none
    | some true => some true
    | some false => findUse p r
  | _ => none

/-- `findLaterUse` (756-776) on the way from a composition to `nbdl.cont`. -/
def findLaterUse (p : Nat) : List SVal → Option Bool
  | [] => some false
  | l :: ls =>
    match findUse p l with
    | none => none
    | some true => some true
    | some false => findLaterUse p ls

/-- Is the argument forwarded (740-747)?  `none` is undefined behaviour. -/
def forwards (whole : SVal) (args : List Val) (above : List SVal) (p : Nat) : Option Bool :=
  if uses p whole = 1 then some true
  else if args.count (.id p) = 1 then (findLaterUse p above).map (!·)
  else some false

/-- `WriteExpr` of an argument, forwarded or not (200-219, 232-264). -/
def writeArg (whole : SVal) (args : List Val) (above : List SVal) : Val → Out
  | .id p =>
    match forwards whole args above p with
    | none => .ub
    | some true => .ok (tx "static_cast<decltype(" ++ paramName p ++ tx ")>(" ++ paramName p ++ tx ")")
    | some false => .ok (paramName p)
  | .lit (.int i) => .ok (toString i).toList
  | .lit (.str s) => .ok ('"' :: s ++ ['"'])
  | .cexpr t => if t.isEmpty then .error else .ok t
  | _ => .error

/-- Two outcomes after each other; undefined behaviour wins, whichever comes first. -/
def Out.both (f : Text → Text → Text) : Out → Out → Out
  | .ub, _ => .ub
  | _, .ub => .ub
  | .error, _ => .error
  | _, .error => .error
  | .ok a, .ok b => .ok (f a b)

/-- `WriteInitArgs` (736-752) for a `nbdl.store`: the arguments with commas. -/
def writeArgs (whole : SVal) (args : List Val) (above : List SVal) : List Val → Out
  | [] => .ok []
  | [a] => writeArg whole args above a
  | a :: b :: as => Out.both (fun t u => t ++ tx ", " ++ u) (writeArg whole args above a)
      (writeArgs whole args above (b :: as))

/-- The initialiser of a member (726-732).  `GetLocalVal` takes an empty name for a missing one (156-164). -/
def writeInit (whole : SVal) (name : Text) (e : Entry) : Out :=
  match e.lhs with
  | .store _ args => Out.both (fun t u => t ++ tx "(" ++ u ++ tx ")") (if name.isEmpty then .error else .ok name)
      (writeArgs whole args e.above args)
  | _ => .error

/-- The declaration of a member (704-706). -/
def writeDecl (name : Text) (e : Entry) : Out :=
  match visitType e.lhs with
  | none => .error
  | some t => .ok (t ++ tx " " ++ name ++ tx ";\n")

/-- The declarations, one after the other. -/
def writeDecls : List Text → List Entry → Out
  | n :: ns, e :: es => Out.both (· ++ ·) (writeDecl n e) (writeDecls ns es)
  | _, _ => .ok []

/-- The initialisers, with commas. -/
def writeInits (whole : SVal) : List Text → List Entry → Out
  | [n], [e] => writeInit whole n e
  | n :: ns, e :: es => Out.both (fun t u => t ++ tx ", " ++ u) (writeInit whole n e) (writeInits whole ns es)
  | _, _ => .ok []

/-- `WriteConstructor` (712-734). -/
def writeConstructor (name : Text) (params : Nat) (whole : SVal) (names : List Text) (es : List Entry) : Out :=
  Out.both (fun t u => t ++ u ++ tx "\n{ }\n")
    (.ok (tx "explicit " ++ name ++ tx "(" ++
      commas ((List.range params).map fun i => tx "auto&& " ++ paramName i) ++ tx ") \n: "))
    (writeInits whole names es)

/-- `CreateClass` (636-646). -/
def createClass (name : Text) (params : Nat) (v : SVal) : Out :=
  let es := entries v []
  let names := memberNames params es
  let head := tx "class " ++ name ++ tx " {\npublic:\n"
  let dflt := if params = 0 then [] else name ++ tx "() = default;\n"
  Out.both (fun t u => t ++ u ++ tx "};\n")
    (Out.both (· ++ ·) (if baseOk v then .ok head else .error)
      (Out.both (· ++ ·) (writeDecls names es) (.ok dflt)))
    (writeConstructor name params v names es)

/-- `CreateStrongAlias` (623-634). -/
def createStrongAlias (name : Text) (v : SVal) : Out :=
  match visitType v with
  | none => .error
  | some t => .ok (tx "class " ++ name ++ tx " : public nbdl::strong_alias<" ++ t ++
      tx "> {\npublic:\nusing Base = nbdl::strong_alias<" ++ t ++
      tx ">;\nusing Base::Base;\nusing Base::operator=;\n};\n")

/-- `VisitDefineStore` (593-617). -/
def writeStore (name : Text) (params : Nat) (v : SVal) : Out :=
  match v with
  | .unit => .ok (tx "struct " ++ getName name ++ tx " { };\n")
  | .param _ => .ub
  | .compose _ _ _ => createClass (getName name) params v
  | v => createStrongAlias (getName name) v

/-- From the definition to the text. -/
def compileStore (d : Def) : Out :=
  match build d with
  | none => .error
  | some v => writeStore d.name d.params v

end Nbdl.StoreDef
