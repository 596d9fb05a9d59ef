import Verif.Common
/-!
# The function writer of the spec compiler

Models `FuncWriter` of `/repo/tool/heavy_plugins/lib/Nbdl/NbdlTranslateCpp.cpp` (lines 32-264, 343-563): a
function of the `nbdl` dialect (`/repo/tool/heavy_plugins/include/nbdl_spec/Nbdl.td`) is written out as C++
text.

Simplifications.
* An `mlir::Value` is represented by its defining operation when that is one the writer looks through
  (`nbdl.literal`, `nbdl.constexpr`, `nbdl.const`, `nbdl.member_name`, `nbdl.unit`), and otherwise (block
  argument, result of `nbdl.get`, `nbdl.visit`, `nbdl.store_compose`) by a number, its identity.
* Source locations are left out, and the order in which buffered text is flushed to the lexer: the text is one
  string.  As soon as `ErrMsg` is set the result is `none`; `nbdl_spec_translate_cpp` then raises
  (Nbdl.cpp:157-163).
* A region holds one block (what `VisitRegion` requires, 373-379), an overload has a body with one argument
  (518-535; the front end makes no other), and the function returns nothing (388).
-/
namespace Nbdl.Dsl

/-- A piece of C++ text. -/
abbrev Text := List Char

/-- A text from a string. -/
def tx (s : String) : Text := s.toList

/-- An environment: what the variables in scope stand for. -/
abbrev Env (K V : Type) := K → Option V

/-- Bring a variable into scope. -/
def Env.set {K V : Type} [DecidableEq K] (env : Env K V) (x : K) (v : V) : Env K V :=
  fun y => if y = x then some v else env y

/-- `nbdl.literal` (Nbdl.td:123-132): an `i32` or a string. -/
inductive Lit where
  | int (i : Int)
  | str (s : Text)
  deriving DecidableEq, Repr

/-- An `mlir::Value`; see the head of the file. -/
inductive Val where
  /-- A block argument, or the result of `nbdl.get`, `nbdl.visit` or `nbdl.store_compose`. -/
  | id (n : Nat)
  /-- The result of `nbdl.literal` (Nbdl.td:123-132). -/
  | lit (l : Lit)
  /-- The result of `nbdl.constexpr` (Nbdl.td:212-218). -/
  | cexpr (t : Text)
  /-- The result of `nbdl.const` (Nbdl.td:400-412). -/
  | const (v : Val)
  /-- The result of `nbdl.member_name` (Nbdl.td:220-227). -/
  | member (t : Text)
  /-- The result of `nbdl.unit` (Nbdl.td:351-358). -/
  | unit
  deriving DecidableEq, Repr

mutual
/-- An operation inside a function (Nbdl.td:123-430). -/
inductive Op where
  /-- `nbdl.literal`, `nbdl.constexpr`, `nbdl.member_name` or `nbdl.unit`: nothing is written where it stands. -/
  | pure
  /-- `nbdl.const`, where it stands. -/
  | const (arg : Val)
  /-- `nbdl.empty` (Nbdl.td:341-349). -/
  | empty
  /-- `nbdl.get` (Nbdl.td:134-147). -/
  | get (res : Nat) (state : Val) (key : Option Val)
  /-- `nbdl.visit` (Nbdl.td:375-384); `unit` tells that the result has the unit type. -/
  | visit (res : Nat) (unit : Bool) (fn : Val) (args : List Val)
  /-- `nbdl.store_compose` (Nbdl.td:229-250). -/
  | compose (res : Nat) (key : Option Val) (lhs rhs : Val)
  /-- `nbdl.discard` (Nbdl.td:360-373). -/
  | discard
  /-- `nbdl.noop` (Nbdl.td:193-199). -/
  | noop (arg : Val)
  /-- `nbdl.match` (Nbdl.td:149-179). -/
  | matchOp (store : Val) (key : Option Val) (overloads : List Overload)
  /-- `nbdl.match_if` (Nbdl.td:201-210). -/
  | matchIf (cond : Val) (thn els : List Op)
  /-- `nbdl.scope` (Nbdl.td:414-430). -/
  | scope (body : List Op)

/-- `nbdl.overload` (Nbdl.td:181-191): the type (empty for any), the argument of the body and the body. -/
inductive Overload where
  | mk (type : Text) (arg : Nat) (body : List Op)
end

/-! ### Names -/

/-- The names `SetLocalVarName` makes up in a function: `arg_` (405, 530), `get_` (421), `result_` (443, 476). -/
inductive Kind where
  | arg | get | result
  deriving DecidableEq, Repr

/-- A generated name (184-189): a prefix and the value of the counter. -/
structure Name where
  kind : Kind
  n : Nat
  deriving DecidableEq, Repr

/-- The prefixes (405, 421, 443, 476, 530). -/
def Kind.text : Kind → Text
  | .arg => tx "arg_"
  | .get => tx "get_"
  | .result => tx "result_"

/-- `Twine(Name).concat(Twine(CurrentAnonVarCount++))` (185-189). -/
def Name.text (x : Name) : Text := x.kind.text ++ (toString x.n).toList

/-- `CurrentAnonVarCount` and `ValueMap` (36-54).  The table has one scope per function (400), so entries made
inside the body of an overload stay. -/
structure WS where
  cnt : Nat
  map : List (Nat × Name)
  deriving Repr

/-- `SetLocalVarName(V, Name)` (174-189). -/
def WS.fresh (ws : WS) (v : Nat) (k : Kind) : Name × WS :=
  (⟨k, ws.cnt⟩, { cnt := ws.cnt + 1, map := (v, ⟨k, ws.cnt⟩) :: ws.map })

/-- `ValueMap.lookup` (156-164). -/
def WS.find (ws : WS) (v : Nat) : Option Name := ws.map.lookup v

/-! ### Writing -/

/-- `llvm::interleave` (462-465, 508-511) of texts that are already written. -/
def interleave (sep : Text) : List Text → Text
  | [] => []
  | [t] => t
  | t :: u :: ts => t ++ sep ++ interleave sep (u :: ts)

/-- `WriteExpr(V)` without forwarding (200-219, 237-264); a string is written between quotes as it is (253). -/
def writeExpr (ws : WS) : Val → Option Text
  | .lit (.int i) => some (toString i).toList
  | .lit (.str s) => some ('"' :: s ++ ['"'])
  | .cexpr t => if t.isEmpty then none else some t
  | .const v => (writeExpr ws v).map fun t => tx "::std::as_const(" ++ t ++ tx ")"
  | .id n => (ws.find n).map Name.text
  | .member _ => none
  | .unit => none

/-- `WriteExpr` for each operand. -/
def writeExprs (ws : WS) : List Val → Option (List Text)
  | [] => some []
  | v :: vs => do
    let t ← writeExpr ws v
    let ts ← writeExprs ws vs
    some (t :: ts)

/-- `", "` and the key, unless it is missing or of unit type (430-433, 498-500; `hasUnitKey`, Nbdl.td:142-145). -/
def writeKey (ws : WS) : Option Val → Option Text
  | none => some []
  | some .unit => some []
  | some v => (writeExpr ws v).map fun t => tx ", " ++ t

/-- `auto&& name = ` (420-422, 441-445). -/
def declText (x : Name) : Text := tx "auto&& " ++ x.text ++ tx " = "

/-- `Visit(GetOp)` (414-436). -/
def writeGet (ws : WS) (res : Nat) (state : Val) (key : Option Val) : Option (Text × WS) :=
  match ws.fresh res .get with
  | (x, ws') =>
    match key with
    | some (.member m) => do
      let s ← writeExpr ws' state
      some (declText x ++ s ++ tx "." ++ m ++ tx ";\n", ws')
    | _ => do
      let s ← writeExpr ws' state
      let k ← writeKey ws' key
      some (declText x ++ tx "::nbdl::get(" ++ s ++ k ++ tx ");\n", ws')

/-- `Visit(VisitOp)` (438-467). -/
def writeVisit (ws : WS) (res : Nat) (unit : Bool) (fn : Val) (args : List Val) : Option (Text × WS) :=
  match (if unit then (([] : Text), ws) else ((declText (ws.fresh res .result).1), (ws.fresh res .result).2)) with
  | (d, ws') =>
    match fn with
    | .member m =>
      match args with
      | [] => none
      | a :: rest => do
        let o ← writeExpr ws' a
        let ts ← writeExprs ws' rest
        some (d ++ o ++ tx "." ++ m ++ tx "(" ++ interleave (tx ",\n") ts ++ tx ");\n", ws')
    | _ => do
      let f ← writeExpr ws' fn
      let ts ← writeExprs ws' args
      some (d ++ f ++ tx "(" ++ interleave (tx ",\n") ts ++ tx ");\n", ws')

/-- The key and a comma, unless it is missing or of unit type (478-481). -/
def writeComposeKey (ws : WS) : Option Val → Option Text
  | none => some []
  | some .unit => some []
  | some v => (writeExpr ws v).map fun t => t ++ tx ","

/-- `Visit(StoreComposeOp)` (473-486); the parent comes before the member. -/
def writeCompose (ws : WS) (res : Nat) (key : Option Val) (lhs rhs : Val) : Option (Text × WS) :=
  match ws.fresh res .result with
  | (x, ws') => do
    let k ← writeComposeKey ws' key
    let r ← writeExpr ws' rhs
    let l ← writeExpr ws' lhs
    some (tx "auto " ++ x.text ++ tx " = ::nbdl::store_compose(" ++ k ++ r ++ tx "," ++ l ++ tx ");\n", ws')

/-- The head of the lambda of an overload (522-532). -/
def lambdaHead (type : Text) (x : Name) : Text :=
  tx "[&]([[maybe_unused]] " ++ (if type.isEmpty then [] else tx "::nbdl::SameAs<" ++ type ++ tx "> ") ++
    tx "auto&& " ++ x.text ++ tx "){\n"

mutual
/-- `FuncWriter::Visit` (347-371) with the functions it calls. -/
def writeOp (ws : WS) : Op → Option (Text × WS)
  | .pure => some ([], ws)
  | .const _ => none
  | .empty => none
  | .get res state key => writeGet ws res state key
  | .visit res unit fn args => writeVisit ws res unit fn args
  | .compose res key lhs rhs => writeCompose ws res key lhs rhs
  | .discard => some ([], ws)
  | .noop arg => do
    let t ← writeExpr ws arg
    some (tx "(void)" ++ t ++ tx ";\n", ws)
  | .matchOp store key [o] => do
    let s ← writeExpr ws store
    let k ← writeKey ws key
    let (t, ws) ← writeOverload ws o
    some (tx "::nbdl::match(" ++ s ++ k ++ tx ", " ++ t ++ tx ");\n", ws)
  | .matchOp store key os => do
    let s ← writeExpr ws store
    let k ← writeKey ws key
    let (ts, ws) ← writeOverloads ws os
    some (tx "::nbdl::match(" ++ s ++ k ++ tx ", boost::hana::overload(" ++ interleave (tx ",\n") ts ++ tx "));\n",
      ws)
  | .matchIf cond thn els => do
    let c ← writeExpr ws cond
    let (t, ws) ← writeOps ws thn
    let (e, ws) ← writeElse ws els
    some (tx "if (" ++ c ++ tx ") {\n" ++ t ++ tx "} else " ++ e, ws)
  | .scope body => writeOps ws body

/-- The else part (545-554): if the first operation of the region is an `nbdl.match_if` only that one is
written, with no braces.  Looking at the first operation of an empty block is undefined; the verifier has
refused such a region before, see `Model.lean`; here it counts as an error. -/
def writeElse (ws : WS) : List Op → Option (Text × WS)
  | [] => none
  | .matchIf cond thn els :: _ => do
    let c ← writeExpr ws cond
    let (t, ws) ← writeOps ws thn
    let (e, ws) ← writeElse ws els
    some (tx "if (" ++ c ++ tx ") {\n" ++ t ++ tx "} else " ++ e, ws)
  | o :: os => do
    let (t, ws) ← writeOp ws o
    let (u, ws) ← writeOps ws os
    some (tx "{\n" ++ (t ++ u) ++ tx "}\n", ws)

/-- `VisitRegion` (373-379). -/
def writeOps (ws : WS) : List Op → Option (Text × WS)
  | [] => some ([], ws)
  | o :: os => do
    let (t, ws) ← writeOp ws o
    let (u, ws) ← writeOps ws os
    some (t ++ u, ws)

/-- `Visit(OverloadOp)` (518-535). -/
def writeOverload (ws : WS) : Overload → Option (Text × WS)
  | .mk type arg body =>
    match ws.fresh arg .arg with
    | (x, ws) => do
      let (t, ws) ← writeOps ws body
      some (lambdaHead type x ++ t ++ tx "}", ws)

/-- The overloads of a match in order (508-511). -/
def writeOverloads (ws : WS) : List Overload → Option (List Text × WS)
  | [] => some ([], ws)
  | o :: os => do
    let (t, ws) ← writeOverload ws o
    let (ts, ws) ← writeOverloads ws os
    some (t :: ts, ws)
end

/-- The parameters of the function in order (400-407). -/
def freshArgs (ws : WS) : List Nat → List Name × WS
  | [] => ([], ws)
  | a :: as =>
    match ws.fresh a .arg with
    | (x, ws) =>
      match freshArgs ws as with
      | (xs, ws) => (x :: xs, ws)

/-- A function (`func.func`): its name, block arguments and body. -/
structure Func where
  name : Text
  args : List Nat
  body : List Op

/-- `Visit(FuncOp)` (381-412), as called by `translate_cpp` (802-807). -/
def writeFunc (f : Func) : Option Text :=
  match freshArgs ⟨0, []⟩ f.args with
  | (xs, ws) => do
    let (t, _) ← writeOps ws f.body
    some (tx "void " ++ f.name ++ tx "(" ++ interleave (tx ", ") (xs.map fun x => tx "auto&& " ++ x.text) ++
      tx "){\n" ++ t ++ tx "}")

end Nbdl.Dsl
