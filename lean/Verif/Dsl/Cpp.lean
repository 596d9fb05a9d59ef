import Verif.Dsl.Ir
/-!
# The C++ the writer produces, and what it means

The statements of the generated functions as a tree, their text, and their meaning.  This is a specification:
it does not model code of /repo but the C++ language (and `boost::hana::overload`) as far as the generated text
uses it.  What `nbdl::match`, `nbdl::get`, calls and so on do is left open: it is a parameter, `World`.
-/
namespace Nbdl.Dsl

/-! ### Syntax -/

/-- An expression: a name, an integer, the inside of a string literal, any other expression given as text,
`std::as_const` of an expression. -/
inductive CExpr where
  | name (x : Name)
  | int (i : Int)
  | str (raw : Text)
  | raw (t : Text)
  | asConst (e : CExpr)
  deriving DecidableEq, Repr

mutual
/-- A statement. -/
inductive CStmt where
  /-- `auto&& x = ::nbdl::get(o, k);` -/
  | get (x : Name) (o : CExpr) (k : Option CExpr)
  /-- `auto&& x = o.m;` -/
  | member (x : Name) (o : CExpr) (m : Text)
  /-- `auto&& x = f(as);` or `f(as);` -/
  | call (x : Option Name) (f : CExpr) (as : List CExpr)
  /-- `auto&& x = o.m(as);` or `o.m(as);` -/
  | mcall (x : Option Name) (o : CExpr) (m : Text) (as : List CExpr)
  /-- `auto x = ::nbdl::store_compose(k,r,l);` -/
  | compose (x : Name) (k : Option CExpr) (r l : CExpr)
  /-- `(void)e;` -/
  | void (e : CExpr)
  /-- `::nbdl::match(s, k, lambda);` -/
  | matchOne (s : CExpr) (k : Option CExpr) (l : Lambda)
  /-- `::nbdl::match(s, k, boost::hana::overload(lambda, …));` -/
  | matchAll (s : CExpr) (k : Option CExpr) (ls : List Lambda)
  /-- `if (c) { t } else e` -/
  | ite (c : CExpr) (t : List CStmt) (e : CElse)

/-- What follows `else`: another `if` or a block. -/
inductive CElse where
  | chain (c : CExpr) (t : List CStmt) (e : CElse)
  | block (b : List CStmt)

/-- `[&](SameAs<type> auto&& x){ body }`; without a constraint if the type is empty. -/
inductive Lambda where
  | mk (type : Text) (x : Name) (body : List CStmt)
end

/-- A function: name, parameters and body. -/
structure CFunc where
  name : Text
  params : List Name
  body : List CStmt

/-! ### Text -/

/-- An identifier: a letter or underscore, then letters, digits and underscores. -/
def identifier : Text → Bool
  | [] => false
  | c :: cs => (c.isAlpha || c == '_') && cs.all fun d => d.isAlphanum || d == '_'

/-- Texts with a separator between them. -/
def separated (sep : Text) : List Text → Text
  | [] => []
  | [t] => t
  | t :: ts => t ++ (sep ++ separated sep ts)

/-- The text of an expression. -/
def CExpr.text : CExpr → Text
  | .name x => x.text
  | .int i => (toString i).toList
  | .str t => '"' :: t ++ ['"']
  | .raw t => t
  | .asConst e => tx "::std::as_const(" ++ e.text ++ tx ")"

/-- The text of an optional second argument. -/
def keyText : Option CExpr → Text
  | none => []
  | some e => tx ", " ++ e.text

/-- The text of an optional first argument. -/
def composeKeyText : Option CExpr → Text
  | none => []
  | some e => e.text ++ tx ","

/-- The text that declares a reference; the expression follows. -/
def declare (x : Name) : Text := tx "auto&& " ++ (x.text ++ tx " = ")

/-- The text of an optional declaration. -/
def optDecl : Option Name → Text
  | none => []
  | some x => declare x

/-- The text of an argument list. -/
def argsText (es : List CExpr) : Text := tx "(" ++ separated (tx ",\n") (es.map CExpr.text) ++ tx ");\n"

/-- The constraint on the parameter of a lambda: none, or of exactly this type. -/
def constraint : Text → Text
  | [] => []
  | type => tx "::nbdl::SameAs<" ++ (type ++ tx "> ")

mutual
/-- The text of a statement. -/
def CStmt.text : CStmt → Text
  | .get x o k => declare x ++ tx "::nbdl::get(" ++ o.text ++ keyText k ++ tx ");\n"
  | .member x o m => declare x ++ o.text ++ tx "." ++ m ++ tx ";\n"
  | .call x f as => optDecl x ++ f.text ++ argsText as
  | .mcall x o m as => optDecl x ++ o.text ++ tx "." ++ m ++ argsText as
  | .compose x k r l =>
    tx "auto " ++ x.text ++ tx " = ::nbdl::store_compose(" ++
      composeKeyText k ++ r.text ++ tx "," ++ l.text ++ tx ");\n"
  | .void e => tx "(void)" ++ e.text ++ tx ";\n"
  | .matchOne s k l => tx "::nbdl::match(" ++ s.text ++ keyText k ++ tx ", " ++ l.text ++ tx ");\n"
  | .matchAll s k ls =>
    tx "::nbdl::match(" ++ s.text ++ keyText k ++ tx ", boost::hana::overload(" ++
      separated (tx ",\n") (lambdaTexts ls) ++ tx "));\n"
  | .ite c t e => tx "if (" ++ c.text ++ tx ") {\n" ++ stmtsText t ++ tx "} else " ++ e.text

/-- The text of what follows `else`. -/
def CElse.text : CElse → Text
  | .chain c t e => tx "if (" ++ c.text ++ tx ") {\n" ++ stmtsText t ++ tx "} else " ++ e.text
  | .block b => tx "{\n" ++ stmtsText b ++ tx "}\n"

/-- The text of a lambda. -/
def Lambda.text : Lambda → Text
  | .mk type x body =>
    tx "[&]([[maybe_unused]] " ++ (constraint type ++ (tx "auto&& " ++ (x.text ++ (tx "){\n" ++
      (stmtsText body ++ tx "}")))))

/-- The texts of the lambdas. -/
def lambdaTexts : List Lambda → List Text
  | [] => []
  | l :: ls => l.text :: lambdaTexts ls

/-- The text of a block. -/
def stmtsText : List CStmt → Text
  | [] => []
  | s :: ss => s.text ++ stmtsText ss
end

/-- The text of a function. -/
def CFunc.text (f : CFunc) : Text :=
  tx "void " ++ f.name ++ tx "(" ++ separated (tx ", ") (f.params.map fun x => tx "auto&& " ++ x.text) ++
    tx "){\n" ++ stmtsText f.body ++ tx "}"

/-! ### Meaning -/

/-- What the generated code runs against: `σ` is the state of the program, `V` an object it refers to. -/
structure World (σ V : Type) where
  /-- The object of a literal. -/
  lit : Lit → V
  /-- The value of any other expression text. -/
  cexpr : Text → V
  /-- `std::as_const`. -/
  asConst : V → V
  /-- `nbdl::match` with or without key: its effect and the object the visitor is called with, once. -/
  matchStore : σ → V → Option V → σ × V
  /-- `nbdl::get` with or without key. -/
  get : σ → V → Option V → V
  /-- `o.m` -/
  member : σ → V → Text → V
  /-- `nbdl::store_compose`: optional key, parent, member. -/
  compose : σ → Option V → V → V → σ × V
  /-- `f(as)`: effect and result. -/
  call : σ → V → List V → σ × V
  /-- `o.m(as)`: effect and result. -/
  memberCall : σ → V → Text → List V → σ × V
  /-- The condition of an `if`. -/
  truth : σ → V → Bool
  /-- Does the object satisfy `nbdl::SameAs<type>` (concept/extras.hpp:14-16)? -/
  is : V → Text → Bool

/-- The characters a string literal stands for (simple escapes only); `none` if the literal does not end where
it should or has any other escape. -/
def unquote : Text → Option Text
  | [] => some []
  | '"' :: _ => none
  | '\n' :: _ => none
  | '\\' :: c :: r =>
    let e : Option Char :=
      if c = 'n' then some '\n' else if c = 't' then some '\t' else if c = 'r' then some '\r'
      else if c = '\\' then some '\\' else if c = '"' then some '"' else if c = '\'' then some '\'' else none
    match e with
    | none => none
    | some d => (unquote r).map (d :: ·)
  | '\\' :: [] => none
  | c :: r => (unquote r).map (c :: ·)

/-- Which objects the names in scope refer to. -/
abbrev CEnv (V : Type) := Env Name V

variable {σ V : Type}

/-- The object an expression denotes; `none` if it does not compile. -/
def evalC (w : World σ V) (env : CEnv V) : CExpr → Option V
  | .name x => env x
  | .int i => some (w.lit (.int i))
  | .str raw => (unquote raw).map fun s => w.lit (.str s)
  | .raw t => some (w.cexpr t)
  | .asConst e => (evalC w env e).map w.asConst

/-- The objects of an argument list. -/
def evalCs (w : World σ V) (env : CEnv V) : List CExpr → Option (List V)
  | [] => some []
  | e :: es => do
    let v ← evalC w env e
    let vs ← evalCs w env es
    some (v :: vs)

/-- The object of an optional argument. -/
def evalCKey (w : World σ V) (env : CEnv V) : Option CExpr → Option (Option V)
  | none => some none
  | some e => (evalC w env e).map some

/-- `auto&& x = v`, if there is a name. -/
def Env.setOpt (env : CEnv V) (x : Option Name) (v : V) : CEnv V :=
  match x with
  | none => env
  | some x => env.set x v

/-- Positions `i, i+1, …` of the elements that satisfy `p`. -/
def positions (p : Text → Bool) (i : Nat) : List Text → List Nat
  | [] => []
  | t :: ts => if p t then i :: positions p (i + 1) ts else positions p (i + 1) ts

/-- Overload resolution between lambdas `SameAs<T> auto&&` and `auto&&`: every constrained one that accepts
the object is better than every unconstrained one, and two equally good ones are ambiguous. -/
def overloadChoice (w : World σ V) (v : V) (types : List Text) : Option Nat :=
  match positions (fun t => !t.isEmpty && w.is v t) 0 types with
  | [i] => some i
  | _ :: _ :: _ => none
  | [] =>
    match positions (fun t => t.isEmpty) 0 types with
    | [i] => some i
    | _ => none

/-- The constraint of a lambda. -/
def Lambda.type : Lambda → Text
  | .mk t _ _ => t

mutual
/-- Running a statement; `none` if the code does not compile. -/
def execStmt (w : World σ V) (env : CEnv V) (s : σ) : CStmt → Option (CEnv V × σ)
  | .get x o k => do
    let o ← evalC w env o
    let k ← evalCKey w env k
    some (env.set x (w.get s o k), s)
  | .member x o m => do
    let o ← evalC w env o
    some (env.set x (w.member s o m), s)
  | .call x f as => do
    let f ← evalC w env f
    let as ← evalCs w env as
    some (env.setOpt x (w.call s f as).2, (w.call s f as).1)
  | .mcall x o m as => do
    let o ← evalC w env o
    let as ← evalCs w env as
    some (env.setOpt x (w.memberCall s o m as).2, (w.memberCall s o m as).1)
  | .compose x k r l => do
    let k ← evalCKey w env k
    let r ← evalC w env r
    let l ← evalC w env l
    some (env.set x (w.compose s k r l).2, (w.compose s k r l).1)
  | .void e => do
    let _ ← evalC w env e
    some (env, s)
  | .matchOne st k l => do
    let st ← evalC w env st
    let k ← evalCKey w env k
    let i ← overloadChoice w (w.matchStore s st k).2 [l.type]
    let s ← if i = 0 then execLambda w env (w.matchStore s st k).1 (w.matchStore s st k).2 l else none
    some (env, s)
  | .matchAll st k ls => do
    let st ← evalC w env st
    let k ← evalCKey w env k
    let i ← overloadChoice w (w.matchStore s st k).2 (ls.map Lambda.type)
    let s ← execNth w env (w.matchStore s st k).1 (w.matchStore s st k).2 i ls
    some (env, s)
  | .ite c t e => do
    let c ← evalC w env c
    let s ← if w.truth s c then (execStmts w env s t).map Prod.snd else execElse w env s e
    some (env, s)

/-- Running what follows `else`. -/
def execElse (w : World σ V) (env : CEnv V) (s : σ) : CElse → Option σ
  | .chain c t e => do
    let c ← evalC w env c
    if w.truth s c then (execStmts w env s t).map Prod.snd else execElse w env s e
  | .block b => (execStmts w env s b).map Prod.snd

/-- Calling a lambda that captures everything by reference. -/
def execLambda (w : World σ V) (env : CEnv V) (s : σ) (v : V) : Lambda → Option σ
  | .mk _ x body => (execStmts w (env.set x v) s body).map Prod.snd

/-- Calling the lambda at position `i`. -/
def execNth (w : World σ V) (env : CEnv V) (s : σ) (v : V) (i : Nat) : List Lambda → Option σ
  | [] => none
  | l :: ls => match i with
    | 0 => execLambda w env s v l
    | i + 1 => execNth w env s v i ls

/-- Running a block. -/
def execStmts (w : World σ V) (env : CEnv V) (s : σ) : List CStmt → Option (CEnv V × σ)
  | [] => some (env, s)
  | c :: cs => do
    let (env, s) ← execStmt w env s c
    execStmts w env s cs
end

/-- The names of the parameters bound to the arguments. -/
def bindParams (env : CEnv V) : List Name → List V → Option (CEnv V)
  | [], [] => some env
  | x :: xs, v :: vs => bindParams (env.set x v) xs vs
  | _, _ => none

/-- Calling a generated function: the state afterwards. -/
def CFunc.run (f : CFunc) (w : World σ V) (s : σ) (args : List V) : Option σ := do
  let env ← bindParams (fun _ => none) f.params args
  let (_, s) ← execStmts w env s f.body
  some s

end Nbdl.Dsl
