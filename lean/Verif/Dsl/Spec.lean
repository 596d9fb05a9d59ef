import Verif.Dsl.Model
import Verif.Dsl.Cpp
/-!
# What a match function means

The meaning of the language of `Model.lean`, given directly: expressions are evaluated left to right, a path is
followed node by node, statements run one after the other.
-/
namespace Nbdl.Dsl

variable {σ V : Type}

/-- The member name a call names, if it does not name a function. -/
def calleeMember : Expr → Option Text
  | .sym t => memberName t
  | _ => none

mutual
/-- The object an expression denotes, and the state after finding it.  Callee and arguments of a call are
evaluated from left to right before the call; a member name is called on the first argument. -/
def evalExpr (w : World σ V) (ρ : Env Nat V) (s : σ) : Expr → Option (σ × V)
  | .var x => (ρ x).map fun v => (s, v)
  | .sym t => some (s, w.cexpr t)
  | .num i => some (s, w.lit (.int i))
  | .str t => some (s, w.lit (.str t))
  | .path root [] => (ρ root).map fun v => (s, v)
  | .path root (key :: keys) =>
    match ρ root with
    | none => none
    | some v =>
      match evalNode w ρ s v key with
      | none => none
      | some (s, v) => evalPath w ρ s v keys
  | .visit callee args =>
    match calleeMember callee with
    | some m =>
      match evalArgs w ρ s args with
      | some (s, o :: vs) => some (w.memberCall s o m vs)
      | _ => none
    | none =>
      match evalExpr w ρ s callee with
      | none => none
      | some (s, f) =>
        match evalArgs w ρ s args with
        | none => none
        | some (s, vs) => some (w.call s f vs)

/-- Following a path from an object; at the end the store that is reached is unwrapped. -/
def evalPath (w : World σ V) (ρ : Env Nat V) (s : σ) (v : V) : List Expr → Option (σ × V)
  | [] => some (w.matchStore s v none)
  | key :: keys =>
    match evalNode w ρ s v key with
    | none => none
    | some (s, v) => evalPath w ρ s v keys

/-- One node of a path: a member of the unwrapped store, or the element under a key. -/
def evalNode (w : World σ V) (ρ : Env Nat V) (s : σ) (v : V) : Expr → Option (σ × V)
  | .sym t =>
    match memberName t with
    | some m => some ((w.matchStore s v none).1, w.member (w.matchStore s v none).1 (w.matchStore s v none).2 m)
    | none => some (w.matchStore s v (some (w.cexpr t)))
  | .num i => some (w.matchStore s v (some (w.lit (.int i))))
  | .str t => some (w.matchStore s v (some (w.lit (.str t))))
  | .var x => (ρ x).map fun k => w.matchStore s v (some k)
  | .path root [] => (ρ root).map fun k => w.matchStore s v (some k)
  | .path root (key :: keys) =>
    match ρ root with
    | none => none
    | some r =>
      match evalNode w ρ s r key with
      | none => none
      | some (s, r) =>
        match evalPath w ρ s r keys with
        | none => none
        | some (s, k) => some (w.matchStore s v (some k))
  | .visit _ _ => none

/-- Arguments from left to right. -/
def evalArgs (w : World σ V) (ρ : Env Nat V) (s : σ) : List Expr → Option (σ × List V)
  | [] => some (s, [])
  | e :: es =>
    match evalExpr w ρ s e with
    | none => none
    | some (s, v) =>
      match evalArgs w ρ s es with
      | none => none
      | some (s, vs) => some (s, v :: vs)
end

mutual
/-- Running a statement; `fn` is the callback of the function. -/
def runStmt (w : World σ V) (fn : V) (ρ : Env Nat V) (s : σ) : Stmt → Option σ
  | .call args =>
    match evalArgs w ρ s args with
    | none => none
    | some (s, vs) => some (w.call s fn vs).1
  | .visit callee args => (evalExpr w ρ s (.visit callee args)).map Prod.fst
  | .matchPath path clauses =>
    match evalExpr w ρ s path with
    | none => none
    | some (s, v) => runClauses w fn ρ (w.matchStore s v none).1 (w.matchStore s v none).2 clauses
  | .matchIf cond thn els =>
    match evalExpr w ρ s cond with
    | none => none
    | some (s, c) => if w.truth s c then runStmts w fn ρ s thn else runStmts w fn ρ s els
  | .noop x => (ρ x).map fun _ => s

/-- Statements one after the other. -/
def runStmts (w : World σ V) (fn : V) (ρ : Env Nat V) (s : σ) : List Stmt → Option σ
  | [] => some s
  | c :: cs =>
    match runStmt w fn ρ s c with
    | none => none
    | some s => runStmts w fn ρ s cs

/-- The first clause whose type is that of the object; the empty type accepts every object. -/
def runClauses (w : World σ V) (fn : V) (ρ : Env Nat V) (s : σ) (v : V) : List Clause → Option σ
  | [] => none
  | .mk type x body :: cs =>
    if type.isEmpty || w.is v type then runStmts w fn (ρ.set x v) s body else runClauses w fn ρ s v cs
end

/-- Calling the function with the stores and the callback as last argument: the state afterwards. -/
def Fn.run (f : Fn) (w : World σ V) (s : σ) (args : List V) : Option σ :=
  if args.length = f.stores + 1 then
    match args[f.stores]? with
    | none => none
    | some fn => runStmts w fn (fun x => if x < f.stores then args[x]? else none) s f.body
  else none

/-! ### Which functions the compiler takes -/

mutual
/-- An expression with the variables `B` in scope.  A symbol has a first character; a symbol that begins with a dot
names a member and stands for no object, except as callee (`plus`).  A number fits 32 bits.  A member is called on
an object. -/
def Expr.accepted (B : Nat → Bool) (plus : Bool) : Expr → Bool
  | .var x => B x
  | .sym t => !t.isEmpty && (plus || (memberName t).isNone)
  | .num i => decide (-2 ^ 31 ≤ i ∧ i < 2 ^ 31)
  | .str _ => true
  | .path root keys => B root && nodesAccepted B keys
  | .visit callee args =>
    callee.accepted B true && argsAccepted B args && ((calleeMember callee).isNone || !args.isEmpty)

/-- Arguments. -/
def argsAccepted (B : Nat → Bool) : List Expr → Bool
  | [] => true
  | e :: es => e.accepted B false && argsAccepted B es

/-- The nodes of a path. -/
def nodesAccepted (B : Nat → Bool) : List Expr → Bool
  | [] => true
  | e :: es => e.nodeAccepted B && nodesAccepted B es

/-- A node of a path: anything but a `visit`. -/
def Expr.nodeAccepted (B : Nat → Bool) : Expr → Bool
  | .var x => B x
  | .sym t => !t.isEmpty
  | .num i => decide (-2 ^ 31 ≤ i ∧ i < 2 ^ 31)
  | .str _ => true
  | .path root keys => B root && nodesAccepted B keys
  | .visit _ _ => false
end

/-- A `visit`, or a path with nodes. -/
def Expr.computes : Expr → Bool
  | .visit _ _ => true
  | .path _ (_ :: _) => true
  | _ => false

mutual
/-- A statement with the variables `B` in scope; `first` tells that it is the first one of its block. -/
def Stmt.accepted (B : Nat → Bool) (first : Bool) : Stmt → Bool
  | .call args => !args.isEmpty && args.all (fun e => !e.isVisit) && argsAccepted B args
  | .visit callee args => Expr.accepted B false (.visit callee args)
  | .matchPath path clauses =>
    path.isPath && path.accepted B false && !clauses.isEmpty && clausesAccepted B clauses
  | .matchIf cond thn els =>
    cond.accepted B false && (first || cond.computes) && blockAccepted B thn && blockAccepted B els
  | .noop x => first && B x

/-- A block: not empty. -/
def blockAccepted (B : Nat → Bool) : List Stmt → Bool
  | [] => false
  | s :: ss => s.accepted B true && restAccepted B ss

/-- The statements of a block after the first. -/
def restAccepted (B : Nat → Bool) : List Stmt → Bool
  | [] => true
  | s :: ss => s.accepted B false && restAccepted B ss

/-- The bodies of clauses. -/
def clausesAccepted (B : Nat → Bool) : List Clause → Bool
  | [] => true
  | .mk _ x body :: cs => blockAccepted (fun y => y == x || B y) body && clausesAccepted B cs
end

/-- A function: it has a name and its body is a block. -/
def Fn.accepted (f : Fn) : Bool := !f.name.isEmpty && blockAccepted (fun x => decide (x < f.stores)) f.body

end Nbdl.Dsl
