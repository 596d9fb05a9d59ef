import Verif.Dsl.Model
/-!
# `match-cond`

Models the macro `match-cond` (`/repo/include/nbdl/spec.sld:654-680`) in full: what it expands to, in the statements of
`Verif.Dsl`.

Simplifications.
* The test of a clause with `=>` is a variable or a path, `(get root key ...)`, or a `visit`; constants are left out.
* The procedure of a clause with `=>` is `(lambda (x) body ...)`, called while the function is built; `body` is given by
  what it does with `x`, so that calling it is putting the argument in the place of `x`.
-/
namespace Nbdl.Cond
open Dsl

/-- A clause, 658-680. -/
inductive Clause where
  /-- `(test result1 result2 ...)`, 675-680 -/
  | results (test : Expr) (first : Stmt) (more : List Stmt)
  /-- `((get root key ...) => (lambda (x) body ...))`, 661-668; `root` itself if there are no keys -/
  | arrow (root : Nat) (keys : List Expr) (x : Nat) (body : List Stmt)
  /-- `((visit callee arg ...) => (lambda (x) body ...))` -/
  | arrowVisit (callee : Expr) (args : List Expr) (x : Nat) (body : List Stmt)
  /-- `(test)`, 669-674 -/
  | only (test : Expr)

/-! Putting a path in the place of a variable: the variable holds `(%nbdl-path root key ...)`, to which `get` appends
(434-447). -/

mutual
def substExpr (x root : Nat) (keys : List Expr) : Expr → Expr
  | .var y => if y = x then .path root keys else .var y
  | .path y ks => if y = x then .path root (keys ++ substExprs x root keys ks) else .path y (substExprs x root keys ks)
  | .visit callee args => .visit (substExpr x root keys callee) (substExprs x root keys args)
  | .sym t => .sym t
  | .num i => .num i
  | .str t => .str t

def substExprs (x root : Nat) (keys : List Expr) : List Expr → List Expr
  | [] => []
  | e :: es => substExpr x root keys e :: substExprs x root keys es
end

mutual
/-- A path cannot be given to `noop`, which takes a value (607-615); `(fn)` stands for the error. -/
def substStmt (x root : Nat) (keys : List Expr) : Stmt → Stmt
  | .call args => .call (substExprs x root keys args)
  | .visit callee args => .visit (substExpr x root keys callee) (substExprs x root keys args)
  | .matchPath path clauses => .matchPath (substExpr x root keys path) (substClauses x root keys clauses)
  | .matchIf cond thn els => .matchIf (substExpr x root keys cond) (substStmts x root keys thn) (substStmts x root keys els)
  | .noop y => if y = x then (if keys.isEmpty then .noop root else .call []) else .noop y

def substStmts (x root : Nat) (keys : List Expr) : List Stmt → List Stmt
  | [] => []
  | s :: ss => substStmt x root keys s :: substStmts x root keys ss

def substClauses (x root : Nat) (keys : List Expr) : List Dsl.Clause → List Dsl.Clause
  | [] => []
  | .mk type y body :: cs =>
    .mk type y (if y = x then body else substStmts x root keys body) :: substClauses x root keys cs
end

/-- A test on its own (669): a call is a statement, anything else does nothing. -/
def alone : Expr → List Stmt
  | .visit callee args => [.visit callee args]
  | _ => []

/-- `match-cond` with the results of `else`; none if there is no `else`, and then the last `match-if` has none either
(661-663, 675-676).  A `visit` that is bound by `let` (662, 665, 671) is evaluated as a statement and leaves nothing that
could be tested: an error (69-83). -/
def expand : List Clause → List Stmt → Option (List Stmt)
  | [], els => some els
  | .results test first more :: cs, els => (expand cs els).map fun r => [.matchIf test (first :: more) r]
  | .arrow root keys x body :: cs, els =>
    (expand cs els).map fun r => [.matchIf (.path root keys) (substStmts x root keys body) r]
  | .arrowVisit _ _ _ _ :: _, _ => none
  | .only test :: cs, els =>
    if cs.isEmpty && els.isEmpty then some (alone test)
    else if test.isVisit then none
    else (expand cs els).map fun r => [.matchIf test [] r]

end Nbdl.Cond
