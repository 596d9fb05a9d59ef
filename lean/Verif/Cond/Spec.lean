import Verif.Cond.Model
import Verif.Dsl.Spec
/-! What a conditional of clauses means. -/
namespace Nbdl.Cond.Spec
open Dsl
variable {σ V : Type}

/-- The clauses in order: the first whose test holds is carried out, and nothing else.  A procedure is given the value
that was tested. -/
def runCond (w : World σ V) (fn : V) (ρ : Env Nat V) (els : List Stmt) : σ → List Clause → Option σ
  | s, [] => runStmts w fn ρ s els
  | s, .results test first more :: cs =>
    match evalExpr w ρ s test with
    | none => none
    | some (s, c) => if w.truth s c then runStmts w fn ρ s (first :: more) else runCond w fn ρ els s cs
  | s, .arrow root keys x body :: cs =>
    match evalExpr w ρ s (.path root keys) with
    | none => none
    | some (s, v) => if w.truth s v then runStmts w fn (ρ.set x v) s body else runCond w fn ρ els s cs
  | s, .arrowVisit callee args x body :: cs =>
    match evalExpr w ρ s (.visit callee args) with
    | none => none
    | some (s, v) => if w.truth s v then runStmts w fn (ρ.set x v) s body else runCond w fn ρ els s cs
  | s, .only test :: cs =>
    match evalExpr w ρ s test with
    | none => none
    | some (s, v) => if w.truth s v then some s else runCond w fn ρ els s cs

/-- Looking changes nothing and gives the same object at any time; an unwrapped store is not unwrapped further and has
the elements of the store. -/
structure Still (w : World σ V) : Prop where
  lookup : ∀ s v k, (w.matchStore s v k).1 = s
  same : ∀ s s' v k, (w.matchStore s v k).2 = (w.matchStore s' v k).2
  member : ∀ s s' v m, w.member s v m = w.member s' v m
  unwrapped : ∀ s v k, (w.matchStore s (w.matchStore s v none).2 k).2 = (w.matchStore s v k).2

mutual
/-- The variables of an expression. -/
def vars : Expr → List Nat
  | .var y => [y]
  | .path y ks => y :: varss ks
  | .visit c as => vars c ++ varss as
  | _ => []

def varss : List Expr → List Nat
  | [] => []
  | e :: es => vars e ++ varss es
end

mutual
/-- The clauses inside bind none of the variables `ys`, and `x` is not given to `noop`. -/
def clean (ys : List Nat) (x : Nat) : Stmt → Bool
  | .matchPath _ clauses => cleanClauses ys x clauses
  | .matchIf _ thn els => cleans ys x thn && cleans ys x els
  | .noop y => y != x
  | _ => true

def cleans (ys : List Nat) (x : Nat) : List Stmt → Bool
  | [] => true
  | s :: ss => clean ys x s && cleans ys x ss

def cleanClauses (ys : List Nat) (x : Nat) : List Dsl.Clause → Bool
  | [] => true
  | .mk _ y body :: cs => !ys.contains y && cleans ys x body && cleanClauses ys x cs
end

/-- The procedures of all clauses are so. -/
def Clean : Clause → Prop
  | .arrow root keys x body => cleans (x :: root :: varss keys) x body = true
  | _ => True

/-- A clause of a kind that can be written in the middle. -/
def plain : Clause → Bool
  | .results _ _ _ => true
  | .arrow _ _ _ _ => true
  | _ => false

end Nbdl.Cond.Spec
