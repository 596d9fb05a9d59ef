import Verif.Dsl.Ir
/-!
# The front end of the spec compiler

Models the part of `/repo/include/nbdl/spec.sld` that turns a `match-params-fn` into a function of the `nbdl`
dialect (lines 39-139, 246-447, 462-545, 554-680), with `nbdl_spec_build_match_params` and
`nbdl_spec_close_previous_scope` of `/repo/tool/heavy_plugins/lib/Nbdl/Nbdl.cpp` (47-115, 167-195).  The code
is in continuation passing style, and so is the model: a continuation receives a value and adds operations to
the block the builder points at.

Simplifications.
* The body of the function is one of the forms below; other Scheme code (loops, `define`, user macros) has run
  already.  Variables are numbers.  `match-cond` with tests and results is `match-if` nested (654-680), see
  `matchCond`; all its forms are in `Verif.Cond`.
* `matching-results?` (462-484) is no variable: a `visit` that is an argument of `visit` or the condition of
  `match-if` gives a value, any other one is a statement; `%top-level` makes this so inside regions.  A `visit`
  that is a parameter of the resolver (or a path node) runs before the resolver sees it and leaves no value, which
  is an error.
* Operations that only make a constant are kept as `Op.pure`, see `Ir.lean`.
* MLIR checks the function after it is built (`verify`, 280): a terminator ends its block and a block in a
  function, overload, `match_if` or scope is not empty and ends with one (that is MLIR's rule for operations
  without the trait `NoTerminator`, Nbdl.td:149-430).  The model refuses at once: when an operation is put after a
  terminator, or when a region is finished without one.  Nothing is ever taken out of a block, so the outcome is
  the same.  The assertion in `close-previous-scope` that the block belongs to a function (Nbdl.cpp:178) is
  taken to be compiled out: it does not hold in any nested block.
* An error is `none`.
-/
namespace Nbdl.Dsl

/-! ### The language -/

/-- What may stand for a store, an argument or a path node. -/
inductive Expr where
  /-- A variable bound to a value: a parameter, or the argument of a clause. -/
  | var (x : Nat)
  /-- A symbol: C++ text, or a member name if it begins with a dot (371-373). -/
  | sym (t : Text)
  /-- A number. -/
  | num (i : Int)
  /-- A string. -/
  | str (s : Text)
  /-- `(get root key ...)` (434-447). -/
  | path (root : Nat) (keys : List Expr)
  /-- `(visit callee arg ...)` (529-545). -/
  | visit (callee : Expr) (args : List Expr)

mutual
/-- A statement of the body. -/
inductive Stmt where
  /-- `(fn arg ...)`: the resolver (246-260). -/
  | call (args : List Expr)
  /-- `(visit callee arg ...)` (529-545). -/
  | visit (callee : Expr) (args : List Expr)
  /-- `(match path (type => proc) ...)` (554-605); `else` is the empty type. -/
  | matchPath (path : Expr) (clauses : List Clause)
  /-- `(match-if cond then else)` (617-652); without `else` the last list is empty. -/
  | matchIf (cond : Expr) (thn els : List Stmt)
  /-- `(noop x)` (607-615). -/
  | noop (x : Nat)

/-- A clause of a match: type, variable and body of the procedure. -/
inductive Clause where
  | mk (type : Text) (x : Nat) (body : List Stmt)
end

/-- `(match-params-fn name (stores ... fn) body ...)` (262-283): the number of stores, which are the variables
`0, …, stores-1`, and the body. -/
structure Fn where
  name : Text
  stores : Nat
  body : List Stmt

/-! ### Building blocks -/

/-- The builder: the operations of the current block, and the next identity of a value. -/
structure St where
  cur : List Op
  next : Nat

/-- Adding operations, or an error. -/
abbrev M := St → Option St

/-- The operations with the trait `Terminator` (Nbdl.td:149, 193, 201, 360). -/
def Op.isTerm : Op → Bool
  | .discard => true
  | .noop _ => true
  | .matchOp _ _ _ => true
  | .matchIf _ _ _ => true
  | _ => false

/-- Is the last operation of the block a terminator? -/
def endsTerm : List Op → Bool
  | [] => false
  | [o] => o.isTerm
  | _ :: o :: os => endsTerm (o :: os)

/-- `close-previous-scope` (Nbdl.cpp:167-195). -/
def closePrev : M := fun st =>
  if endsTerm st.cur then some { st with cur := [.scope st.cur] } else some st

/-- `create-op` at the end of the current block; refused after a terminator (see above). -/
def emit (o : Op) : M := fun st =>
  if endsTerm st.cur then none else some { st with cur := st.cur ++ [o] }

/-- One step after the other. -/
def M.then (a b : M) : M := fun st => (a st).bind b

/-- The body of a region, built in a block of its own; refused if it does not end in a terminator. -/
def region (m : M) (next : Nat) : Option (List Op × Nat) :=
  match m ⟨[], next⟩ with
  | none => none
  | some st => if endsTerm st.cur then some (st.cur, st.next) else none

/-- `%match-key` and, without key, `%match-unit` (350-369). -/
def matchKey (store : Val) (key : Option Val) (k : Val → M) : M := fun st =>
  match region (k (.id st.next)) (st.next + 1) with
  | none => none
  | some (body, n) => emit (.matchOp store key [.mk [] st.next body]) { st with next := n }

/-- `build-node-get` (401-408). -/
def buildGet (store : Val) (key : Val) (k : Val → M) : M := fun st =>
  (emit (.get st.next store (some key)) { st with next := st.next + 1 }).bind (k (.id st.next))

/-- `build-visit` with a result (486-500). -/
def buildVisit (fn : Val) (args : List Val) (k : Val → M) : M := fun st =>
  (emit (.visit st.next false fn args) { st with next := st.next + 1 }).bind (k (.id st.next))

/-- `build-visit` without a result (486-504), and `build-resolve-params` (410-426). -/
def buildCall (fn : Val) (args : List Val) : M := fun st =>
  (emit (.visit st.next true fn args) { st with next := st.next + 1 }).bind (emit .discard)

/-- Does the symbol begin with a dot (`member-name-expr?`, 371-373)? -/
def memberName : Text → Option Text
  | '.' :: m => some m
  | _ => none

/-- `maybe-build-expr` (51-61), and with `plus` `maybe-build-expr+` (64-67), for what is no value yet: a symbol
(the empty one has no first character), a number that fits `i32`, or a string. -/
def constant (plus : Bool) : Expr → Option Val
  | .sym [] => none
  | .sym ('.' :: m) => if plus then some (.member m) else none
  | .sym t => some (.cexpr t)
  | .num i => if -2 ^ 31 ≤ i ∧ i < 2 ^ 31 then some (.lit (.int i)) else none
  | .str s => some (.lit (.str s))
  | _ => none

/-- Make a constant and go on. -/
def withConstant (plus : Bool) (e : Expr) (k : Val → M) : M := fun st =>
  match constant plus e with
  | none => none
  | some v => (emit .pure st).bind (k v)

/-- The value a variable is bound to. -/
def withVar (Γ : Env Nat Nat) (x : Nat) (k : Val → M) : M := fun st =>
  match Γ x with
  | none => none
  | some n => k (.id n) st

/-! ### Expressions -/

mutual
/-- `%match-expr` and `%match-expr+` (69-91), with `%match-path-spec` (309-330) and `visit-impl` (506-519). -/
def resolve (Γ : Env Nat Nat) (plus : Bool) : Expr → (Val → M) → M
  | .var x, k => withVar Γ x k
  | .sym t, k => withConstant plus (.sym t) k
  | .num i, k => withConstant plus (.num i) k
  | .str s, k => withConstant plus (.str s) k
  | .path root [], k => withVar Γ root k
  | .path root (key :: keys), k => withVar Γ root fun v => pathNodes Γ v (key :: keys) k
  | .visit callee args, k =>
    M.then closePrev (resolve Γ true callee fun f => resolveAll Γ args fun vs => buildVisit f vs k)

/-- `%map-params` (285-302). -/
def resolveAll (Γ : Env Nat Nat) : List Expr → (List Val → M) → M
  | [], k => k []
  | e :: es, k => resolve Γ false e fun v => resolveAll Γ es fun vs => k (v :: vs)

/-- `%match-path-spec-rec` (332-348): node by node, and at the end the unit key. -/
def pathNodes (Γ : Env Nat Nat) (store : Val) : List Expr → (Val → M) → M
  | [], k => matchKey store none k
  | key :: keys, k => pathNode Γ store key fun v => pathNodes Γ v keys k

/-- `%match-path-node` (375-399). -/
def pathNode (Γ : Env Nat Nat) (store : Val) : Expr → (Val → M) → M
  | .sym t, k => M.then closePrev <| withConstant true (.sym t) fun v =>
      match v with
      | .member m => matchKey store none fun o => buildGet o (.member m) k
      | v => matchKey store (some v) k
  | .num i, k => M.then closePrev <| withConstant true (.num i) fun v => matchKey store (some v) k
  | .str s, k => M.then closePrev <| withConstant true (.str s) fun v => matchKey store (some v) k
  | .var x, k => M.then closePrev <| withVar Γ x fun v => matchKey store (some v) k
  | .path root [], k => M.then closePrev <| withVar Γ root fun v =>
      M.then closePrev <| matchKey store (some v) k
  | .path root (key :: keys), k => M.then closePrev <| withVar Γ root fun r =>
      pathNodes Γ r (key :: keys) fun v => M.then closePrev <| matchKey store (some v) k
  | .visit _ _, _ => fun _ => none
end

/-- A `visit`, which gives no value here; see the head of the file. -/
def Expr.isVisit : Expr → Bool
  | .visit _ _ => true
  | _ => false

/-- A value or a path: what `%match-path-spec` takes (309-330). -/
def Expr.isPath : Expr → Bool
  | .var _ => true
  | .path _ _ => true
  | _ => false

/-! ### Statements -/

mutual
/-- A statement; `fn` is the value of the parameter `fn`. -/
def compileStmt (Γ : Env Nat Nat) (fn : Val) : Stmt → M
  | .call args =>
    if args.isEmpty || args.any Expr.isVisit then fun _ => none
    else M.then closePrev (resolveAll Γ args fun vs => buildCall fn vs)
  | .visit callee args =>
    M.then closePrev (resolve Γ true callee fun f => resolveAll Γ args fun vs => buildCall f vs)
  | .matchPath path clauses =>
    if clauses.isEmpty || !path.isPath then fun _ => none
    else resolve Γ false path fun store => M.then closePrev fun st =>
      match compileClauses Γ fn clauses st.next with
      | none => none
      | some (os, n) => emit (.matchOp store none os) { st with next := n }
  | .matchIf cond thn els =>
    resolve Γ false cond fun c => fun st =>
      match region (compileStmts Γ fn thn) st.next with
      | none => none
      | some (t, n) =>
        match region (compileStmts Γ fn els) n with
        | none => none
        | some (e, n) => emit (.matchIf c t e) { st with next := n }
  | .noop x => withVar Γ x fun v => emit (.noop v)

/-- Statements in order. -/
def compileStmts (Γ : Env Nat Nat) (fn : Val) : List Stmt → M
  | [] => some
  | s :: ss => M.then (compileStmt Γ fn s) (compileStmts Γ fn ss)

/-- The overloads of a match (568-575). -/
def compileClauses (Γ : Env Nat Nat) (fn : Val) : List Clause → Nat → Option (List Overload × Nat)
  | [], n => some ([], n)
  | .mk type x body :: cs, n =>
    match region (compileStmts (Γ.set x n) fn body) (n + 1) with
    | none => none
    | some (b, n') =>
      match compileClauses Γ fn cs n' with
      | none => none
      | some (os, n'') => some (.mk type n b :: os, n'')
end

/-- The stores of the function: variable `i` is block argument `i`. -/
def storeEnv (stores : Nat) : Env Nat Nat := fun x => if x < stores then some x else none

/-- `%build-match-params` (Nbdl.cpp:47-115) with the checks of `match-params-fn` (267-283): the function has the
stores and the callback as arguments. -/
def compileFn (f : Fn) : Option Func :=
  if f.name.isEmpty then none
  else
    match region (compileStmts (storeEnv f.stores) (.id f.stores) f.body) (f.stores + 1) with
    | none => none
    | some (body, _) => some ⟨f.name, List.range (f.stores + 1), body⟩

/-- From the definition to the text (`match-params-fn`, 267-283; `translate_cpp`). -/
def compile (f : Fn) : Option Text := (compileFn f).bind writeFunc

/-- `match-cond` (656-680) with clauses of a test and results, and the results of `else`, if there is one. -/
def matchCond : List (Expr × List Stmt) → List Stmt → List Stmt
  | [], els => els
  | (c, r) :: cs, els => [.matchIf c r (matchCond cs els)]

end Nbdl.Dsl
