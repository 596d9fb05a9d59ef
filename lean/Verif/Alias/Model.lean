import Verif.Common
/-!
# Construction, copies and assignment of stores

Models the constructors and assignments of `/repo/include/nbdl/strong_alias.hpp` (`strong_alias` 17–42, `context_alias`
80–115) and of the classes which `DefineStoreWriter` generates
(`/repo/tool/heavy_plugins/lib/Nbdl/NbdlTranslateCpp.cpp` 623–664): which of them an initialisation or an assignment
calls is decided by the rules of C++ for overloads ([over.match], as far as they matter here).

Simplifications.
* An argument is an object of the class itself, of the type `Value` that is aliased, of the class `strong_alias<Value>`
  when it is the base of the class itself, or of another class; no class converts implicitly to another one (the
  forwarding constructors are explicit), and no other class is derived from these.
* The members of the class can be copied, moved and assigned.
* `volatile` and braces are left out.
-/
namespace Nbdl.Alias

/-- The class of an argument, without reference and `const`. -/
inductive Cls where
  | self
  | base
  | value
  | other (i : Nat)
  deriving DecidableEq, Repr

/-- An argument: its class, whether it is `const`, and whether it is an rvalue. -/
structure Arg where
  cls : Cls
  isConst : Bool
  rvalue : Bool
  deriving DecidableEq, Repr

/-- A parameter: a reference to a class, `auto&&`, or `NotSameAs<C> auto&&` (concept/extras.hpp:18-20). -/
inductive Param where
  | ref (cls : Cls) (isConst : Bool) (rvalue : Bool)
  | forward
  | forwardNot (c : Cls)
  deriving DecidableEq, Repr

/-- What a function does. -/
inductive Kind where
  /-- `= default` from an lvalue: the members are copied -/
  | copy
  /-- `= default` from an rvalue: the members are moved -/
  | move
  /-- without arguments: the members are value initialised -/
  | default
  /-- the members are made of (or assigned from) the arguments -/
  | forward
  deriving DecidableEq, Repr

/-- A candidate.  With `pack` there are as many parameters as arguments, all of them `auto&&`; `inherited` by a using
declaration from the base. -/
structure Fn where
  kind : Kind
  params : List Param
  pack : Bool := false
  isExplicit : Bool := false
  deleted : Bool := false
  inherited : Bool := false
  deriving DecidableEq, Repr

/-! ### Overload resolution -/

/-- A reference that is bound: to an rvalue or an lvalue, and `const` or not. -/
structure Bound where
  rvalueRef : Bool
  isConst : Bool

/-- What a parameter is bound to an argument as, [dcl.init.ref], [temp.deduct.call]; `none` if it cannot be. -/
def bind : Param → Arg → Option Bound
  | .forward, a => some ⟨a.rvalue, a.isConst⟩
  | .forwardNot c, a => if a.cls = c then none else some ⟨a.rvalue, a.isConst⟩
  | .ref c true false, a => if a.cls = c then some ⟨false, true⟩ else none
  | .ref c false false, a => if a.cls = c ∧ a.rvalue = false ∧ a.isConst = false then some ⟨false, false⟩ else none
  | .ref c k true, a => if a.cls = c ∧ a.rvalue = true ∧ (a.isConst = true → k = true) then some ⟨true, k⟩ else none

/-- Is the first binding of the argument better, [over.ics.rank] 3.2.3 and 3.2.6? -/
def betterBound (a : Arg) (x y : Bound) : Bool :=
  if a.rvalue && x.rvalueRef && !y.rvalueRef then true
  else if a.rvalue && y.rvalueRef && !x.rvalueRef then false
  else !x.isConst && y.isConst

/-- The parameters for so many arguments. -/
def Fn.paramsFor (f : Fn) (n : Nat) : Option (List Param) :=
  if f.pack then some (List.replicate n .forward) else if f.params.length = n then some f.params else none

/-- Bind every parameter. -/
def bindAll : List Param → List Arg → Option (List Bound)
  | [], [] => some []
  | p :: ps, a :: as =>
    match bind p a, bindAll ps as with
    | some b, some bs => some (b :: bs)
    | _, _ => none
  | _, _ => none

/-- [over.match.funcs] 8: an inherited constructor does not take part if the only argument is of the class or its base. -/
def excluded (f : Fn) : List Arg → Bool
  | [a] => f.inherited && (a.cls = .self || a.cls = .base)
  | _ => false

/-- The bindings of a viable function, [over.match.viable]. -/
def Fn.binds (f : Fn) (args : List Arg) : Option (List Bound) :=
  if excluded f args then none
  else match f.paramsFor args.length with
    | none => none
    | some ps => bindAll ps args

/-- Is it made from a template? -/
def Fn.isTemplate (f : Fn) : Bool :=
  f.pack || f.params.any fun p => match p with | .ref _ _ _ => false | _ => true

/-- Better for at least one argument. -/
def anyBetter : List Arg → List Bound → List Bound → Bool
  | a :: as, x :: xs, y :: ys => betterBound a x y || anyBetter as xs ys
  | _, _, _ => false

/-- Is the first function better, [over.match.best] 2? -/
def better (args : List Arg) (f g : Fn) : Bool :=
  match f.binds args, g.binds args with
  | some x, some y => !anyBetter args y x && (anyBetter args x y || (!f.isTemplate && g.isTemplate))
  | some _, none => true
  | _, _ => false

/-- What comes of a call. -/
inductive Outcome where
  | calls (k : Kind)
  | deleted
  | noMatch
  | ambiguous
  deriving DecidableEq, Repr

/-- The best viable function, [over.match.best]. -/
def resolve (fs : List Fn) (args : List Arg) : Outcome :=
  match fs.filter fun f => (f.binds args).isSome with
  | [] => .noMatch
  | vs =>
    match vs.find? fun f => vs.all fun g => f = g || better args f g with
    | none => .ambiguous
    | some f => if f.deleted then .deleted else .calls f.kind

/-- How an object is initialised: `T x(args)`, or `T x = arg` (arguments, returned values), for which explicit
constructors are not candidates, [over.match.copy]. -/
inductive Init where
  | direct
  | copy
  deriving DecidableEq, Repr

/-- An initialisation. -/
def construct (fs : List Fn) : Init → List Arg → Outcome
  | .direct, args => resolve fs args
  | .copy, args => resolve (fs.filter fun f => !f.isExplicit) args

/-! ### The classes -/

/-- `strong_alias`, strong_alias.hpp:26-31, and `context_alias` that can be moved, 87-92. -/
def aliasCtors : List Fn :=
  [⟨.copy, [.ref .self true false], false, false, false, false⟩,
   ⟨.copy, [.ref .self false false], false, false, false, false⟩,
   ⟨.move, [.ref .self false true], false, false, false, false⟩,
   ⟨.forward, [], true, true, false, false⟩]

/-- `context_alias` that cannot be moved, strong_alias.hpp:106-111. -/
def fixedCtors : List Fn :=
  [⟨.copy, [.ref .self true false], false, false, true, false⟩,
   ⟨.copy, [.ref .self false false], false, false, true, false⟩,
   ⟨.move, [.ref .self false true], false, false, true, false⟩,
   ⟨.forward, [], true, true, false, false⟩]

/-- A generated class with members and `n` parameters, NbdlTranslateCpp.cpp:636-664: the implicit copy and move
constructors, a default constructor unless the other one is it, and the explicit constructor. -/
def memberCtors (n : Nat) : List Fn :=
  [⟨.copy, [.ref .self true false], false, false, false, false⟩,
   ⟨.move, [.ref .self false true], false, false, false, false⟩]
  ++ (if n = 0 then [] else [⟨.default, [], false, false, false, false⟩])
  ++ [⟨.forward, List.replicate n .forward, false, true, false, false⟩]

/-- A generated class that is an alias, NbdlTranslateCpp.cpp:623-634: the implicit default, copy and move constructors and
the constructors of its base (`using Base::Base`), which is `strong_alias`. -/
def namedCtors : List Fn :=
  [⟨.default, [], false, false, false, false⟩,
   ⟨.copy, [.ref .self true false], false, false, false, false⟩,
   ⟨.move, [.ref .self false true], false, false, false, false⟩,
   ⟨.copy, [.ref .base true false], false, false, false, true⟩,
   ⟨.copy, [.ref .base false false], false, false, false, true⟩,
   ⟨.move, [.ref .base false true], false, false, false, true⟩,
   ⟨.forward, [], true, true, false, true⟩]

/-- Assignment to a `strong_alias`, strong_alias.hpp:33-37.  Since a move constructor is declared, the implicit copy
assignment is deleted and there is no implicit move assignment ([class.copy.assign] 2 and 4). -/
def aliasAssigns : List Fn :=
  [⟨.copy, [.ref .self true false], false, false, true, false⟩,
   ⟨.forward, [.forwardNot .value], false, false, false, false⟩]

end Nbdl.Alias
