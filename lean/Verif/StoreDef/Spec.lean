import Verif.StoreDef.Model
import Verif.Dsl.Cpp
/-!
# What a store definition means

The generated class as a tree with its text, what its constructor does, and what the definition asks for.  This is a
specification: it models C++, not code of /repo.
-/
namespace Nbdl.StoreDef
open Nbdl.Dsl

/-! ### Classes -/

/-- An argument of a member initialiser: a parameter, forwarded (`static_cast<decltype(x)>(x)`) or not, an integer,
the inside of a string literal, or any other text. -/
inductive CArg where
  | name (x : Text) (fwd : Bool)
  | int (i : Int)
  | str (t : Text)
  | raw (t : Text)
  deriving DecidableEq, Repr

/-- A member: its type, its name and the arguments it is initialised with. -/
structure CMember where
  type : Text
  name : Text
  init : List CArg
  deriving DecidableEq, Repr

/-- A class with public members, a constructor with one parameter for each name, and a default constructor. -/
structure CClass where
  name : Text
  params : List Text
  members : List CMember
  deriving DecidableEq, Repr

/-- The text of an argument. -/
def CArg.text : CArg → Text
  | .name x true => tx "static_cast<decltype(" ++ (x ++ (tx ")>(" ++ (x ++ tx ")")))
  | .name x false => x
  | .int i => (toString i).toList
  | .str t => '"' :: (t ++ ['"'])
  | .raw t => t

/-- The text of a member declaration. -/
def CMember.decl (m : CMember) : Text := m.type ++ (tx " " ++ (m.name ++ tx ";\n"))

/-- The text of a member initialiser. -/
def CMember.initText (m : CMember) : Text :=
  m.name ++ (tx "(" ++ (separated (tx ", ") (m.init.map CArg.text) ++ tx ")"))

/-- The text of a class. -/
def CClass.text (c : CClass) : Text :=
  tx "class " ++ (c.name ++ (tx " {\npublic:\n" ++ ((c.members.map CMember.decl).flatten ++
    ((if c.params = [] then [] else c.name ++ tx "() = default;\n") ++
    (tx "explicit " ++ (c.name ++ (tx "(" ++ (separated (tx ", ") (c.params.map (tx "auto&& " ++ ·)) ++
    (tx ") \n: " ++ (separated (tx ", ") (c.members.map CMember.initText) ++ tx "\n{ }\n};\n"))))))))))

/-! ### The constructor -/

variable {V : Type}

/-- The objects of constants. -/
structure Consts (V : Type) where
  lit : Lit → V
  cexpr : Text → V

/-- The object an argument refers to. -/
def CArg.value (w : Consts V) (env : Text → Option V) : CArg → Option V
  | .name x _ => env x
  | .int i => some (w.lit (.int i))
  | .str t => (unquote t).map fun s => w.lit (.str s)
  | .raw t => some (w.cexpr t)

/-- The objects of several arguments. -/
def values (w : Consts V) (env : Text → Option V) : List CArg → Option (List V)
  | [] => some []
  | a :: as =>
    match a.value w env, values w env as with
    | some v, some vs => some (v :: vs)
    | _, _ => none

/-- Evaluating arguments in the given order.  Every parameter may have been passed an rvalue, and a forwarded rvalue
may be moved from at once; using it after that is the failure `none`. -/
def readAll (moved : List Text) : List CArg → Option (List Text)
  | [] => some moved
  | .name x fwd :: as => if x ∈ moved then none else readAll (if fwd then x :: moved else moved) as
  | _ :: as => readAll moved as

/-- The member initialisers run in the order of the declarations, which is that of the list.  `orders` says in which
order the arguments of each are evaluated; C++ leaves that open.  The outcome is name, type and arguments of each
member. -/
def construct (w : Consts V) (env : Text → Option V) (moved : List Text) :
    List CMember → List (List CArg) → Option (List (Text × Text × List V))
  | [], [] => some []
  | m :: ms, order :: orders =>
    match values w env m.init, readAll moved order with
    | some vs, some moved => (construct w env moved ms orders).map ((m.name, m.type, vs) :: ·)
    | _, _ => none
  | _, _ => none

/-- `orders` holds, for each member, its arguments in some order. -/
def Orders : List CMember → List (List CArg) → Prop
  | [], [] => True
  | m :: ms, order :: orders => order.Perm m.init ∧ Orders ms orders
  | _, _ => False

/-- The parameters are bound to the arguments of the call. -/
def bindParams (params : List Text) (args : List V) (x : Text) : Option V := (params.zip args).lookup x

/-! ### Definitions -/

/-- The object an argument of a definition stands for. -/
def argValue (w : Consts V) (args : List V) : Expr → Option V
  | .var x => args[x]?
  | .sym t => some (w.cexpr t)
  | .num i => some (w.lit (.int i))
  | .str s => some (w.lit (.str s))
  | _ => none

/-- The objects of several arguments. -/
def argValues (w : Consts V) (args : List V) : List Expr → Option (List V)
  | [] => some []
  | e :: es =>
    match argValue w args e, argValues w args es with
    | some v, some vs => some (v :: vs)
    | _, _ => none

/-- What the members of a definition are: type, and the objects they are initialised with, in order. -/
def described (w : Consts V) (args : List V) : List Elem → Option (List (Text × List V))
  | [] => some []
  | .compose _ (.store type es) :: rest =>
    match argValues w args es, described w args rest with
    | some vs, some ds => some ((type, vs) :: ds)
    | _, _ => none
  | _ => none

/-- A constant or a parameter of the definition. -/
def argAccepted (params : Nat) : Expr → Bool
  | .var x => x < params
  | .sym (c :: _) => c != '.'
  | .num i => -2 ^ 31 ≤ i && i < 2 ^ 31
  | .str _ => true
  | _ => false

/-- A member name, other text, or a parameter of the definition. -/
def keyAccepted (params : Nat) : Key → Bool
  | .member n => n != []
  | .text (c :: _) => c != '.'
  | .text [] => false
  | .param i => i < params

/-- A member: a key and a store of a type with arguments. -/
def memberAccepted (params : Nat) : Elem → Bool
  | .compose k (.store _ es) => keyAccepted params k && es.all (argAccepted params)
  | _ => false

mutual
/-- A store that has a type: no parameter in it. -/
def Store.typed (params : Nat) : Store → Bool
  | .store _ es => es.all (argAccepted params)
  | .variant s ss => s.typed params && typedAll params ss
  | .param _ => false
/-- All of them have a type. -/
def typedAll (params : Nat) : List Store → Bool
  | [] => true
  | s :: ss => s.typed params && typedAll params ss
end

mutual
/-- The C++ type of a store: its own, or a holder of one of the types of the alternatives, in order. -/
def Store.cppType : Store → Text
  | .store t _ => t
  | .variant s ss =>
    tx "::nbdl::variant_holder<" ++ (separated (tx ", ") (s.cppType :: cppTypes ss) ++ tx ">")
  | .param _ => []
/-- The types of several stores. -/
def cppTypes : List Store → List Text
  | [] => []
  | s :: ss => s.cppType :: cppTypes ss
end

/-- The text of a class which is a type under another name. -/
def aliasText (name type : Text) : Text :=
  tx "class " ++ (name ++ (tx " : public nbdl::strong_alias<" ++ (type ++ (tx "> {\npublic:\n" ++
  (tx "using Base = nbdl::strong_alias<" ++ (type ++ (tx ">;\n" ++
  (tx "using Base::Base;\n" ++ (tx "using Base::operator=;\n" ++ tx "};\n")))))))))

/-- The strings among the arguments mean themselves between quotes. -/
def Def.stringsOk (d : Def) : Prop :=
  ∀ k t es s, .compose k (.store t es) ∈ d.elems → .str s ∈ es → unquote s = some s

/-- The member names the definition gives. -/
def Def.givenNames (d : Def) : List Text :=
  d.elems.filterMap fun e => match e with | .compose (.member n) _ => some n | _ => none

/-- The name without the namespaces: what follows the last colon. -/
def lastComponent (s : Text) : Text := (s.reverse.takeWhile (· ≠ ':')).reverse

/-- The argument is the parameter of that name. -/
def CArg.mentions (x : Text) : CArg → Bool
  | .name y _ => x == y
  | _ => false

/-- The class is what the definition describes. -/
structure Implements (d : Def) (c : CClass) : Prop where
  /-- The class has the name of the definition. -/
  name : c.name = lastComponent d.name
  /-- It has as many parameters; their names are distinct identifiers. -/
  params : c.params.length = d.params ∧ c.params.Nodup ∧ c.params.all identifier = true
  /-- It has one member for each element, in order, of the type and with the name given. -/
  members : c.members.length = d.elems.length ∧
    ∀ (j : Nat) (k : Key) (t : Text) (es : List Expr), d.elems[j]? = some (Elem.compose k (.store t es)) →
      ∃ m, c.members[j]? = some m ∧ m.type = t ∧ m.init.length = es.length ∧
        ∀ n, k = .member n → m.name = n
  /-- The names of the members are distinct, if those given are and none of them looks like a generated one. -/
  names : d.givenNames.Nodup → (∀ i : Nat, tx "anon_" ++ (toString i).toList ∉ d.givenNames) →
    (c.members.map (·.name)).Nodup
  /-- The constructor initialises every member with the objects described, whatever the order in which the arguments
  are evaluated, and uses no argument after it may have been moved from. -/
  constructs : ∀ {V : Type} (w : Consts V) (args : List V), args.length = d.params → d.stringsOk →
    ∀ orders, Orders c.members orders →
      ∃ r, construct w (bindParams c.params args) [] c.members orders = some r ∧
        described w args d.elems = some (r.map (·.2)) ∧ r.map (·.1) = c.members.map (·.name)
  /-- An argument is forwarded exactly if it is not mentioned again: not in the same initialiser, and not in one that
  comes later. -/
  forwards : ∀ pre m post l x f r, c.members = pre ++ m :: post → m.init = l ++ .name x f :: r →
    (f = true ↔ (∀ a ∈ l ++ r, a.mentions x = false) ∧ ∀ n ∈ post, ∀ a ∈ n.init, a.mentions x = false)

/-- The definitions there is a class for: nothing, one store with a type, or members, possibly after a parameter. -/
def Def.accepted (d : Def) : Bool :=
  match d.elems with
  | [] => true
  | [.single s] => s.typed d.params
  | .single (.param i) :: es => i < d.params && es.all (memberAccepted d.params)
  | es => es.all (memberAccepted d.params)

end Nbdl.StoreDef
