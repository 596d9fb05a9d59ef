import Verif.Dsl.Spec
/-!
# The model against the project's own tests: match functions

See `Verif/Tests/Bytes.lean`.  The functions of the tests are written in the language of `Verif/Dsl/Model.lean`;
what their procedures and variables stand for (`define`) is put in place.  That the generated C++ functions do the same is
`Dsl.generated_function_does_what_source_says_partial`; here it is checked that the compiler takes them and that their
meaning is what the tests expect.
-/
namespace Nbdl.Tests.SpecLang

open Nbdl Dsl

/-- The contents of a member. -/
inductive Cell
  | int (n : Int)
  | str (s : String)
  | absent
  deriving DecidableEq

/-- Objects: members by their path, values, texts of C++ and the callback. -/
inductive Obj
  | ref (path : String)
  | val (c : Cell)
  | code (t : String)
  | callback
  deriving DecidableEq

/-- The members of the stores, and what the callback was called with. -/
structure Mem where
  at_ : List (String × Cell)
  calls : List (List Cell)
  deriving DecidableEq

def Mem.load (m : Mem) : Obj → Cell
  | .ref p => (m.at_.lookup p).getD .absent
  | .val c => c
  | _ => .absent

def Mem.store (m : Mem) (p : String) (c : Cell) : Mem :=
  { m with at_ := m.at_.map fun e => if e.1 = p then (p, c) else e }

/-- Functions of the tests: the effect and the result. -/
def callCode (m : Mem) (f : String) (args : List Obj) : Mem × Obj :=
  match f, args with
  | "std::plus<int>{}", [a, b] | "std::plus<size_t>{}", [a, b] =>
    match m.load a, m.load b with
    | .int x, .int y => (m, .val (.int (x + y)))
    | _, _ => (m, .val .absent)
  | "std::greater_equal<int>{}", [a, b] =>
    match m.load a, m.load b with
    | .int x, .int y => (m, .val (.int (if y ≤ x then 1 else 0)))
    | _, _ => (m, .val .absent)
  | "nbdl::assign", [.ref p, b] => (m.store p (m.load b), .val .absent)
  | _, _ => (m, .val .absent)

/-- `o.m(args)` -/
def callMember (m : Mem) (o : Obj) (f : String) (args : List Obj) : Mem × Obj :=
  match o, f, args with
  | .ref p, "clear", [] => (m.store p (.str ""), .val .absent)
  | .ref p, "append", [a] =>
    match m.load (.ref p), m.load a with
    | .str s, .str t => (m.store p (.str (s ++ t)), .val .absent)
    | _, _ => (m, .val .absent)
  | _, _, _ => (m, .val .absent)

/-- `matching`: what a store is unwrapped to; `under`: what is under a key; `types`: the type of an object. -/
def world (matching : String → String) (under : String → String → Obj) (types : Obj → String) : World Mem Obj where
  lit := fun
    | .int i => .val (.int i)
    | .str s => .val (.str (String.ofList s))
  cexpr := fun t => .code (String.ofList t)
  asConst := id
  matchStore := fun s o k => (s, match o, k with
    | .ref p, none => .ref (matching p)
    | .ref p, some (.code k) => under p k
    | o, _ => o)
  get := fun _ o _ => o
  member := fun _ o m => match o with
    | .ref p => .ref (p ++ "." ++ String.ofList m)
    | o => o
  compose := fun s _ r _ => (s, r)
  call := fun s f args => match f with
    | .callback => ({ s with calls := s.calls ++ [args.map s.load] }, .val .absent)
    | .code t => callCode s t args
    | _ => (s, .val .absent)
  memberCall := fun s o m args => callMember s o (String.ofList m) args
  truth := fun s o => s.load o = .int 1
  is := fun o t => types o = String.ofList t

def sym (s : String) : Expr := .sym s.toList

/-! ## test/nbdl/spec/match.cpp -/

/-- match.cpp:86-87: the context made of 5, "this is a boo" and 9000, match.cpp:25-35 -/
def ctx : Mem := ⟨[("ctx.foo", .int 42), ("ctx.bar", .str "initial string value for bar"), ("ctx.baz", .int 5),
  ("ctx.boo.first", .str "this is a boo"), ("ctx.boo.second", .int 9000), ("ctx.my_var.value!2", .str "this is a boo")], []⟩

/-- The variant holds its second alternative, a string. -/
def ctxWorld : World Mem Obj :=
  world (fun p => if p = "ctx.my_var.value" then "ctx.my_var.value!2" else p)
    (fun p k => match p, k with
      | "ctx.my_var", "nbdl::variant_value" => .ref "ctx.my_var.value!2"
      | "ctx.my_var", "nbdl::variant_index" | "ctx.my_var", "nbdl::variant_index_t{}" => .val (.int 2)
      | p, _ => .ref p)
    (fun o => if o = .ref "ctx.my_var.value!2" then "std::string" else "int")

/-- What the callback is called with when a function of one store is called with the context. -/
def calledWith (body : List Stmt) : Option (List (List Cell)) :=
  if (⟨"f".toList, 1, body⟩ : Fn).accepted then
    ((⟨"f".toList, 1, body⟩ : Fn).run ctxWorld ctx [.ref "ctx", .callback]).map (·.calls)
  else none

/-- `match_0`, match.cpp:38-42 and 97-103 -/
example : calledWith [.call [.path 0 [sym ".foo"], .path 0 [sym ".bar"]]]
  = some [[.int 42, .str "initial string value for bar"]] := by decide +kernel

/-- `match_1`, match.cpp:45-49 and 105-111 -/
example : calledWith [.call [.path 0 [sym ".baz"], .path 0 [sym ".boo", sym ".first"]]]
  = some [[.int 5, .str "this is a boo"]] := by decide +kernel

/-- `match_2`, match.cpp:52-53 and 113-121 without the increment by the callback -/
example : calledWith [.call [.path 0 [sym ".boo", sym ".second"]]] = some [[.int 9000]] := by decide +kernel

/-- `match_3`, match.cpp:57-58 and 123-131 -/
example : calledWith [.call [.path 0 [sym ".my_var", sym ".value"]]] = some [[.str "this is a boo"]] := by
  decide +kernel

/-- `match_4`, match.cpp:62-64 and 135-143 -/
example : calledWith [.matchPath (.path 0 [sym ".my_var", sym ".value"]) [.mk [] 7 [.call [.var 7]]]]
  = some [[.str "this is a boo"]] := by decide +kernel

/-- `match_5`, match.cpp:67-72 and 147-151 -/
example : calledWith [.matchPath (.path 0 [sym ".my_var", sym "nbdl::variant_value"])
    [.mk "std::string".toList 7 [.call [.var 7]], .mk [] 7 [.noop 7]]] = some [[.str "this is a boo"]] := by
  decide +kernel

/-- `match_6` and `match_7`, match.cpp:75-84 and 153-167 -/
example : calledWith [.call [.path 0 [sym ".my_var", sym "nbdl::variant_index"]]] = some [[.int 2]]
  ∧ calledWith [.call [.path 0 [sym ".my_var", sym "nbdl::variant_index_t{}"]]] = some [[.int 2]] := by
  decide +kernel

/-! ## test/nbdl/spec/match_cond.cpp -/

/-- `my-concat`, match_cond.cpp:44-55 -/
def concat (member : String) : List Stmt :=
  matchCond [(.visit (sym "std::greater_equal<int>{}") [.path 0 [sym member, sym "nbdl::index<0>"], .num 42],
      [.visit (sym ".append") [.path 0 [sym ".result_val"], .path 0 [sym member, sym "nbdl::index<1>"]]])]
    [.visit (sym "nbdl::noop") []]

/-- `combo_concat`, match_cond.cpp:37-61 -/
def comboConcat : Fn := ⟨"combo_concat".toList, 1,
  .visit (sym ".clear") [.path 0 [sym ".result_val"]] :: (concat ".val1" ++ concat ".val2" ++ concat ".val3"
    ++ [.call [.num 5]])⟩

/-- match_cond.cpp:67-79: the three weights with "foo", "bar" and "baz" -/
def weighted (a b c : Int) : Mem := ⟨[("ctx.result_val", .str "stale"),
  ("ctx.val1[0]", .int a), ("ctx.val1[1]", .str "foo"), ("ctx.val2[0]", .int b), ("ctx.val2[1]", .str "bar"),
  ("ctx.val3[0]", .int c), ("ctx.val3[1]", .str "baz")], []⟩

def pairWorld : World Mem Obj :=
  world id (fun p k => match k with
    | "nbdl::index<0>" => .ref (p ++ "[0]")
    | "nbdl::index<1>" => .ref (p ++ "[1]")
    | _ => .ref p) (fun _ => "")

/-- The result in the context -/
def resultOf (m : Mem) : Option Cell :=
  (comboConcat.run pairWorld m [.ref "ctx", .callback]).map fun m => m.load (.ref "ctx.result_val")

/-- match_cond.cpp:66-87 -/
example : comboConcat.accepted = true
  ∧ resultOf (weighted 0 0 0) = some (.str "")
  ∧ resultOf (weighted 43 5 100) = some (.str "foobaz")
  ∧ resultOf (weighted 0 5 100) = some (.str "baz")
  ∧ resultOf (weighted 43 9000 100) = some (.str "foobarbaz") := by decide +kernel

/-! ## test/nbdl/spec/visit.cpp -/

/-- `apply_message`, visit.cpp:54-98: the stores are the context and the message -/
def applyMessage : Fn := ⟨"apply_message".toList, 2,
  [.matchPath (.var 1)
    [.mk "my::message_1".toList 7 [.visit (sym "nbdl::assign") [.path 0 [sym ".sum"],
       .visit (sym "std::plus<int>{}") [.path 0 [sym ".sum"], .path 7 [sym ".value"]]]],
     .mk "my::message_2".toList 7 [.visit (sym ".insert") [.path 0 [sym ".fav_games"], .path 7 [sym ".name"],
       .path 7 [sym ".fav_game"]]],
     .mk "my::message_3".toList 7 [.visit (sym ".erase") [.path 0 [sym ".fav_games"], .path 7 [sym ".name"]]],
     .mk "my::message_4".toList 7 [.matchPath (.path 0 [sym ".message_4_count"])
       [.mk [] 8 [.visit (sym "nbdl::assign") [.var 8,
         .visit (sym "std::plus<size_t>{}") [.var 8, .num 1]]]]]],
   .call [.path 0 [sym ".last_message"]]]⟩

/-- The objects `m1` are messages of the first kind, `m4` of the fourth; `last_message` is empty. -/
def messageWorld : World Mem Obj :=
  world id (fun p _ => .ref p) (fun o => match o with
    | .ref "m1" => "my::message_1"
    | .ref "m4" => "my::message_4"
    | _ => "")

/-- One message after another: first kind with a value, or fourth kind. -/
def applyAll : List (Option Int) → Mem → Option Mem
  | [], m => some m
  | some n :: ms, m =>
    (applyMessage.run messageWorld (m.store "m1.value" (.int n)) [.ref "ctx", .ref "m1", .callback]).bind (applyAll ms)
  | none :: ms, m => (applyMessage.run messageWorld m [.ref "ctx", .ref "m4", .callback]).bind (applyAll ms)

def start : Mem := ⟨[("ctx.sum", .int 0), ("ctx.message_4_count", .int 0), ("m1.value", .int 0)], []⟩

/-- The sum and the count -/
def sumAndCount (ms : List (Option Int)) : Option (Cell × Cell) :=
  (applyAll ms start).map fun m => (m.load (.ref "ctx.sum"), m.load (.ref "ctx.message_4_count"))

/-- visit.cpp:110-139 -/
example : applyMessage.accepted = true
  ∧ sumAndCount [] = some (.int 0, .int 0)
  ∧ sumAndCount [some 3] = some (.int 3, .int 0)
  ∧ sumAndCount [some 3, some 4] = some (.int 7, .int 0)
  ∧ sumAndCount [some 3, some 4, some 5] = some (.int 12, .int 0)
  ∧ sumAndCount [some 3, some 4, some 5, none] = some (.int 12, .int 1)
  ∧ sumAndCount [some 3, some 4, some 5, none, none] = some (.int 12, .int 2)
  ∧ sumAndCount [some 3, some 4, some 5, none, none, none] = some (.int 12, .int 3) := by decide +kernel

end Nbdl.Tests.SpecLang
