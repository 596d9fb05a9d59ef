import Verif.UiPath.Model
import Verif.JsVal.Model
import Verif.WsApi.Model
import Verif.JsPromise.Model
import Verif.ClassReader.Spec
/-!
# The model against the project's own tests: user interface helpers, JavaScript values, store definitions

See `Verif/Tests/Bytes.lean`.
-/
namespace Nbdl.Tests.Helpers

open Nbdl

/-! ## test/nbdl/ui_helper -/

open UiPath

/-- A value of the tests: a number, a text, nothing, a map, or an optional. -/
inductive Val where
  | num (n : Nat)
  | str (s : String)
  | nothing
  | map (l : List (Val × Val))
  | tup (l : List Val)
  deriving Repr

/-- As a list of numbers, to be compared. -/
def code : Val → List Nat
  | .num n => [0, n]
  | .str s => 1 :: s.toList.map Char.toNat ++ [0]
  | .nothing => [2]
  | .map l => 3 :: codes l
  | .tup l => 4 :: codel l
where
  codes : List (Val × Val) → List Nat
    | [] => [9]
    | (a, b) :: l => code a ++ code b ++ codes l
  codel : List Val → List Nat
    | [] => [9]
    | a :: l => code a ++ codel l

/-- The type of a value: the kind, and the keys of a map with the types of their values (so nested maps differ). -/
def tyOf : Val → List Nat
  | .num _ => [0]
  | .str _ => [1]
  | .nothing => [2]
  | .map l => 3 :: tys l
  | .tup _ => [4]
where
  tys : List (Val × Val) → List Nat
    | [] => [9]
    | (k, v) :: l => code k ++ tyOf v ++ tys l

/-- Maps are looked up; function 0 makes a tuple, function 1 appends a `z`. -/
def w : World Val (List Nat) where
  child s k :=
    match s with
    | .map l => (l.find? fun e => code e.1 == code k).map (·.2)
    | _ => none
  type := tyOf
  fn i vs :=
    match i, vs with
    | 0, vs => .tup vs
    | _, [.str s] => .str (s ++ "z")
    | _, _ => .nothing
  pred _ _ := false

/-- What the function is called with. -/
def seen (c : Calls Val) : Cpp (List (List (List Nat))) := c.map fun l => l.map fun vs => vs.map code

/-- A list of parameters -/
def ps : List (Param Val (List Nat)) → Params Val (List Nat)
  | [] => .nil
  | x :: xs => .cons x (ps xs)

/-- A number as a constant -/
def n (i : Nat) : Param Val (List Nat) := .const (.num i)

/-- `get(xs...)` -/
def get' (xs : List (Param Val (List Nat))) : Path Val (List Nat) := mkGet (ps xs)

/-- match_params_spec.cpp:27-48 -/
example : seen (matchParams w (.map [(.num 7, .str "OK!")]) (ps [n 0, .path (get' [n 7]), n 2]) fun vs => .ok [vs])
  = .ok [[code (.num 0), code (.str "OK!"), code (.num 2)]] := by decide +kernel

/-- match_params_spec.cpp:50-99: `get_fn{}` of the narrowed path is that path. -/
def matcher (v : Val) : Cpp (List (List (List Nat))) :=
  match mkMatch (get' [n 7]) [(some [2], fun _ => ps [.const (.str "nothing")]), (some [1], fun p => ps [.path p])] with
  | some b => seen (matchParams w (.map [(.num 7, v)]) (ps [n 0, .branch b, n 2]) fun vs => .ok [vs])
  | none => .ub

example : matcher .nothing = .ok [[code (.num 0), code (.str "nothing"), code (.num 2)]]
  ∧ matcher (.str "something") = .ok [[code (.num 0), code (.str "something"), code (.num 2)]] := by decide +kernel

/-- match_params_spec.cpp:101-141 -/
def nested : Val := .map [(.num 1, .str "woof123")]

example : ((mkMatchWhen (some (tyOf nested)) (get' [n 0])).map fun p =>
    seen (matchParams w (.map [(.num 0, nested)]) (ps [.path (mkGetOf p (ps [n 1]))]) fun vs => .ok [vs]))
  = some (.ok [[code (.str "woof123")]]) := by decide +kernel

/-- match_params_spec.cpp:143-166 -/
example : seen (matchParams w (.map [(.num 7, .str "OK!")])
    (ps [.apply 0 (ps [n 0, .path (get' [n 7])]), n 2]) fun vs => .ok [vs])
  = .ok [[code (.tup [.num 0, .str "OK!"]), code (.num 2)]] := by decide +kernel

/-- match_path_spec.cpp:20-27: the nested maps from key `i` on -/
def deep : Nat → Nat → Val
  | 0, _ => .num 42
  | f + 1, i => .map [(.num i, deep f (i + 1))]

/-- The type at the given depth. -/
def T (i : Nat) : List Nat := tyOf (deep (6 - i) i)

/-- A path of `match_type` nodes, the last step first. -/
def types : List (List Nat × Nat) → Path Val (List Nat)
  | [] => .nil
  | (t, k) :: r => .matchType (some t) (ps [n k]) (types r)

/-- What is found. -/
def found (p : Path Val (List Nat)) : Cpp (List (List (List Nat))) :=
  seen (matchPath w (deep 6 0) p fun v => .ok [[v]])

/-- match_path_spec.cpp:38-137 -/
example : found .nil = .ok [[code (deep 6 0)]] ∧ found (get' [n 0]) = .ok [[code (deep 5 1)]]
  ∧ found (types [(T 2, 1), (T 1, 0)]) = .ok [[code (deep 4 2)]]
  ∧ found (types [(T 6, 5), (T 5, 4), (T 4, 3), (T 3, 2), (T 2, 1), (T 1, 0)]) = .ok [[code (.num 42)]]
  ∧ found (types [(T 6, 6), (T 5, 4), (tyOf (.num 0), 3), (T 3, 2), (T 2, 1), (T 1, 0)]) = .ok [] := by
  decide +kernel

/-- match_path_spec.cpp:139-161 -/
example : ((mkMatchWhen (some [0]) (get' [n 1, .keyAt (get' [n 0])])).map fun p =>
    seen (matchPath w (.map [(.num 0, .str "foo"), (.num 1, .map [(.str "foo", .num 142)])]) p fun v => .ok [[v]]))
  = some (.ok [[code (.num 142)]]) := by decide +kernel

/-- match_path_spec.cpp:163-187 -/
example : ((mkMatchWhen (some [0]) (get' [n 1, .apply 1 (ps [.path (get' [n 0])])])).map fun p =>
    seen (matchPath w (.map [(.num 0, .str "foo"), (.num 1, .map [(.str "fooz", .num 242)])]) p fun v => .ok [[v]]))
  = some (.ok [[code (.num 242)]]) := by decide +kernel

/-- match_path_spec.cpp:189-213 -/
example : (do
    let q ← mkMatchWhen (some [1]) (get' [n 0, .keyAt (get' [n 2])])
    let p ← mkMatchWhen (some [0]) (get' [n 1, .apply 1 (ps [.path q])])
    some (seen (matchPath w (.map [(.num 0, .map [(.num 1001, .str "foo")]),
      (.num 1, .map [(.str "fooz", .num 2420)]), (.num 2, .num 1001)]) p fun v => .ok [[v]])))
  = some (.ok [[code (.num 2420)]]) := by decide +kernel

/-- params_concat.cpp -/
def text : Val → List Byte
  | .str s => ascii s
  | _ => []

example : concatParams w text (ps [.const (.str "foo"), .const (.str "bar"), .const (.str "baz"),
    .path (get' [n 0]), .const (.str "foo")]) (.map [(.num 0, .str " Hello, world! ")])
  = .ok (ascii "foobarbaz Hello, world! foo") := by decide +kernel

/-! ## test/nbdl/js/val.cpp, promise.cpp -/

/-- What the values at some addresses are in the end. -/
def vals (l : List (JsVal.Op Nat)) (as : List Nat) : Cpp (List (Option Nat)) :=
  (JsVal.run l JsVal.init).map fun m => as.map (JsVal.get m)

/-- val.cpp:14-27 -/
example : vals [.make 1, .make 2, .transform 1 fun _ => some 5, .transform 1 fun x => x.map fun x => x * x,
    .transform 2 fun _ => some 25] [1, 2] = .ok [some 25, some 25] := by decide +kernel

/-- val.cpp:29-47 -/
example : vals [.make 1, .make 2, .transform 1 fun _ => some 42, .assign 2 1,
    .transform 2 fun x => x.map fun x => x + x] [1, 2] = .ok [some 42, some 84] := by decide +kernel

/-- val.cpp:49-68 -/
example : vals [.make 1, .make 2, .transform 1 fun _ => some 42, .moveAssign 2 1,
    .transform 2 fun x => x.map fun x => x + x] [1, 2] = .ok [none, some 84] := by decide +kernel

/-- The names of the captures, promise.cpp:79-87 -/
def names : List String :=
  ["input0", "input1", "input2", "input3", "input4", "input5", "input6", "input7"]

/-- promise.cpp:68-135: the code sees every capture by its name, and `resolve` first. -/
example : ((JsPromise.withCapture (fun s => s) names).map fun c => c.map fun c =>
    (c.arg0, names.map fun x => c.env x))
  = some (.ok (some .resolve, names.map fun x => some (some (.value x)))) := by decide +kernel

/-- promise.cpp:143-213 with c_library.js: the function is called with the captures in order -/
example : JsPromise.cFunc (fun s => s) names = some (.ok (.resolve :: .reject :: names.map .value)) := by
  decide +kernel

/-! ## test/nbdl/websocket_api/client_endpoint.cpp, client_endpoint_fail.cpp -/

/-- Payloads are numbered; the text of payload `i` is `i`, and the server answers with `100 + i`. -/
def js : WsApi.Json Nat where
  parse t := t.head?.map BitVec.toNat
  stringify j := [BitVec.ofNat 16 j]

/-- client_endpoint.cpp:96-152 -/
example : WsApi.run js .init (.opened :: ([1, 2, 3, 4, 5, 6].map .send ++
      [1, 2, 3, 4, 5, 6].map (fun i => .message (.text [BitVec.ofNat 16 (100 + i)])) ++ [.closed 1000]))
  = .ok (.onReady :: ([1, 2, 3, 4, 5, 6].map (fun i => .sent [BitVec.ofNat 16 i]) ++
      [101, 102, 103, 104, 105, 106].map .onMessage ++ [.onClose])) := by decide +kernel

/-- client_endpoint_fail.cpp: only `close` is reported -/
example : WsApi.run js .init [.closed 1006] = .ok [.onClose] := by decide +kernel

/-! ## test/nbdl/spec/context.cpp -/

open Dsl StoreDef ClassReader

/-- context.cpp:8-22 -/
def myContext : StoreDef.Def where
  name := tx "my_context"
  params := 2
  elems := [
    .compose (.member (tx "foo")) (.store (tx "int") [.num 42]),
    .compose (.member (tx "bar")) (.store (tx "std::string") [.str (tx "initial string value")]),
    .compose (.member (tx "baz")) (.store (tx "int") [.var 0]),
    .compose (.member (tx "boo")) (.store (tx "std::string") [.var 1])]

/-- The text -/
def myText : Dsl.Text := match compileStore myContext with | .ok t => t | _ => []

/-- The class: both parameters are forwarded. -/
def myClass : CClass where
  name := tx "my_context"
  params := [tx "arg_0", tx "arg_1"]
  members := [⟨tx "int", tx "foo", [.int 42]⟩,
    ⟨tx "std::string", tx "bar", [.str (tx "initial string value")]⟩,
    ⟨tx "int", tx "baz", [.name (tx "arg_0") true]⟩,
    ⟨tx "std::string", tx "boo", [.name (tx "arg_1") true]⟩]

example : readDecl myText = some (.cls myClass) := by decide +kernel

/-- Numbers stand for themselves, 1000 for the text of the definition. -/
def consts : Consts Nat where
  lit l := match l with | .int i => i.toNat | _ => 1000
  cexpr _ := 0

/-- context.cpp:26-34; 1001 stands for the text passed -/
example : construct consts (bindParams myClass.params [5, 1001]) [] myClass.members (myClass.members.map (·.init))
  = some [(tx "foo", tx "int", [42]), (tx "bar", tx "std::string", [1000]), (tx "baz", tx "int", [5]),
      (tx "boo", tx "std::string", [1001])] := by decide +kernel

end Nbdl.Tests.Helpers
