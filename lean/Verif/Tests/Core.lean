import Verif.Promise.Model
import Verif.Path.Model
import Verif.PathPromise.Model
import Verif.HoldLazy.Model
import Verif.Variant.Model
import Verif.Params.Model
import Verif.Concat.Model
import Verif.ApiSig.Model
/-!
# The model against the project's own tests: promises, paths, variants and small pieces

See `Verif/Tests/Bytes.lean`.
-/
namespace Nbdl.Tests.Core

open Nbdl

/-! ## test/nbdl/core/pipe.cpp -/

open Promise

/-- pipe.cpp:20-30: a promise that appends a number -/
def op (i : Nat) : Step (List Nat) Nat := .promise i fun s => [.resolve (s ++ [i])]

/-- What a step with a function or a `tap` is called with. -/
def seen (id : Nat) (t : List (Event (List Nat) Nat)) : List (List Nat) :=
  t.filterMap fun e => match e with
    | .ran i v => if i = id then some v else none
    | _ => none

/-- The rejections a handler is called with. -/
def caught (id : Nat) (t : List (Event (List Nat) Nat)) : List Nat :=
  t.filterMap fun e => match e with
    | .handled i v => if i = id then some v else none
    | _ => none

/-- pipe.cpp:62-86 -/
def pipe1 := run [op 1, .func 101 id, op 2, op 3, op 4, .func 102 id] [42]

example : seen 101 pipe1 = [[42, 1]] ∧ seen 102 pipe1 = [[42, 1, 2, 3, 4]] := by decide +kernel

/-- pipe.cpp:88-114 -/
def pipe2 := runPipe (.tuple [
    .tuple [.step (op 1), .step (op 2), .step (op 3), .step (op 4)],
    .tuple [.step (op 5), .step (op 6), .step (op 7)],
    .step (.func 100 fun s => s.map fun x => x * x),
    .step (.func 101 id)]) ([] : List Nat)

example : seen 101 pipe2 = [[1, 4, 9, 16, 25, 36, 49]] := by decide +kernel

/-- pipe.cpp:116-135 and 137-156: rejected with 1 and with 2 -/
def pipe3 (e : Nat) := run [op 1, .promise 100 fun _ => [.reject e], .tap 101, op 3, .tap 102, op 4,
    .catch_ 201 (· == 1), .catch_ 202 (· == 2)] [42]

example : caught 201 (pipe3 1) = [1] ∧ caught 202 (pipe3 1) = [] ∧ seen 101 (pipe3 1) = []
  ∧ seen 102 (pipe3 1) = [] := by decide +kernel

example : caught 201 (pipe3 2) = [] ∧ caught 202 (pipe3 2) = [2] ∧ seen 101 (pipe3 2) = []
  ∧ seen 102 (pipe3 2) = [] := by decide +kernel

/-! ## test/nbdl/core/run_async_loop.cpp

The counter of the second promise is the value that is handed on. -/

/-- run_async_loop.cpp:16-43 -/
def counting := runLoop (E := Nat)
  [.promise 1 fun v => [.resolve v],
   .promise 2 fun v => if 42 ≤ v.headD 0 + 1 then [.terminate] else [.resolve [v.headD 0 + 1]]] 100 [0]

example : (seen 1 counting).length = 42 ∧ (seen 2 counting).length = 42 := by decide +kernel

/-! ## test/nbdl/core/detail/match_if.cpp -/

/-- match_if.cpp:36-57 -/
def preds : List (Nat → Bool) := [(· == 40), (· == 41), (· == 42), (· == 43), fun _ => true]

example : matchIf preds 40 = .ok 0 ∧ matchIf preds 41 = .ok 1 ∧ matchIf preds 42 = .ok 2
  ∧ matchIf preds 43 = .ok 3 ∧ matchIf preds 44 = .ok 4 ∧ matchIf preds 45 = .ok 4 := by decide +kernel

/-! ## test/nbdl/core/hold_lazy.cpp -/

/-- hold_lazy.cpp:48-72: when the held value resolves its step, the pipeline goes on to the end, once. -/
example : HoldLazy.run ⟨[.func, .lazy false, .func], false⟩ 0 [.fire 1] = .ok ⟨false, [], [(1, 0)], [(1, 0)]⟩ := by
  decide +kernel

/-! ## test/nbdl/core/get_path.cpp, match_path.cpp, match.cpp, entity.cpp, store_compose.cpp, apply_action.cpp -/

open Path

/-- Stores with names as keys and texts as values. -/
abbrev St := Store String String Unit

/-- A message or an assignment: a function on texts for `append_z`, or a key with such a function. -/
inductive Act
  | append (s : String)
  | appendAt (k s : String)
  | set (s : St)

/-- Calling the function, or assigning: apply_action.hpp:51-66 -/
def assign : St → Act → Option St
  | .value v, .append s => some (.value (v ++ s))
  | .state ms, .appendAt k s =>
    some (.state (ms.map fun m => match m.2 with
      | .value v => if m.1 = k then (m.1, .value (v ++ s)) else m
      | _ => m))
  | _, .set s => some s
  | _, _ => none

def ops : Ops String String Unit Act := ⟨fun _ _ => "", fun _ _ => none, assign⟩

/-- The text that a function was called with. -/
def txt : Option St → String
  | some (.value v) => v
  | some .notInSet => "not_in_set"
  | some _ => "a store"
  | none => "does not compile"

/-- get_path.cpp:45-68 -/
example : txt (getPath (.state [("foo", .state [("bar", .value "hello")])] : St) ["foo", "bar"]) = "hello" := by
  decide +kernel

/-- match_path.cpp:20-32: `nothing` is the value "nothing". -/
def account (person : Option (String × String)) : St :=
  .state [("username", .value "@JasonRice_"),
    ("person", .variant (match person with
      | some (f, l) => .state [("name", .state [("name_first", .value f), ("name_last", .value l)])]
      | none => .value "nothing"))]

/-- match_path.cpp:61-95: the function for `name_last` is called, or the other one with `nothing` -/
example : txt (matchPath ops (account (some ("Jason", "Rice"))) ["person", "name", "name_last"]) = "Rice"
  ∧ txt (matchPath ops (account none) ["person", "name", "name_last"]) = "nothing" := by decide +kernel

/-- entity.cpp:120-155 -/
example : txt (matchPath ops (.state [("username", .value "@JasonRice_"),
    ("person", .state [("name", .value "Jason Rice"), ("age", .value "22")])]) ["person", "name"]) = "Jason Rice" := by
  decide +kernel

/-- match.cpp:44-56: a value that is not a store -/
example : txt (matchUnit (.value "Hello, string!" : St)) = "Hello, string!" := by decide +kernel

/-- match.cpp:58-136: a `hana::map`, an entity, a tuple and a pair -/
example : txt (matchKey ops (.state [("key_1", .value "Hello, World!"), ("key_2", .value "42")]) "key_1")
    = "Hello, World!"
  ∧ txt (matchKey ops (.state [("name_first", .value "John"), ("name_last", .value "Smith")]) "name_first") = "John"
  ∧ txt (matchKey ops (.state [("name_first", .value "John"), ("name_last", .value "Smith")]) "name_last")
    = "Smith" := by decide +kernel

/-- match.cpp:138-176: a variant, and what is in a variant -/
example : txt (matchUnit (.variant (.value "Hello, maybe!") : St)) = "Hello, maybe!"
  ∧ txt (matchKey ops (.variant (.state [("name_first", .value "John"), ("name_last", .value "Smith")]))
      "name_first") = "John" := by decide +kernel

/-- variant.cpp:198-233: a variant in a variant -/
example : txt (matchKey ops (.variant (.variant (.value "Hello Worldz!"))) "some_key") = "Hello Worldz!"
  ∧ txt (matchKey ops (.variant (.variant (.value "nothing"))) "some_key") = "nothing" := by decide +kernel

/-- store_compose.cpp:27-41 -/
def composed : St :=
  compose [("key_1", .value "value_1"), ("key_2", .value "value_2"), ("key_3", .value "value_3"),
    ("key_4", .value "value_4"), ("key_5", .value "value_5")] (.state [("base_key", .value "base_value")])

/-- store_compose.cpp:43-53: one action after another -/
def afterActions : Option St :=
  ([.tagged "key_1" (.raw (.append "z")), .tagged "key_2" (.raw (.append "z")), .tagged "key_3" (.raw (.append "z")),
    .tagged "key_4" (.raw (.append "z")), .tagged "key_5" (.raw (.append "z")), .raw (.appendAt "base_key" "y")]
      : List (Action String Act)).foldlM (fun s a => (applyAction ops s a).map (·.1)) composed

/-- store_compose.cpp:62-79 -/
example : ["base_key", "key_1", "key_2", "key_3", "key_4", "key_5"].map
    (fun k => txt (afterActions.bind fun s => matchKey ops s k))
  = ["base_valuey", "value_1z", "value_2z", "value_3z", "value_4z", "value_5z"] := by decide +kernel

/-- apply_action.cpp:16-24 and variant.cpp:235-246: a value is assigned -/
example : txt (((applyAction ops (.state [("int", .value "5")]) (.raw (.set (.state [("int", .value "42")])))).map
      (·.1)).bind fun s => matchKey ops s "int") = "42"
  ∧ txt (((applyAction ops (.variant (.value "unresolved")) (.raw (.set (.variant (.value "OK!"))))).map
      (·.1)).bind matchUnit) = "OK!" := by decide +kernel

/-! ## test/nbdl/core/path_promise.cpp -/

open PathPromise

/-- path_promise.cpp:40: the types that occur -/
inductive T
  | account | person | nameLast | nothing | unresolved | other
  deriving DecidableEq

def typeOf : St → T
  | .state (("username", _) :: _) => .account
  | .state (("name", _) :: _) => .person
  | .value "nothing" => .nothing
  | .value "unresolved" => .unresolved
  | .value _ => .nameLast
  | _ => .other

/-- path_promise.cpp:69-73 -/
def promise : List (Step St St) :=
  pathPromise ops typeOf [.get ["name", "name_last"], .matchType .person ["person"], .matchType .account []]

/-- The value of the `tap`, or what the handler with this number is called with. -/
def outcome (t : List (Event St St)) : List (Nat × String) :=
  t.filterMap fun e => match e with
    | .ran i v => if i = 100 then some (i, txt (some v)) else none
    | .handled i v => some (i, txt (some v))
    | _ => none

/-- path_promise.cpp:77-93 -/
example : outcome (run (promise ++ [.tap 100, .catch_ 101 fun _ => true])
    (.variant (account (some ("Jason", "Rice"))))) = [(100, "Rice")] := by decide +kernel

/-- path_promise.cpp:94-110 -/
example : outcome (run (promise ++ [.catch_ 101 fun e => typeOf e = .nothing, .catch_ 102 fun _ => true])
    (.variant (account none))) = [(101, "nothing")] := by decide +kernel

/-- path_promise.cpp:111-126 -/
example : outcome (run (promise ++ [.catch_ 101 fun e => typeOf e = .unresolved, .catch_ 102 fun _ => true])
    (.variant (.value "unresolved"))) = [(101, "unresolved")] := by decide +kernel

/-! ## test/nbdl/core/variant.cpp, variant_holder.cpp and the variants of match.cpp -/

open Variant

/-- The types of the tests. -/
inductive CTy
  | unresolved | int | string | tag | float | double | char
  deriving DecidableEq

@[reducible] def CVal : CTy → Type
  | .unresolved => Unit
  | .tag => Unit
  | .string => String
  | _ => Nat

/-- Only functions with exactly this type can be called, other than the arithmetic types among themselves. -/
def convert : (src dst : CTy) → Option (CVal src → CVal dst)
  | .unresolved, .unresolved => some id
  | .int, .int => some id
  | .string, .string => some id
  | .tag, .tag => some id
  | .float, .float => some id
  | .double, .double => some id
  | .char, .char => some id
  | .int, .float => some id
  | .int, .double => some id
  | .int, .char => some id
  | _, _ => none

def world : World where
  Ty := CTy
  Val := CVal
  empty t := t = .unresolved ∨ t = .tag
  equal t a b := match t with
    | .unresolved | .tag => true
    | .string => a == b
    | .int | .float | .double | .char => a == b
  conv := convert

/-- variant.cpp:22: `nbdl::variant<int, std::string, some_tag>` -/
abbrev Number := Var world [.unresolved, .int, .string, .tag]

def unresolvedNumber : Number := ⟨0, ()⟩
def number (n : Nat) : Number := ⟨1, n⟩

/-- variant.cpp:28-41 -/
def handlers : List (Handler world Nat) :=
  [on (W := world) CTy.unresolved fun _ => 56, on (W := world) CTy.string fun _ => 1,
    on (W := world) CTy.int fun n => n, on (W := world) CTy.tag fun _ => 3]

/-- variant.cpp:20-43 -/
example : is (W := world) CTy.unresolved unresolvedNumber = some true ∧ visit handlers unresolvedNumber = some 56 :=
  ⟨rfl, rfl⟩

/-- variant.cpp:45-68 -/
example : is (W := world) CTy.int (number 512) = some true ∧ visit handlers (number 512) = some 512 := ⟨rfl, rfl⟩

/-- variant.cpp:100-150: a function template in the last place, and not in the last place -/
example : visit [on (W := world) CTy.unresolved fun _ => 56, on (W := world) CTy.string fun _ => 1,
      on (W := world) CTy.tag fun _ => 3, any fun _ _ => 123] (number 185) = some 123
  ∧ visit [on (W := world) CTy.unresolved fun _ => 56, on (W := world) CTy.string fun _ => 1, any fun _ _ => 25,
      on (W := world) CTy.tag fun _ => 9] (number 93) = some 25 := ⟨rfl, rfl⟩

/-- variant.cpp:151-172 -/
example : visit [on (W := world) CTy.unresolved fun _ => 56, on (W := world) CTy.int fun _ => 76, any fun _ _ => 25]
    (number 185) = some 76 := rfl

/-- match.cpp:214: `nbdl::variant<int, float, double, char>{int{42}}` -/
def fourTypes (n : Nat) : Var world [.unresolved, .int, .float, .double, .char] := ⟨1, n⟩

/-- match.cpp:212-255: `match_when` -/
example : matchWhen (W := world) (R := Nat) CTy.int (fun n => n) (fourTypes 42) = some (some 42)
  ∧ matchWhen (W := world) (R := Nat) CTy.float (fun n => n) (fourTypes 42) = some none
  ∧ matchWhen (W := world) (R := Nat) CTy.tag (fun _ => 0) (fourTypes 42) = some none := ⟨rfl, rfl, rfl⟩

/-- match.cpp:305-350: `mapped_overload` -/
def named (withInt : Bool) : (t : world.Ty) → Option (world.Val t → String)
  | .int => if withInt then some fun _ => "int" else none
  | .float => some fun _ => "float"
  | .double => some fun _ => "double"
  | _ => none

example : mappedOverload (named true) (fun _ _ => "otherwise") (fourTypes 101) = some "int"
  ∧ mappedOverload (named false) (fun _ _ => "otherwise") (fourTypes 101) = some "otherwise" := ⟨rfl, rfl⟩

/-! ## test/nbdl/core/detail/params_view.cpp -/

open Params

/-- params_view.cpp:21-48: the references are to `a`, `b` and `c`, 0, 1 and 2 -/
def view1 : View Nat :=
  append (.ref 2) (append (.value 8 0) (append (.value 7 0) (append (.value 6 0) (append (.ref 1)
    (append (.value 4 0) (append (.value 3 0) (append (.ref 0) (append (.value 1 0) (append (.value 0 0) make)))))))))

/-- params_view.cpp:20-60 -/
example : unpack view1 = some [.value 0 0, .value 1 0, .ref 0, .value 3 0, .value 4 0, .ref 1, .value 6 0, .value 7 0,
    .value 8 0, .ref 2] := by decide +kernel

/-- params_view.cpp:86-91 -/
def view2 : View Nat := append (.ref 4) (append (.ref 3) (append (.value 11 0) (append (.value 10 0) make)))

/-- params_view.cpp:62-122 -/
example : unpack (concat view1 view2) = some [.value 0 0, .value 1 0, .ref 0, .value 3 0, .value 4 0, .ref 1,
    .value 6 0, .value 7 0, .value 8 0, .ref 2, .value 10 0, .value 11 0, .ref 3, .ref 4] := by decide +kernel

/-! ## test/nbdl/core/detail/string_concat.cpp and string_concat_view.cpp -/

open Concat

/-- string_concat.cpp:27-36 and string_concat_view.cpp:39-49 -/
def strings : List Str :=
  [.string (ascii "Hello"), .literal (ascii ", "), .string (ascii "World"), .string (ascii "!"), .string [],
    .literal (ascii "foo"), .literal (ascii "bar"), .literal (ascii "baz")]

/-- string_concat.cpp:25-41 -/
example : stringConcat strings = .ok (ascii "Hello, World!foobarbaz") := by decide +kernel

/-- string_concat_view.cpp:25-34 and 36-57 -/
example : View.empty.toString = .ok []
  ∧ (makeView (strings.map .str)).toString = .ok (ascii "Hello, World!foobarbaz") := by decide +kernel

/-! ## test/nbdl/core/api_signature.cpp

The digests of the test are those of the text which the compiler of its authors wrote. -/

open ApiSig

/-- A character as an argument of a template -/
def quoted (c : Byte) : Text := [39#8, c, 39#8]

/-- The text of a signature in base64 -/
def signature64 (t : CppTy) : Option (Cpp (List Byte)) :=
  (signature quoted (ascii "json") t).map fun d => Base64.encode false d

/-- `std::integral_constant`, api_signature.cpp:22-24 -/
def constant (v : String) : CppTy := .const (ascii v)

/-- api_signature.cpp:19-45 -/
example : signature64 (constant "12345") = some (.ok (ascii "hC2CGB8MPHXgcXPVLsFwK2lN+Y8="))
  ∧ signature64 (constant "123456") = some (.ok (ascii "Oow0uBtBxbh+hUf8+h4Nm9DDGK4="))
  ∧ signature64 (constant "54321") = some (.ok (ascii "82J9C34K+Xm5lnc7z1cnb8iuEWo=")) := by decide +kernel

/-- api_signature.cpp:25 and 34: a tuple of the three -/
example : signature64 (.seq (.cons [] (constant "12345") (.cons [] (constant "123456")
      (.cons [] (constant "54321") .nil))))
    = some (.ok (ascii "3TJmnZgDFCPXmFWNs30cE6i020k=")) := by decide +kernel

/-! ## test/nbdl/core/detail/bind_tag_of.cpp -/

/-- bind_tag_of.cpp:25-42, without the empty class template arguments: members have no names here -/
def input : CppTys :=
  .cons [] (.fund .int) <| .cons [] (.fund .float) <| .cons [] (.cont .str) <| .cons [] (.type (ascii "int")) <|
  .cons [] .str <| .cons [] (.const (ascii "42")) <| .cons [] (.map (.cons (ascii "foo") (.fund .int) .nil)) <|
  .cons [] (.map .nil) <| .cons [] (.seq .nil) <| .cons [] (.seq (.cons [] (.const (ascii "42")) .nil)) <|
  .cons [] (.seq (.cons [] (.fund .int) (.cons [] (.fund .float) .nil))) <| .cons [] (.cls (ascii "foo_tag")) <|
  .cons [] (.var (.cls (ascii "foo_tag")) (.cons [] .str .nil)) .nil

/-- bind_tag_of.cpp:46-63 -/
example : tagOf (.seq input) = some (.sequence (
  .cons [] (.fund .int) <| .cons [] (.fund .float) <| .cons [] (.container .string) <|
  .cons [] (.type (ascii "int")) <| .cons [] .string <| .cons [] (.const (ascii "42")) <|
  .cons [] (.map (.cons (ascii "foo") (.fund .int) .nil)) <| .cons [] (.map .nil) <| .cons [] (.sequence .nil) <|
  .cons [] (.sequence (.cons [] (.const (ascii "42")) .nil)) <|
  .cons [] (.sequence (.cons [] (.fund .int) (.cons [] (.fund .float) .nil))) <| .cons [] (.cls (ascii "foo_tag")) <|
  .cons [] (.variant (.cons [] (.cls (ascii "foo_tag")) (.cons [] .string .nil))) .nil)) := rfl

end Nbdl.Tests.Core
