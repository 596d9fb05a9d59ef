import Verif.Route.Model
import Verif.Nav.Model
import Verif.Dom.Model
/-!
# The model against the project's own tests: routes and the renderer

See `Verif/Tests/Bytes.lean`.  Sizes are of 32 bits.
-/
namespace Nbdl.Tests.Web

open Nbdl

/-! ## test/nbdl/webui/route_map.cpp -/

open Route

/-- route_map.cpp:24-50: the routes "", `foo`, `bar`, `baz` and `boo-moo` -/
def routes : List Pair :=
  [⟨ascii "", []⟩, ⟨ascii "foo", [.int 32 false]⟩, ⟨ascii "bar", [.str]⟩, ⟨ascii "baz", [.int 32 false, .str]⟩,
    ⟨ascii "boo-moo", []⟩]

def root : Value := ⟨0, []⟩
def foo (n : Int) : Value := ⟨1, [.int n]⟩
def bar (s : String) : Value := ⟨2, [.str (ascii s)]⟩
def baz (n : Int) (s : String) : Value := ⟨3, [.int n, .str (ascii s)]⟩
def booMoo : Value := ⟨4, []⟩

/-- route_map.cpp:77-83 -/
example : toString routes root = ascii "/"
  ∧ toString routes (foo 42) = ascii "/foo/42"
  ∧ toString routes (bar "hello") = ascii "/bar/hello"
  ∧ toString routes (baz 42 "world") = ascii "/baz/42/world" := by decide +kernel

/-- What `from_string` gives. -/
def parsed (s : String) : Cpp (Option Value) := fromString 32 routes (ascii s)

/-- route_map.cpp:85-97 -/
example : parsed "/" = .ok (some root)
  ∧ parsed "/foo/4" = .ok (some (foo 4))
  ∧ parsed "/foo/42" = .ok (some (foo 42))
  ∧ parsed "/foo/426" = .ok (some (foo 426))
  ∧ parsed "/foo/moo" = .ok none
  ∧ parsed "/foo/4/4" = .ok none
  ∧ parsed "/bar/hello" = .ok (some (bar "hello"))
  ∧ parsed "/bar/42" = .ok (some (bar "42"))
  ∧ parsed "/bar/" = .ok none := by decide +kernel

/-- route_map.cpp:99-129 -/
example : parsed "/baz/4/world" = .ok (some (baz 4 "world"))
  ∧ parsed "/baz/42/w" = .ok (some (baz 42 "w"))
  ∧ parsed "/baz/42/" = .ok none
  ∧ parsed "/baz/0/nozeros" = .ok none
  ∧ parsed "/baz/12/toomany/args/world" = .ok none
  ∧ parsed "/boo-moo/" = .ok (some booMoo)
  ∧ parsed "/boo-moo/42" = .ok none
  ∧ parsed "/platypus" = .ok none
  ∧ parsed "" = .ok none := by decide +kernel

/-! ## test/nbdl/webui/nav_route.cpp

The document of the tests fires `popstate` after `pushState` as well (tool/dom_test/index.js). -/

open Nav

/-- nav_route.cpp:26-42; a browser that keeps every path -/
def navPage (uriPrefix : String) : Page :=
  ⟨32, [⟨ascii "root", []⟩, ⟨ascii "my-route-1", [.int 32 false, .int 32 false]⟩,
    ⟨ascii "my-route-2", [.int 32 false]⟩], ascii uriPrefix⟩

def browser : Browser := ⟨some⟩

def myRoute1 (a b : Int) : Value := ⟨1, [.int a, .int b]⟩
def myRoute2 (a : Int) : Value := ⟨2, [.int a]⟩

/-- A page at some path and some events: the address, the text store and the route store. -/
def after (uriPrefix start : String) (evs : List Ev) : Cpp St :=
  ((load (navPage uriPrefix) (ascii start)).bind fun r => exec browser (navPage uriPrefix) r.1 evs).map (·.1)

/-- nav_route.cpp:69-110 -/
example : after "" "/" [.setRoute (some (myRoute1 42 84)), .pop (ascii "/my-route-1/42/84")]
  = .ok ⟨ascii "/my-route-1/42/84", ascii "/my-route-1/42/84", some (myRoute1 42 84)⟩ := by decide +kernel

/-- nav_route.cpp:112-162 -/
example : after "" "/my-route-1/42/84" [.pop (ascii "/")] = .ok ⟨ascii "/", ascii "/", none⟩
  ∧ after "" "/my-route-1/42/84" [.pop (ascii "/"), .pop (ascii "/my-route-2/101")]
    = .ok ⟨ascii "/my-route-2/101", ascii "/my-route-2/101", some (myRoute2 101)⟩ := by decide +kernel

/-- nav_route.cpp:164-223 -/
example : after "/prefix" "/my-route-2/101"
    [.pop (ascii "/prefix"), .setRoute (some (myRoute1 42 84)), .pop (ascii "/prefix/my-route-1/42/84")]
  = .ok ⟨ascii "/prefix/my-route-1/42/84", ascii "/my-route-1/42/84", some (myRoute1 42 84)⟩ := by
  decide +kernel

/-! ## test/nbdl/webui/renderer.cpp -/

open Dom

/-- A node as HTML: the attributes in the order of the given names, then the classes. -/
def html (names classes : List Text) (h : Dom) : Nat → Nat → Text
  | 0, _ => []
  | fuel + 1, i =>
    match (h.node i).kind with
    | .text v => v
    | .raw v => v
    | .elem tag =>
      "<".toList ++ tag
        ++ names.flatMap (fun n => match (h.node i).attrs n with
          | some v => " ".toList ++ n ++ "=\"".toList ++ v ++ "\"".toList
          | none => [])
        ++ (match classes.filter (h.node i).classes with
          | [] => []
          | c :: cs => " class=\"".toList ++ c ++ cs.flatMap (" ".toList ++ ·) ++ "\"".toList)
        ++ ">".toList ++ (h.node i).children.flatMap (html names classes h fuel) ++ "</".toList ++ tag
        ++ ">".toList

/-- The element of the tests with nothing in it. -/
def target : Dom := ⟨fun _ => ⟨.elem "div".toList, fun _ => none, fun _ => false, [], none⟩, 1⟩

/-- What is in the element after a renderer was made at `s` and told of changes to each of `ss`. -/
def shown {S : Type} (x : Item S) (s : S) (ss : List S) : Option Text :=
  match (render s target 0 x).bind fun r => updates r.1 r.2 ss with
  | .ok (h, _) =>
    some ((h.node 0).children.flatMap
      (html ["class".toList, "id".toList, "disabled".toList, "FAIL".toList] ["hello".toList, "FAIL".toList] h 10))
  | .error _ => none

def el {S : Type} (tag : String) (xs : List (Item S)) : Item S := .elem tag.toList xs
def attrib {S : Type} (name v : String) : Item S := .attr name.toList v.toList
def text {S : Type} (v : String) : Item S := .text (.const v.toList)
def textOf {S : Type} (f : S → Option String) : Item S := .text (.path fun s => (f s).map String.toList)

/-- renderer.cpp:59-65 -/
structure Keys where
  key1 : String
  key2 : String
  key3 : Option String
  key4 : String
  key6 : Option String

def keys : Keys := ⟨"UPDATE ME", " More dynamic text.", none, "5", some "Don't change me, bro."⟩

/-- renderer.cpp:67-87 -/
def keysSpec : Item Keys :=
  el "div" [attrib "class" "foo",
    el "div" [attrib "class" "bar",
      text "I'm some static text content.",
      textOf fun s => some s.key1,
      textOf fun s => some s.key2,
      text " More static text.",
      text "12",
      textOf fun s => some s.key4,
      .branch (fun s => some (if s.key3.isSome then 0 else 1)) [textOf fun s => s.key3, el "div" []],
      .branch (fun s => some (if s.key6.isSome then 0 else 1)) [textOf fun s => some s.key4, text "FAIL"]]]

/-- renderer.cpp:41-99 -/
example : shown keysSpec keys
    [{ keys with key1 := " Here is some updated dynamic text.", key3 := some " Here is some optional text.",
                 key4 := "42" }]
  = some ("<div class=\"foo\"><div class=\"bar\">I'm some static text content. Here is some updated dynamic text."
      ++ " More dynamic text. More static text.1242 Here is some optional text.42</div></div>").toList := by
  decide +kernel

/-- renderer.cpp:101-120 -/
example : shown (S := Unit) (el "pre" [.html "<span class=\"foo\">&amp;owner::member</span>".toList]) () []
  = some "<pre><span class=\"foo\">&amp;owner::member</span></pre>".toList := by decide +kernel

/-- renderer.cpp:122-162 -/
example : shown (S := String × Option String)
    (el "div" [.attrDyn "class".toList fun s =>
      ("foo " ++ s.1 ++ " " ++ (match s.2 with | some v => "bar " ++ v | none => "") ++ " boo").toList])
    ("fooz", none) [("doo", some "baz")]
  = some "<div class=\"foo doo bar baz boo\"></div>".toList := by decide +kernel

/-- renderer.cpp:164-202 -/
example : shown (S := String)
    (el "div" [.attrDyn "class".toList fun s =>
      ("foo " ++ if s == "blah" || s == "blaz" || s == "blar" then "FAIL"
        else if s == "hello" then "prefix_" ++ s else "FAIL").toList])
    "something else" ["hello"]
  = some "<div class=\"foo prefix_hello\"></div>".toList := by decide +kernel

/-- renderer.cpp:204-243, with the counter as the handler of the click leaves it -/
example : shown (S := String)
    (el "div" [attrib "id" "click_me",
      .text (.concat [.const "clicked: ".toList, .path fun s => some s.toList])])
    "0" ["1"]
  = some "<div id=\"click_me\">clicked: 1</div>".toList := by decide +kernel

/-- renderer.cpp:245-267 -/
example : shown (S := Bool)
    (el "a" [.attrIf "disabled".toList some, .attrIf "FAIL".toList fun b => some (!b), text "whoa"]) true []
  = some "<a disabled=\"\">whoa</a>".toList := by decide +kernel

/-- renderer.cpp:269-291 -/
example : shown (S := Bool)
    (el "div" [.classIf "hello".toList some, .classIf "FAIL".toList fun b => some (!b), text "whoa"]) true []
  = some "<div class=\"hello\">whoa</div>".toList := by decide +kernel

/-- renderer.cpp:293-315: a variant with an `int` -/
example : shown (S := Unit ⊕ Unit)
    (el "div" [.classWhen "hello".toList Sum.isRight, .classWhen "FAIL".toList Sum.isLeft, text "whoa when"])
    (.inr ()) []
  = some "<div class=\"hello\">whoa when</div>".toList := by decide +kernel

/-- renderer.cpp:331-345: the store, or one row of it -/
inductive Rows
  | all (lastClicked : String) (column : List String)
  | row (text : String)

def Rows.text : Rows → Option String
  | .row t => some t
  | .all _ _ => none

/-- renderer.cpp:356-388 -/
def rowsSpec : Item Rows :=
  el "div" [
    el "div" [.forEach (fun s => match s with | .all _ c => some (c.map .row) | .row _ => none)
      (.branch (fun s => s.text.map fun t => if t == "CLICK THIS BEFORE IT CHANGES!!" then 0 else 1)
        [el "div" [attrib "class" "row", attrib "id" "click_me", textOf Rows.text],
         el "div" [attrib "class" "row", textOf Rows.text]])],
    el "div" [textOf fun s => match s with | .all l _ => some l | .row _ => none]]

def sevenRows : List String := ["Row #1", "Row #2", "Row #3", "Row #4", "Row #5", "Row #6", "Row #7"]

/-- renderer.cpp:317-401 -/
example : shown rowsSpec (.all "FAIL" (sevenRows ++ ["CLICK THIS BEFORE IT CHANGES!!"]))
    [.all "CLICK THIS BEFORE IT CHANGES!!" (sevenRows ++ ["CLICK THIS BEFORE IT CHANGES!!"]),
     .all "CLICK THIS BEFORE IT CHANGES!!" (sevenRows ++ ["Row #8"])]
  = some ("<div><div>" ++ String.join ((sevenRows ++ ["Row #8"]).map fun r =>
      "<div class=\"row\">" ++ r ++ "</div>") ++ "</div><div>CLICK THIS BEFORE IT CHANGES!!</div></div>").toList := by
  decide +kernel

/-! ## test/nbdl/webui/detail/dom_manips.cpp and flatten_spec.cpp -/

/-- dom_manips.cpp:46-54: the new element is in the body -/
example : (match run (S := Unit) () target 0 (.beginEl "div".toList) with
    | .ok (h, some r, _) => (h.node r).parent
    | _ => none) = some 0 := by decide +kernel

/-- dom_manips.cpp:56-77: and the end of it leads back to the body -/
example : (match runAll (S := Unit) () target (some 0) [.beginEl "div".toList, .endEl] with
    | .ok (_, r, _) => r
    | _ => none) = some 0 := by decide +kernel

/-- dom_manips.cpp:79-127 -/
example : (match runAll (S := String × String) ("UPDATE ME", " More dynamic text.") target (some 0)
      [.beginEl "div".toList, .attr "class".toList "foo".toList, .beginEl "div".toList,
        .attr "class".toList "bar".toList, .text "I'm some static text content.".toList,
        .textPath (fun s => some s.1.toList), .textPath (fun s => some s.2.toList),
        .text " More static text.".toList, .endEl, .endEl] with
    | .ok (h, some 0, _) => (h.node 0).children.flatMap (html ["class".toList] [] h 5)
    | _ => [])
  = ("<div class=\"foo\"><div class=\"bar\">I'm some static text content.UPDATE ME More dynamic text."
      ++ " More static text.</div></div>").toList := by decide +kernel

/-- flatten_spec.cpp:46-69 -/
example : flatten (S := Unit) (el "div" [el "div" [], el "div" []])
  = [.beginEl "div".toList, .beginEl "div".toList, .endEl, .beginEl "div".toList, .endEl, .endEl] := by
  simp [flatten, flattenAll, el]

/-- flatten_spec.cpp:70-93 -/
example : flatten (S := Unit) (el "div" [attrib "class" "foo", el "div" [text "Hello World!"]])
  = [.beginEl "div".toList, .attr "class".toList "foo".toList, .beginEl "div".toList, .text "Hello World!".toList,
      .endEl, .endEl] := by
  simp [flatten, flattenAll, flattenText, el, attrib, text]

/-- flatten_spec.cpp:95-131 -/
example (key : Unit → Option Nat) :
    flatten (el "div" [attrib "class" "foo",
      .branch key [text "Hello, int!", text "Hello, everything else!"]])
  = [.beginEl "div".toList, .attr "class".toList "foo".toList,
      .branch key [[.text "Hello, int!".toList], [.text "Hello, everything else!".toList]], .endEl] := by
  simp [flatten, flattenAll, flattenEach, flattenText, el, attrib, text]

end Nbdl.Tests.Web
