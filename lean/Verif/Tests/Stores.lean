import Verif.MapStore.Model
import Verif.Delta.Model
import Verif.Context.Model
import Verif.Message.Model
/-!
# The model against the project's own tests: stores, messages and contexts

The checks of the test suite in `/repo/test`, made of the model; see `Bytes.lean`.
-/
namespace Nbdl.Tests

/-! ## test/nbdl/core/map_store.cpp -/

section MapStore
open MapStore

/-- The path of the tests: two keys (map_store.cpp:19-23). -/
abbrev TPath := Nat × Nat

/-- A container holding one entry. -/
def one (p : TPath) (e : Entry Nat) : Map TPath Nat := empty.set p e

/-- What a check looks at: whether a change is reported, what is shown at the path, and whether there is something
at another path. -/
def observe (m : Map TPath Nat) (x : Msg TPath Nat) : Bool × View Nat × Bool :=
  ((apply m x).2, view (apply m x).1 (11, 22), ((apply m x).1 (1, 2)).isSome)

/-- map_store.cpp:67-84: upstream create -/
example : observe empty (.upCreate (11, 22) 42) = (false, .notInSet, false) := by decide +kernel
/-- map_store.cpp:86-117: downstream create -/
example : observe empty (.downCreate (11, 22) (.value 42)) = (true, .value (.value 42), false) := by decide +kernel
/-- map_store.cpp:119-147: upstream read -/
example : observe empty (.upRead (11, 22)) = (false, .unresolved, false) := by decide +kernel
/-- map_store.cpp:149-180: downstream read, nothing there -/
example : observe empty (.downRead (11, 22) (.value 42)) = (true, .value (.value 42), false) := by decide +kernel
/-- map_store.cpp:182-216: downstream read, unresolved -/
example : observe (one (11, 22) .unresolved) (.downRead (11, 22) (.value 42)) = (true, .value (.value 42), false) := by
  decide +kernel
/-- map_store.cpp:218-253: downstream read, resolved -/
example : observe (one (11, 22) (.resolved (.value 223))) (.downRead (11, 22) (.value 42))
    = (false, .value (.value 223), false) := by decide +kernel
/-- map_store.cpp:255-290: downstream read, not found -/
example : observe (one (11, 22) (.resolved .notFound)) (.downRead (11, 22) (.value 42))
    = (false, .value .notFound, false) := by decide +kernel
/-- map_store.cpp:292-311: upstream update -/
example : observe empty (.upUpdate (11, 22) 42) = (false, .notInSet, false) := by decide +kernel
/-- map_store.cpp:313-346: downstream update, nothing there -/
example : observe empty (.downUpdate (11, 22) (.value 42)) = (true, .value (.value 42), false) := by decide +kernel
/-- map_store.cpp:348-382: downstream update, a value -/
example : observe (one (11, 22) (.resolved (.value 123))) (.downUpdate (11, 22) (.value 42))
    = (true, .value (.value 42), false) := by decide +kernel
/-- map_store.cpp:384-401: upstream delete -/
example : observe empty (.upDelete (11, 22)) = (false, .notInSet, false) := by decide +kernel
/-- map_store.cpp:403-422: downstream delete -/
example : observe (one (11, 22) (.resolved (.value 22))) (.downDelete (11, 22)) = (true, .notInSet, false) := by
  decide +kernel

/-- map_store.cpp:424-479: four messages to a store with keys of one number -/
def basicStore : Map Nat Nat :=
  runAll [.downUpdate 42 (.value 421), .downUpdate 29 (.value 291), .downUpdate 14 (.value 141), .downDelete 14]

/-- map_store.cpp:450-479 -/
example : view basicStore 42 = .value (.value 421) ∧ view basicStore 29 = .value (.value 291)
  ∧ view basicStore 14 = .notInSet
  ∧ ((List.range 100).filter fun k => (basicStore k).isSome) = [29, 42] := by decide +kernel

end MapStore

/-! ## test/nbdl/core/delta.cpp -/

section Delta
open Delta

/-- The types of the members of a `person`, delta.cpp:15-23 -/
abbrev PersonT : Fin 3 → Type
  | 0 => String
  | 1 => String
  | 2 => Nat

instance : ∀ i, DecidableEq (PersonT i)
  | 0 => inferInstanceAs (DecidableEq String)
  | 1 => inferInstanceAs (DecidableEq String)
  | 2 => inferInstanceAs (DecidableEq Nat)

def person (a b : String) (n : Nat) : Record PersonT
  | 0 => a
  | 1 => b
  | 2 => n

def members (r : Record PersonT) : String × String × Nat := (r 0, r 1, r 2)

/-- delta.cpp:36-46 -/
example : members (apply (makeFull (person "Skippy" "McGee" 42)) (person "" "" 0)).1 = ("Skippy", "McGee", 42) := by
  decide +kernel

/-- delta.cpp:53: `p2`, `p1` -/
def d21 : Delta PersonT := make (person "Skippy" "McGeez" 43) (person "Skippy" "McGee" 42)

/-- delta.cpp:48-69 -/
example : (apply d21 (person "Scrappy" "Doo" 6)).2 = true
  ∧ members (apply d21 (person "Scrappy" "Doo" 6)).1 = ("Scrappy", "McGeez", 43)
  ∧ (apply d21 (apply d21 (person "Scrappy" "Doo" 6)).1).2 = false
  ∧ members (apply d21 (apply d21 (person "Scrappy" "Doo" 6)).1).1 = ("Scrappy", "McGeez", 43) := by decide +kernel

/-- delta.cpp:79-86: the delta after those of lines 80 to 82 were applied to it -/
def collected : Delta PersonT :=
  let p2 := person "Skippy" "McGeez" 43
  let p3 := person "Scrappy" "Doo" 6
  let p4 := person "Scrappy" "Doo" 500
  applyDelta (make p4 p4) (applyDelta (make p4 p3) (applyDelta (make p3 p2) d21))

/-- delta.cpp:71-102; the flags returned for deltas are not modelled -/
example : (apply collected (person "Skippy" "McGee" 42)).2 = true
  ∧ members (apply collected (person "Skippy" "McGee" 42)).1 = ("Scrappy", "Doo", 500)
  ∧ (apply collected (apply collected (person "Skippy" "McGee" 42)).1).2 = false
  ∧ members (apply collected (apply collected (person "Skippy" "McGee" 42)).1).1 = ("Scrappy", "Doo", 500) := by
  decide +kernel

/-! ## test/nbdl/core/local_version.cpp -/

/-- A payload with one number, local_version.cpp:23. -/
abbrev OneT : Fin 1 → Type := fun _ => Nat

def req (n : Nat) : Msg Nat OneT := .request n (makeFull fun _ => n)
def conf (n : Nat) : Msg Nat OneT := .confirmed n (makeFull fun _ => n)

/-- What is shown after each message. -/
def shown (s : LocalVersion Nat OneT) : List (Msg Nat OneT) → List Nat
  | [] => []
  | m :: h => (applyMessage s m).1.value 0 :: shown (applyMessage s m).1 h

/-- local_version.cpp:63-91; the identifiers are the numbers of the messages -/
example : shown (LocalVersion.init fun _ => 0)
      [req 1, req 2, conf 1, req 3, conf 2, req 4, req 5, conf 3, conf 4, conf 5]
    = [1, 2, 2, 3, 3, 4, 5, 5, 5, 5] := by decide +kernel

end Delta

/-! ## test/nbdl/core/message.cpp -/

section Message
open Message

/-- Keys of the tests: numbers and, in the test with a variant, identifiers (message.cpp:35-49, 122). -/
inductive TKey where
  | num (n : Nat)
  | uid (n : Nat)
  deriving DecidableEq

abbrev TMsg := Message.Message TKey Nat Nat Unit

/-- `PathKey<2>`: no empty class, not made from a `FakeUid` -/
def pathKey2 : KeyType TKey Nat := ⟨false, .num 0, none⟩
/-- `variant<PathKey<2>, FakeUid>` -/
def keyVariant : KeyType TKey Nat := ⟨false, .num 0, some .uid⟩

/-- message.cpp:83-87 -/
def m1 : TMsg := makeUpCreate (.create [.num 1] pathKey2) none 42 none

/-- message.cpp:89-92 -/
example : normalizedPath m1 = none ∧ hasUid m1 = false ∧ isConfirmed m1 = .present (.flag false)
  ∧ getPayload m1 = .present (.payload 42) := ⟨rfl, rfl, rfl, rfl⟩

/-- message.cpp:94 -/
def d1 : TMsg := ⟨.downCreate, [.path [.num 1, .num 2], .noImpl, .payload 42, .noImpl]⟩

/-- message.cpp:94-101 -/
example : toDownstreamWithKey m1 (.num 2) none = .present d1
  ∧ normalizedPath d1 = some [.num 1, .num 2] ∧ hasUid d1 = false
  ∧ getPath d1 = .present (.path [.num 1, .num 2]) ∧ getPayload d1 = .present (.payload 42)
  ∧ isConfirmed d1 = .present (.flag false) := ⟨rfl, rfl, rfl, rfl, rfl, rfl⟩

/-- message.cpp:124-128 -/
def m2 : TMsg := makeUpCreate (.create [.num 1] keyVariant) (some 242) 42 none

/-- message.cpp:130-134 -/
example : normalizedPath m2 = some [.num 1, .uid 242] ∧ getUid m2 = .present (.uid 242)
  ∧ getPayload m2 = .present (.payload 42) := ⟨rfl, rfl, rfl⟩

/-- message.cpp:136 -/
def d2 : TMsg := ⟨.downCreate, [.path [.num 1, .num 2], .uid 242, .payload 42, .flag true]⟩

/-- message.cpp:136-149 -/
example : toDownstreamWithKey m2 (.num 2) (some true) = .present d2
  ∧ normalizedPath d2 = some [.num 1, .num 2] ∧ getPath d2 = .present (.path [.num 1, .num 2])
  ∧ getUid d2 = .present (.uid 242) ∧ getPayload d2 = .present (.payload 42)
  ∧ isConfirmed d2 = .present (.flag true) := ⟨rfl, rfl, rfl, rfl, rfl, rfl⟩

/-- What `to_downstream(m, c)` yields. -/
def down (m : TMsg) (c : Bool) : TMsg :=
  match toDownstream m (some c) with
  | .present d => d
  | _ => ⟨.upRead, []⟩

/-- message.cpp:151-162 -/
example : normalizedPath (down m2 false) = some [.num 1, .uid 242] ∧ getUid (down m2 false) = .present (.uid 242)
  ∧ getPayload (down m2 false) = .present (.payload 42) ∧ isConfirmed (down m2 false) = .present (.flag false) :=
  ⟨rfl, rfl, rfl, rfl⟩

/-- message.cpp:167 -/
def path2 : List TKey := [.num 1, .num 2]

/-- message.cpp:165-215: reads with and without an identifier -/
example : getPayload (makeUpRead (.full path2) (some 242) : TMsg) = .illFormed
  ∧ getPath (makeUpRead (.full path2) (some 242) : TMsg) = .present (.path path2)
  ∧ getUid (makeUpRead (.full path2) (some 242) : TMsg) = .present (.uid 242)
  ∧ toDownstreamRead (makeUpRead (.full path2) (some 242) : TMsg) 42 = .present (makeDownRead (.full path2) (some 242) 42)
  ∧ getPath (makeDownRead (.full path2) (some 242) 42 : TMsg) = .present (.path path2)
  ∧ getUid (makeDownRead (.full path2) (some 242) 42 : TMsg) = .present (.uid 242)
  ∧ getPayload (makeDownRead (.full path2) (some 242) 42 : TMsg) = .present (.payload 42)
  ∧ hasUid (makeUpRead (.full path2) none : TMsg) = false
  ∧ toDownstreamRead (makeUpRead (.full path2) none : TMsg) 42 = .present (makeDownRead (.full path2) none 42)
  ∧ hasUid (makeDownRead (.full path2) none 42 : TMsg) = false
  ∧ getPayload (makeDownRead (.full path2) none 42 : TMsg) = .present (.payload 42) :=
  ⟨rfl, rfl, rfl, rfl, rfl, rfl, rfl, rfl, rfl, rfl, rfl⟩

/-- message.cpp:223-227 -/
def m4 : TMsg := makeUpUpdate (.full path2) (some 242) 42

/-- message.cpp:217-246 -/
example : hasUid m4 = true ∧ getPath m4 = .present (.path path2) ∧ getPayload m4 = .present (.payload 42)
  ∧ hasUid (down m4 true) = true ∧ getPath (down m4 true) = .present (.path path2)
  ∧ getPayload (down m4 true) = .present (.payload 42) ∧ isConfirmed (down m4 true) = .present (.flag true)
  ∧ isConfirmed (down m4 false) = .present (.flag false) := ⟨rfl, rfl, rfl, rfl, rfl, rfl, rfl, rfl⟩

/-- message.cpp:253-256 -/
def m5 : TMsg := makeUpDelete (.full path2) (some 242)

/-- message.cpp:248-271 -/
example : hasUid m5 = true ∧ getPayload m5 = .illFormed ∧ getPath m5 = .present (.path path2)
  ∧ hasUid (down m5 true) = true ∧ getPayload (down m5 true) = .illFormed
  ∧ getPath (down m5 true) = .present (.path path2) ∧ isConfirmed (down m5 true) = .present (.flag true)
  ∧ isConfirmed (down m5 false) = .present (.flag false) := ⟨rfl, rfl, rfl, rfl, rfl, rfl, rfl, rfl⟩

/-! ## test/nbdl/core/echo_producer.cpp -/

/-- echo_producer.cpp:49-55 -/
def created : TMsg := makeUpCreate (.create [.num 5] pathKey2) none 55 none

/-- The paths of the messages which come back. -/
def echoed (counters : Unit → BitVec 32) : Nat → List (Option (List TKey))
  | 0 => []
  | n + 1 =>
    (match (echo (fun k => TKey.num k.toNat) counters () created).2 with
      | .present m => if m.kind.channel = .downstream then normalizedPath m else none
      | _ => none)
    :: echoed (echo (fun k => TKey.num k.toNat) counters () created).1 n

/-- echo_producer.cpp:56-90 -/
example : echoed (fun _ => 0) 3 = [some [.num 5, .num 1], some [.num 5, .num 2], some [.num 5, .num 3]] := by
  decide +kernel

end Message

/-! ## test/nbdl/core/context.cpp, with the definition of test/include/assets/TestContext.hpp -/

section Context
open Context MapStore

/-- TestContext.hpp:139-260: two producers and two consumers; the first path belongs to the first producer, the
other four to the second one.  The path of number 2 listens to the path of number 1. -/
def testConfig {S : Type} (actors : List Actor) (ops : Nat → StoreOps S TPath Nat) : Config S TPath Nat where
  actors := actors
  producerOf t := if t = 0 then 0 else 1
  listeners t := if t = 1 then [2] else []
  ops := ops

def aProducer : Actor := ⟨true, false, false⟩
def aConsumer : Actor := ⟨false, true, false⟩
def aStateConsumer : Actor := ⟨false, false, true⟩

/-- Which actors got which messages; `none` is a notification. -/
def heard {S : Type} : List (Event S TPath Nat) → List (Nat × Nat × Option (Msg TPath Nat))
  | [] => []
  | .notify a t _ _ :: es => (a, t, none) :: heard es
  | .up a t m _ :: es => (a, t, some m) :: heard es
  | .down a t m _ :: es => (a, t, some m) :: heard es

/-- context.cpp:25-41 -/
def nullConfig : Config Unit TPath Nat := testConfig [aProducer, aProducer, aConsumer, aConsumer] fun _ => nullOps

/-- Both consumers hear `m`, and nobody else. -/
def bothHear (t : Nat) (m : Msg TPath Nat) : Bool :=
  heard (push nullConfig (fun _ => ()) t m).2 == [(2, t, some m), (3, t, some m)]

/-- Only the producer of the path hears `m`. -/
def producerHears (t : Nat) (m : Msg TPath Nat) (es : List (Event Unit TPath Nat)) : Bool :=
  heard es == [(if t = 0 then 0 else 1, t, some m)]

/-- context.cpp:70-95, 120-164, 231-275 -/
example : ((List.range 5).all fun t => bothHear t (.downRead (1, 2) (.value 21))
    && bothHear t (.downCreate (1, 2) (.value 21)) && bothHear t (.downUpdate (1, 2) (.value 21))) = true := by
  decide +kernel

/-- context.cpp:166-229, for paths which have no key yet, and 277-349 -/
example : ((List.range 5).all fun t =>
      producerHears t (.upCreate (1, 0) 21) (pushIncomplete nullConfig (fun _ => ()) t (.upCreate (1, 0) 21)).2
      && producerHears t (.upUpdate (1, 2) 21) (push nullConfig (fun _ => ()) t (.upUpdate (1, 2) 21)).2) = true := by
  decide +kernel

/-! ## test/nbdl/core/context_match.cpp -/

/-- context_match.cpp:50-81 -/
def tcmsOps (t : Nat) : StoreOps Unit TPath Nat where
  never _ := true
  apply s _ := (s, false)
  view _ p := if t = 1 ∧ p = (1, 49) then .value (.value 149) else .triggerRead
  foreign s _ _ := (s, [])

/-- context_match.cpp:33-47 -/
def matchConfig : Config Unit TPath Nat := testConfig [aProducer, aProducer, aStateConsumer, aConsumer] tcmsOps

/-- context_match.cpp:93-110 -/
example : (matchCtx matchConfig (fun _ => ()) 1 (1, 49)).2.2 = .value (.value 149)
  ∧ heard (matchCtx matchConfig (fun _ => ()) 1 (1, 49)).2.1 = [] := by decide +kernel

/-- context_match.cpp:112-151 -/
example : (matchCtx matchConfig (fun _ => ()) 1 (1, 13)).2.2 = .unresolved
  ∧ heard (matchCtx matchConfig (fun _ => ()) 1 (1, 13)).2.1 = [(1, 1, some (.upRead (1, 13)))] := by decide +kernel

/-! ## test/nbdl/core/context_state_consumer.cpp, with test/include/assets/mock_store.hpp -/

/-- mock_store.hpp:59-107: `changed` is the path whose messages report a change, `foreign` the store that listens,
the path it listens for and the paths it reports. -/
def mockOps (changed : Option (Nat × TPath)) (listening : Option (Nat × (Nat × TPath) × List TPath)) (t : Nat) :
    StoreOps Unit TPath Nat where
  never _ := false
  apply s m := (s, changed == some (t, m.path))
  view _ _ := .value (.value 0)
  foreign s u m :=
    match listening with
    | some (l, (u', p), qs) => (s, if l = t ∧ u' = u ∧ p = m.path then qs else [])
    | none => (s, [])

/-- context_state_consumer.cpp:22-36 -/
def mockConfig (changed : Option (Nat × TPath)) (listening : Option (Nat × (Nat × TPath) × List TPath)) :
    Config Unit TPath Nat :=
  testConfig [aProducer, aProducer, aStateConsumer, aConsumer] (mockOps changed listening)

/-- The notifications sent. -/
def notified {S : Type} : List (Event S TPath Nat) → List (Nat × Nat × TPath)
  | [] => []
  | .notify a t p _ :: es => (a, t, p) :: notified es
  | _ :: es => notified es

/-- context_state_consumer.cpp:58-68 -/
example : notified (push (mockConfig none none) (fun _ => ()) 1 (.downCreate (1, 1) (.value 11))).2 = [] := by decide +kernel
/-- context_state_consumer.cpp:70-87 -/
example : notified (push (mockConfig (some (1, (1, 1))) none) (fun _ => ()) 1 (.downCreate (1, 1) (.value 11))).2
    = [(2, 1, (1, 1))] := by decide +kernel
/-- context_state_consumer.cpp:89-117 -/
example : notified (push (mockConfig none (some (2, (1, (1, 1)), [(2, 1), (2, 2)]))) (fun _ => ()) 1
      (.downCreate (1, 1) (.value 11))).2 = [(2, 2, (2, 1)), (2, 2, (2, 2))] := by decide +kernel

/-! ## test/nbdl/core/context_store.cpp -/

/-- context_store.cpp:36-54 -/
example : ((contextStoreOps (P := Unit)).view ((contextStoreOps (P := Unit)).apply (.value 0) (.downUpdate () (.value 42))).1 ())
    = .value (.value 42) := by decide +kernel

end Context
end Nbdl.Tests
