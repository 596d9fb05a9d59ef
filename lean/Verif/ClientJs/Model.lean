import Verif.Common
/-!
# The browser's client connection

Models `/repo/include/nbdl/app/client_connection_js.hpp` (lines 25–158): the listeners which the
client adds to a `WebSocket` object, and the C++ callbacks which those listeners call.

Simplifications.
* The browser is modelled as the DOM standard describes `EventTarget`: listeners are called in the
  order in which they were added; the list is copied before a dispatch, a listener removed meanwhile
  is not called, one added meanwhile is not called for this event; an exception in a listener is
  reported and the next listener is called.  JavaScript runs one event at a time.
  The package `ws` which stands for the browser in tests (tool/dom_test/index.js) does call a
  listener removed meanwhile: `dom` says which of the two it is.
* `full_duplex` is not part of `/repo`.  What follows `resolve(x)` is a parameter: `react n` says
  what the promise chain does with the `n`-th value which `resolve` was called with.  It reads the
  next message before `resolve` returns (`now`: so does the client of app/client.hpp:28-31, whose
  deserializer and `apply_read` are synchronous), or it finishes in a later event (`later`), or it
  fails (`stop`: then the endpoint ends).  When the endpoint ends its state, and with it every
  callback, is destroyed at once.  While it waits for a message it is kept alive by `full_duplex`.
* `ws_val.error` (lines 72, 78) is never read and is left out; so are the address and the writing
  of messages.
-/
namespace Nbdl.ClientJs

/-- The names of the events listened for (lines 66, 71, 77, 135-137). -/
inductive Kind | opened | error | close | message
  deriving DecidableEq, Repr

/-- What happens from outside: an event of the socket, with its event object (`E`) or its data
(`D`); or the promise chain which put off its work finishes, well or not. -/
inductive In (D E : Type)
  | opened (e : E) | error (e : E) | close (e : E) | message (d : D) | resume (ok : Bool)
  deriving DecidableEq, Repr

/-- What `resolve` is called with: the event `open` (line 45), a parsed message (line 94), an error
(lines 47, 97). -/
inductive Out (J E : Type)
  | ready (e : E) | msg (j : J) | err (e : E)
  deriving DecidableEq, Repr

/-- What the promise chain does with a value: see above. -/
inductive React | now | later | stop
  deriving DecidableEq, Repr

/-- The variables of one run of the script of lines 49-82 (`init`) or 103-138 (`read`), shared by
the functions made there: which C++ callback each holds, or `none` once it was replaced by
`function() { }`.  Line 50: `ready_cb`, 51 and 106: `error_cb`, 105: `message_cb`. -/
structure Scope where
  isInit : Bool
  ready : Option Nat
  message : Option Nat
  error : Option Nat
  deriving DecidableEq, Repr

/-- A listener: its event, and the scope its function was made in (each script makes one function
for each event, so this tells them apart). -/
structure Lis where
  kind : Kind
  scope : Nat
  deriving DecidableEq, Repr

/-- Everything.  `ready`, `message`, `error` are the callbacks held by `state` (lines 27-32), while
`alive`.  Callbacks are numbered as they are made. -/
structure W (J E : Type) where
  listeners : List Lis
  scopes : Nat → Scope
  nextScope : Nat
  nextCb : Nat
  ready : Nat
  message : Nat
  error : Nat
  alive : Bool
  pending : Bool
  count : Nat
  log : List (Out J E)

/-- Replaces the variables of scope `g`. -/
def setScope {J E} (w : W J E) (g : Nat) (s : Scope) : W J E :=
  { w with scopes := fun i => if i = g then s else w.scopes i }

/-- The state when `endpoint_open` has called `init`, lines 28-32 and 43-89: three callbacks which
do nothing (0, 1, 2), then `ready_cb` (3) and `error_cb` (4) replaced; then the script adds three
listeners. -/
def start {J E} : W J E where
  listeners := [⟨.opened, 0⟩, ⟨.error, 0⟩, ⟨.close, 0⟩]
  scopes := fun _ => ⟨true, some 3, none, some 4⟩
  nextScope := 1
  nextCb := 5
  ready := 3
  message := 1
  error := 4
  alive := true
  pending := false
  count := 0
  log := []

/-- `read_message`, lines 91-145: two new callbacks take the place of the old ones, which are
destroyed; then the script adds three listeners, lines 135-137. -/
def arm {J E} (w : W J E) : W J E :=
  { setScope w w.nextScope ⟨false, none, some w.nextCb, some (w.nextCb + 1)⟩ with
    listeners := w.listeners ++
      [⟨.error, w.nextScope⟩, ⟨.close, w.nextScope⟩, ⟨.message, w.nextScope⟩]
    nextScope := w.nextScope + 1
    message := w.nextCb
    error := w.nextCb + 1
    nextCb := w.nextCb + 2 }

/-- `resolve(x)`: an error ends the endpoint; for anything else see `React`. -/
def deliver {J E} (react : Nat → React) (x : Out J E) (w : W J E) : W J E :=
  let w' := { w with log := w.log ++ [x], count := w.count + 1 }
  match x with
  | .err _ => { w' with alive := false }
  | _ =>
    match react w.count with
    | .now => arm w'
    | .later => { w' with pending := true }
    | .stop => { w' with alive := false }

/-- A call of one of the script's variables: `function() { }` does nothing; a callback which
`state` no longer holds is gone, and calling it is undefined (fwd/js.hpp:101-103). -/
def call {J E} (react : Nat → React) (held : Nat) (cb : Option Nat) (x : Out J E) (w : W J E) :
    Cpp (W J E) :=
  match cb with
  | none => .ok w
  | some id => if w.alive ∧ id = held then .ok (deliver react x w) else .ub

/-- `close_out`, lines 61-64. -/
def closeOut {J E} (g : Nat) (w : W J E) : W J E :=
  setScope w g { w.scopes g with ready := none, error := none }

/-- `clean_up_listeners`, lines 126-133. -/
def cleanUp {J E} (g : Nat) (w : W J E) : W J E :=
  setScope { w with listeners :=
      ((w.listeners.erase ⟨.error, g⟩).erase ⟨.close, g⟩).erase ⟨.message, g⟩ }
    g { w.scopes g with message := none, error := none }

/-- What an event carries to the listeners. -/
inductive Event (D E : Type)
  | opened (e : E) | error (e : E) | close (e : E) | message (d : D)

/-- The name of an event. -/
def Event.kind {D E} : Event D E → Kind
  | .opened _ => .opened | .error _ => .error | .close _ => .close | .message _ => .message

/-- The function of a listener made in scope `g`: lines 66-81 for `init`, 111-124 for
`read_message`.  `parse` is `JSON.parse`; where it throws the function is left at once, before
`clean_up_listeners`. -/
def fire {D J E} (parse : D → Option J) (react : Nat → React) (ev : Event D E) (g : Nat)
    (w : W J E) : Cpp (W J E) :=
  let s := w.scopes g
  match s.isInit, ev with
  | true, .opened e => (call react w.ready s.ready (.ready e) w).bind fun w => .ok (closeOut g w)
  | true, .error e => (call react w.error s.error (.err e) w).bind fun w => .ok (closeOut g w)
  | true, .close e => (call react w.error s.error (.err e) w).bind fun w => .ok (closeOut g w)
  | true, .message _ => .ok w
  | false, .opened _ => .ok w
  | false, .error e => (call react w.error s.error (.err e) w).bind fun w => .ok (cleanUp g w)
  | false, .close e => (call react w.error s.error (.err e) w).bind fun w => .ok (cleanUp g w)
  | false, .message d =>
    match parse d with
    | none => .ok w
    | some j => (call react w.message s.message (.msg j) w).bind fun w => .ok (cleanUp g w)

/-- The rest of a dispatch: each listener of the copy which is still in the list is called
(any of the copy where `dom` is false). -/
def fireAll {D J E} (dom : Bool) (parse : D → Option J) (react : Nat → React) (ev : Event D E) :
    List Lis → W J E → Cpp (W J E)
  | [], w => .ok w
  | l :: ls, w =>
    if l ∈ w.listeners ∨ dom = false then
      (fire parse react ev l.scope w).bind fun w => fireAll dom parse react ev ls w
    else fireAll dom parse react ev ls w

/-- The browser dispatches an event. -/
def dispatch {D J E} (dom : Bool) (parse : D → Option J) (react : Nat → React) (ev : Event D E) (w : W J E) :
    Cpp (W J E) :=
  fireAll dom parse react ev (w.listeners.filter fun l => l.kind = ev.kind) w

/-- One input. A promise chain which was put off finishes: the endpoint reads again, or ends. -/
def step {D J E} (dom : Bool) (parse : D → Option J) (react : Nat → React) (i : In D E) (w : W J E) :
    Cpp (W J E) :=
  match i with
  | .opened e => dispatch dom parse react (.opened e) w
  | .error e => dispatch dom parse react (.error e) w
  | .close e => dispatch dom parse react (.close e) w
  | .message d => dispatch dom parse react (.message d) w
  | .resume ok =>
    if w.pending then
      .ok (if ok then arm { w with pending := false } else { w with pending := false, alive := false })
    else .ok w

/-- A whole history. -/
def run {D J E} (dom : Bool) (parse : D → Option J) (react : Nat → React) : List (In D E) → W J E → Cpp (W J E)
  | [], w => .ok w
  | i :: is, w => (step dom parse react i w).bind fun w => run dom parse react is w

end Nbdl.ClientJs
