import Verif.Nested.History
import Verif.Nested.Order
import Verif.Nested.Heard
import Verif.Nested.Rest
/-! Actors that use the context while it is calling them: properties C116–C123. -/
namespace Nbdl.Nested
open MapStore (Msg View Payload Map)
open Context (Config Actor StoreOps Event setStore pushMain Lawful actorsWith towardsProducer mapOps)
open Spec
variable {A S P V : Type}

/-! ## Contexts and actors for the examples -/

/-- A producer, two consumers of which the first is also a state consumer, and map stores; the store of
type 1 listens to type 0. -/
def sample : Config (Map Nat Nat) Nat Nat where
  actors := [⟨true, false, false⟩, ⟨false, true, true⟩, ⟨false, true, false⟩]
  producerOf _ := 0
  listeners t := if t = 0 then [1] else []
  ops _ := mapOps

theorem sample_lawful (t : Nat) : Lawful (sample.ops t) := Context.mapOps_lawful

/-- A consumer that answers every create by an update, and a producer that echoes. -/
def sampleCode : Code Nat Nat Nat
  | .up _ t (.upUpdate p v) => .push t (.downUpdate p (.value v)) .done
  | .up _ t (.upDelete p) => .push t (.downDelete p) .done
  | .down 1 t (.downCreate p _) => .push t (.downUpdate p (.value 7)) .done
  | .notify _ _ _ => .get fun a => .put (a + 1) .done
  | _ => .done

/-- A program: a create, a request to delete, a look. -/
def sampleProg : Prog Nat Nat Nat :=
  .push 0 (.downCreate 5 (.value 1)) (.push 0 (.upDelete 5) (.look 0 5 fun _ => .done))

/-! ## C116: each message has its whole effect -/

/-- At any moment the calls that have been made for a message are the first of those it should lead to. -/
theorem calls_so_far (c : Config S P V) (hl : ∀ t, Lawful (c.ops t)) (code : Code A P V) (st : Nat → S) (a : A)
    (q : Prog A P V) (n : Nat) (i t : Nat) (m : Msg P V) (before : Nat → S)
    (h : Entry.pushed i t m before ∈ (run c code n (start st a q)).world.log) :
    (m.isUpRead = false → callsFor i (run c code n (start st a q)).world.log
        <+: writeCalls c ((c.ops t).apply (before t) m).2 t m)
    ∧ (∀ p, m = .upRead p → callsFor i (run c code n (start st a q)).world.log
        <+: readCalls c t p ((c.ops t).view ((c.ops t).apply (before t) m).1 p)) := by
  have hi := (inv_run c code st a q n).main i t m before h
  constructor
  · intro hm
    rw [(mainCalls_write c before t m hm (hl t)).2] at hi
    exact ⟨_, hi⟩
  · rintro p rfl
    rw [(mainCalls_read c before t p).2] at hi
    exact ⟨_, hi⟩

/-- C116: however the actors push and match while they are called, and however deep this goes: when
everything has returned, each message that was pushed has led to exactly the calls it should lead to, in
their order.  (`before` are the stores before the message; they are given by `history`.) -/
theorem each_push_is_carried_out (c : Config S P V) (hl : ∀ t, Lawful (c.ops t)) (code : Code A P V) (st : Nat → S)
    (a : A) (q : Prog A P V) (n : Nat) (hrest : (run c code n (start st a q)).tasks = [])
    (i t : Nat) (m : Msg P V) (before : Nat → S)
    (h : Entry.pushed i t m before ∈ (run c code n (start st a q)).world.log) :
    (m.isUpRead = false → callsFor i (run c code n (start st a q)).world.log
        = writeCalls c ((c.ops t).apply (before t) m).2 t m)
    ∧ (∀ p, m = .upRead p → callsFor i (run c code n (start st a q)).world.log
        = readCalls c t p ((c.ops t).view ((c.ops t).apply (before t) m).1 p)) := by
  have hi := (inv_run c code st a q n).main i t m before h
  rw [hrest, show pend i ([] : List (Task A P V)) = [] from rfl, List.append_nil] at hi
  constructor
  · intro hm
    rw [(mainCalls_write c before t m hm (hl t)).2] at hi
    exact hi
  · rintro p rfl
    rw [(mainCalls_read c before t p).2] at hi
    exact hi

/-- C116: a message without a complete path goes to the producer of its type, once. -/
theorem each_submit_is_carried_out (c : Config S P V) (code : Code A P V) (st : Nat → S) (a : A) (q : Prog A P V)
    (n : Nat) (hrest : (run c code n (start st a q)).tasks = []) (i t : Nat) (m : Msg P V)
    (h : Entry.submitted i t m ∈ (run c code n (start st a q)).world.log) :
    callsFor i (run c code n (start st a q)).world.log = [.up (c.producerOf t) t m] := by
  have hi := (inv_run c code st a q n).sub i t m h
  rwa [hrest, show pend i ([] : List (Task A P V)) = [] from rfl, List.append_nil] at hi

/-- C116: each message that was pushed has been shown to the stores that listen to its type, one after the
other and once each. -/
theorem each_listener_is_shown (c : Config S P V) (code : Code A P V) (st : Nat → S) (a : A) (q : Prog A P V)
    (n : Nat) (hrest : (run c code n (start st a q)).tasks = []) (i t : Nat) (m : Msg P V) (before : Nat → S)
    (h : Entry.pushed i t m before ∈ (run c code n (start st a q)).world.log) :
    shownFor i (run c code n (start st a q)).world.log = (c.listeners t).map fun l => (l, t, m) := by
  have hi := (shown_run c code st a q n).push i t m before h
  rwa [hrest, show toShow i ([] : List (Task A P V)) = [] from rfl, List.append_nil] at hi

/-- C116: for each path a listening store has marked, every state consumer has been notified, and nobody
else. -/
theorem each_mark_is_made_known (c : Config S P V) (hn : ∀ t, (c.listeners t).Nodup) (code : Code A P V)
    (st : Nat → S) (a : A) (q : Prog A P V) (n : Nat) (hrest : (run c code n (start st a q)).tasks = [])
    (i l t : Nat) (m : Msg P V) (before : Nat → S)
    (h : Entry.heard i l t m before ∈ (run c code n (start st a q)).world.log) :
    callsFrom i l (run c code n (start st a q)).world.log
      = ((c.ops l).foreign (before l) t m).2.flatMap fun p =>
          (actorsWith Actor.stateConsumer c).map fun b => .notify b l p := by
  have hi := (marks_run c hn code st a q n).heard i l t m before h
  rw [hrest, show toCall i l ([] : List (Task A P V)) = [] from rfl, List.append_nil] at hi
  rw [hi]
  congr 1
  funext p
  rw [notifyCalls, Context.indices_eq]; rfl

/-- C116: the pushes are numbered one after the other as they are begun, so that a number stands for one
push. -/
theorem numbered (c : Config S P V) (code : Code A P V) (st : Nat → S) (a : A) (q : Prog A P V) (n : Nat) :
    (run c code n (start st a q)).world.log.filterMap begun
      = List.range (run c code n (start st a q)).world.next := (inv_run c code st a q n).ids

example : (run sample sampleCode 40 (start (fun _ => MapStore.empty) 0 sampleProg)).tasks.length = 0
    ∧ pushes (run sample sampleCode 40 (start (fun _ => MapStore.empty) 0 sampleProg)).world.log
      = [(0, .downCreate 5 (.value 1)), (0, .downUpdate 5 (.value 7)), (0, .upDelete 5), (0, .downDelete 5)]
    ∧ callsFor 0 (run sample sampleCode 40 (start (fun _ => MapStore.empty) 0 sampleProg)).world.log
      = [.notify 1 0 5, .down 1 0 (.downCreate 5 (.value 1)), .down 2 0 (.downCreate 5 (.value 1))]
    ∧ callsFor 1 (run sample sampleCode 40 (start (fun _ => MapStore.empty) 0 sampleProg)).world.log
      = [.notify 1 0 5, .down 1 0 (.downUpdate 5 (.value 7)), .down 2 0 (.downUpdate 5 (.value 7))]
    ∧ callsFor 2 (run sample sampleCode 40 (start (fun _ => MapStore.empty) 0 sampleProg)).world.log
      = [.up 0 0 (.upDelete 5)]
    ∧ (run sample sampleCode 40 (start (fun _ => MapStore.empty) 0 sampleProg)).world.vars = 3 := by
  decide +kernel

example : (∀ t, (sample.listeners t).Nodup)
    ∧ (shownFor 1 (run sample sampleCode 40 (start (fun _ => MapStore.empty) 0 sampleProg)).world.log
      = [(1, 0, .downUpdate 5 (.value 7))]) := by
  refine ⟨fun t => ?_, by decide +kernel⟩
  show (if t = 0 then [1] else []).Nodup
  split <;> decide

/-! ## C117: the history of the stores -/

/-- C117: the stores are the effect of the messages in the order in which they were pushed; whoever is
called finds the effect of the messages up to then, among them the one it is called for. -/
theorem history (c : Config S P V) (hl : ∀ t, Lawful (c.ops t)) (code : Code A P V) (st : Nat → S) (a : A)
    (q : Prog A P V) (n : Nat) :
    (run c code n (start st a q)).world.stores = effect c st (run c code n (start st a q)).world.log
    ∧ (∀ l1 l2 i t m before, (run c code n (start st a q)).world.log = l1 ++ .pushed i t m before :: l2 →
        before = effect c st l1)
    ∧ ∀ l1 l2 i src b seen, (run c code n (start st a q)).world.log = l1 ++ .called i src b seen :: l2 →
        seen = effect c st l1 ∧ i ∈ l1.filterMap begun := by
  have h := hist_run c hl code st a q n
  refine ⟨h.now, ?_, ?_⟩
  · intro l1 l2 i t m before hs
    exact (h.then_ _ _ _ hs).1 _ rfl
  · intro l1 l2 i src b seen hs
    exact ⟨(h.then_ _ _ _ hs).1 _ rfl, (h.then_ _ _ _ hs).2 _ rfl⟩

/-- C117: if no store listens to others, the stores are as if the same messages had been pushed one after
the other, each when the one before had returned. -/
theorem as_if_one_after_the_other (c : Config S P V) (hl : ∀ t, Lawful (c.ops t))
    (hf : ∀ l s t m, (c.ops l).foreign s t m = (s, [])) (code : Code A P V) (st : Nat → S) (a : A)
    (q : Prog A P V) (n : Nat) :
    (run c code n (start st a q)).world.stores
      = (Context.pushAll c st (pushes (run c code n (start st a q)).world.log)).1 := by
  rw [(history c hl code st a q n).1]
  exact effect_sequential c hl hf st _

example : ∀ l s t m, (sample.ops l).foreign s t m = (s, []) := fun _ _ _ _ => rfl
example : (sample.ops 0).view ((run sample sampleCode 14 (start (fun _ => MapStore.empty) 0 sampleProg)).world.stores 0) 5
    = .value (.value 7) := by decide +kernel

/-! ## C118: the order in which consumers are told -/

/-- C118: a consumer gets the messages in the order in which they were pushed, if nothing is pushed by
those that are called before it: by state consumers when they are notified, and by the consumers declared
before it.  Producers, the consumer itself, the ones after it and the program may push as they like. -/
theorem consumer_order_partial (c : Config S P V) (hl : ∀ t, Lawful (c.ops t)) (code : Code A P V) (b : Nat)
    (hn : ∀ d ∈ actorsWith Actor.stateConsumer c, ∀ t p, Quiet c (code (.notify d t p)))
    (hd : ∀ d ∈ actorsWith Actor.consumer c, d < b → ∀ t m, Quiet c (code (.down d t m)))
    (st : Nat → S) (a : A) (q : Prog A P V) (n : Nat) :
    (sentTo b (run c code n (start st a q)).world.log).Pairwise (· < ·) := by
  rw [sentTo_eq]
  exact ord_run (tgtDown b) (safeQuiet c code) (gotDown b) c code (keeps_down c hl code b hn hd)
    (fun n x i => tgtDown_old b n x i) st a q rfl n

example : (∀ d ∈ actorsWith Actor.stateConsumer sample, ∀ t p, Quiet sample (sampleCode (.notify d t p)))
    ∧ (∀ d ∈ actorsWith Actor.consumer sample, d < 1 → ∀ t m, Quiet sample (sampleCode (.down d t m)))
    ∧ sentTo 1 (run sample sampleCode 40 (start (fun _ => MapStore.empty) 0 sampleProg)).world.log = [0, 1, 3] := by
  refine ⟨fun d _ t p => .get fun a => .put .done, fun d _ hd t m => ?_, by decide +kernel⟩
  have : d = 0 := by omega
  subst this
  exact .done

/-- C118 does not hold in general: when the first consumer answers a message by another, the second
consumer gets the answer before the message. -/
theorem consumer_order_violated : ∃ (c : Config (Map Nat Nat) Nat Nat) (code : Code Nat Nat Nat)
    (q : Prog Nat Nat Nat) (n : Nat), (∀ t, Lawful (c.ops t))
    ∧ (run c code n (start (fun _ => MapStore.empty) 0 q)).tasks.length = 0
    ∧ pushes (run c code n (start (fun _ => MapStore.empty) 0 q)).world.log
        = [(0, .downCreate 5 (.value 1)), (0, .downUpdate 5 (.value 7))]
    ∧ sentTo 2 (run c code n (start (fun _ => MapStore.empty) 0 q)).world.log = [1, 0] :=
  ⟨sample, sampleCode, .push 0 (.downCreate 5 (.value 1)) .done, 30, sample_lawful, by decide +kernel⟩

/-! ## C119: state consumers are told of the last change -/

theorem mapOps_honest [DecidableEq P] : Honest (mapOps : StoreOps (Map P V) P V) := by
  have hw : ∀ (s : Map P V) q w, (mapOps : StoreOps (Map P V) P V).view s q = .value w ↔ s q = some (.resolved w) := by
    intro s q w
    show MapStore.view s q = .value w ↔ _
    unfold MapStore.view
    cases h : s q with
    | none => simp
    | some e => cases e <;> simp
  refine ⟨?_, ?_, ?_⟩
  · intro s p q w
    rw [hw, hw]
    show (if s p = none then s.set p .unresolved else s) q = _ ↔ _
    split
    · rename_i h
      unfold Map.set
      by_cases hq : q = p
      · subst hq; simp [h]
      · simp [hq]
    · exact Iff.rfl
  · intro s m q w hm hc
    rw [hw, hw]
    show (MapStore.apply s m).1 q = _ ↔ _
    have hc' : (MapStore.apply s m).2 = false ∨ q ≠ m.path := hc
    cases m with
    | upRead p => cases hm
    | downRead p x =>
      simp only [MapStore.apply, Msg.path] at hc' ⊢
      cases h : (s p).getD .unresolved with
      | unresolved =>
        rw [h] at hc'
        have : q ≠ p := by simpa using hc'
        simp [Map.set, this]
      | resolved y => rfl
    | downCreate p x =>
      have : q ≠ p := by simpa [MapStore.apply, Msg.path] using hc'
      simp [MapStore.apply, Map.set, this]
    | downUpdate p x =>
      have : q ≠ p := by simpa [MapStore.apply, Msg.path] using hc'
      simp [MapStore.apply, Map.set, this]
    | downDelete p =>
      have : q ≠ p := by simpa [MapStore.apply, Msg.path] using hc'
      simp [MapStore.apply, Map.erase, this]
    | upCreate p v => rfl
    | upUpdate p v => rfl
    | upDelete p => rfl
  · intro s t m q w _
    exact Iff.rfl

theorem contextStoreOps_honest [Subsingleton P] :
    Honest (Context.contextStoreOps : StoreOps (Payload V) P V) := by
  refine ⟨fun _ _ _ _ => Iff.rfl, ?_, fun _ _ _ _ _ _ => Iff.rfl⟩
  intro s m q w hm hc
  rcases hc with hc | hc
  · cases m <;> first | (cases hc; done) | exact Iff.rfl
  · exact absurd (Subsingleton.elim _ _) hc

/-- C119: when everything has returned, every state consumer has been told of every change: at each path
the stores show what they showed when the state consumer was last told of the path, or what they showed in
the beginning if it never was. -/
theorem state_consumers_told [DecidableEq P] (c : Config S P V) (hl : ∀ t, Lawful (c.ops t))
    (hh : ∀ t, Honest (c.ops t)) (code : Code A P V) (st : Nat → S) (a : A) (q : Prog A P V) (n : Nat)
    (hrest : (run c code n (start st a q)).tasks = []) (b : Nat) (hb : b ∈ actorsWith Actor.stateConsumer c)
    (t : Nat) (p : P) :
    shows c (run c code n (start st a q)).world.stores t p
      = shows c ((lastTold b t p (run c code n (start st a q)).world.log).getD st) t p := by
  rcases latest_run c hl hh code st a q n b hb t p with ⟨i, src, h⟩ | h
  · rw [hrest] at h; cases h
  · exact same_shows c t p _ _ h

example : (1 ∈ actorsWith Actor.stateConsumer sample)
    ∧ (lastTold 1 0 5 (run sample sampleCode 40 (start (fun _ => MapStore.empty) 0
        (.push 0 (.downCreate 5 (.value 1)) .done))).world.log).isSome
    ∧ shows sample (run sample sampleCode 40 (start (fun _ => MapStore.empty) 0
        (.push 0 (.downCreate 5 (.value 1)) .done))).world.stores 0 5 = some (.value 7) := by
  decide +kernel

/-! ## C120: what `match` hands over -/

/-- C120: what is handed to the callback of `match` is what the store shows when it is handed over, if
those that are called for a read request do not push (and no store listens to the type). -/
theorem match_shows_current_partial (c : Config S P V) (hh : ∀ t, Honest (c.ops t)) (code : Code A P V) (t : Nat) (p : P)
    (hq : ∀ b, Concerns c t (.upRead p) b → Quiet c (code b)) (hls : c.listeners t = [])
    (k : View V → Prog A P V) (w : World A S P V) (r : List (Task A P V)) :
    ∃ n w' v, run c code n ⟨w, .prog (.look t p k) :: r⟩ = ⟨w', .prog (k v) :: r⟩
      ∧ ∀ x, v = .value x ↔ (c.ops t).view (w'.stores t) p = .value x := by
  by_cases hv : (c.ops t).view (w.stores t) p = .triggerRead
  · have hcalls : ∀ y ∈ (mainCalls c w.stores t (.upRead p)).map (Task.call (A := A) w.next none), Idle c code y := by
      intro y hy
      obtain ⟨b, hb, rfl⟩ := List.mem_map.1 hy
      exact idle_call c code _ _ _ (hq b (mainCalls_concern c _ _ _ b hb))
    obtain ⟨n, w', h1, h2, -⟩ := idle_list c code _ hcalls (exec c code w (.push t (.upRead p))).1
      (.prog (k .unresolved) :: r)
    refine ⟨n + 1 + 1, w', .unresolved, ?_, ?_⟩
    · rw [run, run]
      have e1 : step c code ⟨w, .prog (.look t p k) :: r⟩ = ⟨w, .push t (.upRead p) :: .prog (k .unresolved) :: r⟩ := by
        simp only [step, exec_look_trigger c code w t p k hv]; rfl
      have e2 : step c code ⟨w, .push t (.upRead p) :: .prog (k .unresolved) :: r⟩
          = ⟨(exec c code w (.push t (.upRead p))).1,
              (mainCalls c w.stores t (.upRead p)).map (Task.call w.next none) ++ (.prog (k .unresolved) :: r)⟩ := by
        simp only [step, exec, hls, List.map_nil, List.append_nil]
      rw [e1, e2, h1]
    · intro x
      rw [h2]
      have : (exec c code w (.push t (.upRead p))).1.stores t = ((c.ops t).apply (w.stores t) (.upRead p)).1 := by
        show (pushMain c w.stores t (.upRead p)).1 t = _
        rw [(mainCalls_read c w.stores t p).1]
        simp [setStore]
      rw [this, (hh t).read, hv]
      constructor <;> intro h <;> cases h
  · refine ⟨1, w, (c.ops t).view (w.stores t) p, ?_, fun x => Iff.rfl⟩
    rw [run, run]
    simp only [step, exec_look_other c code w t p k hv]; rfl

/-- A store that asks for what it does not have: an absent path is `trigger_read`. -/
def askingOps [DecidableEq P] : StoreOps (P → Option (Payload V)) P V where
  never m := m.isUpstream
  apply s
    | .downCreate p w | .downRead p w | .downUpdate p w => (fun q => if q = p then some w else s q, true)
    | .downDelete p => (fun q => if q = p then none else s q, true)
    | _ => (s, false)
  view s p := match s p with
    | some w => .value w
    | none => .triggerRead
  foreign s _ _ := (s, [])

theorem askingOps_lawful [DecidableEq P] : Lawful (askingOps : StoreOps (P → Option (Payload V)) P V) := by
  intro s m h1 h2
  cases m <;> simp_all [askingOps, Msg.isUpstream]

theorem askingOps_honest [DecidableEq P] : Honest (askingOps : StoreOps (P → Option (Payload V)) P V) := by
  refine ⟨fun _ _ _ _ => Iff.rfl, ?_, fun _ _ _ _ _ _ => Iff.rfl⟩
  intro s m q w hm hc
  cases m <;> simp_all [askingOps, Msg.path]

/-- A producer, a state consumer, and stores that ask. -/
def asking : Config (Nat → Option (Payload Nat)) Nat Nat where
  actors := [⟨true, false, false⟩, ⟨false, false, true⟩]
  producerOf _ := 0
  listeners _ := []
  ops _ := askingOps

/-- A producer that answers a read request at once, and a view that shows what it finds when it is told of
a change. -/
def prompt : Code (Option (View Nat)) Nat Nat
  | .up _ t (.upRead p) => .push t (.downRead p (.value 7)) .done
  | .notify _ t p => .look t p fun v => .put (some v) .done
  | _ => .done

/-- C120 does not hold if the producer answers the request at once: the view, which looks at a path and
shows what it is handed, is told of the answer and shows it while it is still looking, and is then handed
`unresolved`.  It goes on to show that although the store has the value, and is told nothing more. -/
theorem match_shows_current_violated :
    ∃ n, (run asking prompt n (start (fun _ _ => none) none (.look 0 5 fun v => .put (some v) .done))).tasks.length = 0
    ∧ (run asking prompt n (start (fun _ _ => none) none (.look 0 5 fun v => .put (some v) .done))).world.vars
        = some .unresolved
    ∧ shows asking (run asking prompt n (start (fun _ _ => none) none
        (.look 0 5 fun v => .put (some v) .done))).world.stores 0 5 = some (.value 7) :=
  ⟨30, by decide +kernel⟩

/-- A producer that answers later leaves the view right: it is handed `unresolved`, and when the answer
comes it is told. -/
example : ∀ b, Concerns asking 0 (.upRead 5) b → Quiet asking
    ((fun x => match x with
      | .notify _ _ _ => .get fun a => .put a .done
      | _ => .done : Code (Option (View Nat)) Nat Nat) b) := by
  intro b _
  cases b with
  | notify => exact .get fun a => .put .done
  | up => exact .done
  | down => exact .done
example : (run asking (fun x => match x with
      | .notify _ t p => .look t p fun v => .put (some v) .done
      | _ => .done) 30 (start (fun _ _ => none) none
      (.look 0 5 fun v => .put (some v) (.push 0 (.downRead 5 (.value 7)) .done)))).world.vars
    = some (View.value (.value 7)) := by decide +kernel

/-! ## C121: listening stores -/

/-- C121: a listening store is shown the messages of a type in the order in which they were pushed, if no
actor pushes messages of this type while it is called. -/
theorem listener_order_partial (c : Config S P V) (code : Code A P V) (l t : Nat)
    (hcode : ∀ b, Avoids c t (code b)) (hls : (c.listeners t).Nodup) (st : Nat → S) (a : A) (q : Prog A P V) (n : Nat) :
    (heardBy l t (run c code n (start st a q)).world.log).Pairwise (· < ·) := by
  rw [heardBy_eq]
  exact ord_run (tgtListen l t) (safeAvoids c t) (gotHeard l t) c code (keeps_listen c code l t hcode hls)
    (fun n x i => tgtListen_old l t n x i) st a q rfl n

/-- A store that keeps the last payload it heard of another type. -/
def followOps : StoreOps (Option (Payload Nat)) Nat Nat where
  never m := m.isUpstream
  apply s
    | .downUpdate _ w => (some w, true)
    | _ => (s, false)
  view s _ := match s with
    | some w => .value w
    | none => .notInSet
  foreign s _
    | .downUpdate p w => (some w, [p])
    | _ => (s, [])

/-- Type 1 follows type 0. -/
def following : Config (Option (Payload Nat)) Nat Nat where
  actors := [⟨true, false, false⟩, ⟨false, true, false⟩]
  producerOf _ := 0
  listeners t := if t = 0 then [1] else []
  ops _ := followOps

/-- The path that is marked is made known to the state consumer. -/
example : callsFrom 0 1 (run { following with actors := [⟨true, false, false⟩, ⟨false, true, true⟩] }
      (fun _ => .done : Code Nat Nat Nat) 30 (start (fun _ => none) 0
      (.push 0 (.downUpdate 5 (.value 1)) .done))).world.log = [.notify 1 1 5] := by decide +kernel

/-- C121 does not hold in general: when a consumer answers an update by another update, the listening
store is shown the second before the first, and is left with the first. -/
theorem listener_order_violated : ∃ (code : Code Nat Nat Nat) (n : Nat),
    (run following code n (start (fun _ => none) 0 (.push 0 (.downUpdate 5 (.value 1)) .done))).tasks.length = 0
    ∧ heardBy 1 0 (run following code n (start (fun _ => none) 0 (.push 0 (.downUpdate 5 (.value 1)) .done))).world.log
        = [1, 0]
    ∧ shows following (run following code n (start (fun _ => none) 0
        (.push 0 (.downUpdate 5 (.value 1)) .done))).world.stores 0 5 = some (.value 2)
    ∧ shows following (run following code n (start (fun _ => none) 0
        (.push 0 (.downUpdate 5 (.value 1)) .done))).world.stores 1 5 = some (.value 1) :=
  ⟨fun b => match b with
    | .down _ t (.downUpdate p (.value 1)) => .push t (.downUpdate p (.value 2)) .done
    | _ => .done, 30, by decide +kernel⟩

example : (∀ b, Avoids following 0 ((fun b => match b with
      | .down _ 0 (.downUpdate p w) => .push 2 (.downUpdate p w) .done
      | _ => .done : Code Nat Nat Nat) b))
    ∧ heardBy 1 0 (run following (fun b => match b with
      | .down _ 0 (.downUpdate p w) => .push 2 (.downUpdate p w) .done
      | _ => .done) 30 (start (fun _ => none) 0 (.push 0 (.downUpdate 5 (.value 1))
        (.push 0 (.downUpdate 5 (.value 2)) .done)))).world.log = [0, 2] := by
  refine ⟨fun b => ?_, by decide +kernel⟩
  dsimp only
  split
  · exact .push (by decide) .done
  · exact .done

/-! ## C122: coming to rest -/

/-- C122: if each message is answered only by messages of smaller rank, every program's use of the context
comes to an end. -/
theorem comes_to_rest_partial (c : Config S P V) (code : Code A P V) (rank : Nat → Msg P V → Nat)
    (hd : Descending c code rank) (st : Nat → S) (a : A) (q : Prog A P V) :
    ∃ n, (run c code n (start st a q)).tasks = [] := by
  obtain ⟨n, w', h⟩ := ends_prog c code rank hd q ⟨st, a, 0, []⟩ []
  exact ⟨n, by rw [start, h]⟩

/-- Requests rank above what they are answered by. -/
def downLast (_ : Nat) (m : Msg P V) : Nat := if towardsProducer m then 1 else 0

/-- With echo producers it comes to an end. -/
theorem echo_descending (c : Config S P V) : Descending c (echo : Code A P V) downLast := by
  intro t m b hb
  cases b with
  | notify => exact .done
  | down => exact .done
  | up x u m' =>
    obtain ⟨rfl, rfl⟩ := hb
    cases m' <;> first | exact .done | exact .push Nat.zero_lt_one .done

/-- C122 does not hold in general: a consumer that answers each update by an update is called without
end, on an ever growing stack. -/
theorem comes_to_rest_violated : ∃ (c : Config (Map Nat Nat) Nat Nat) (code : Code Nat Nat Nat) (q : Prog Nat Nat Nat),
    ∀ n, (run c code n (start (fun _ => MapStore.empty) 0 q)).tasks ≠ [] := by
  let m : Msg Nat Nat := .downUpdate 5 (.value 1)
  let code : Code Nat Nat Nat := fun b => match b with
    | .down 1 0 m' => .push 0 m' .done
    | _ => .done
  refine ⟨sample, code, .push 0 m .done, fun n => ?_⟩
  let I : State Nat (Map Nat Nat) Nat Nat → Prop := fun s =>
    Task.prog (.push 0 m .done) ∈ s.tasks ∨ Task.push 0 m ∈ s.tasks ∨ ∃ i, Task.call i none (.down 1 0 m) ∈ s.tasks
  have h : I (run sample code n (start (fun _ => MapStore.empty) 0 (.push 0 m .done))) := by
    refine run_inv sample code I ?_ n _ (.inl List.mem_cons_self)
    intro w x r h
    rcases h with h | h | ⟨i, h⟩
    · rcases List.mem_cons.1 h with rfl | h
      · exact .inr (.inl List.mem_cons_self)
      · exact .inl (List.mem_append_right _ h)
    · rcases List.mem_cons.1 h with rfl | h
      · refine .inr (.inr ⟨w.next, List.mem_append_left _ (List.mem_append_left _ (List.mem_map.2 ⟨_, ?_, rfl⟩))⟩)
        rw [(mainCalls_write sample w.stores 0 m rfl (sample_lawful 0)).2]
        exact List.mem_append_right _ (List.mem_map.2 ⟨1, by decide, rfl⟩)
      · exact .inr (.inl (List.mem_append_right _ h))
    · rcases List.mem_cons.1 h with rfl | h
      · exact .inl List.mem_cons_self
      · exact .inr (.inr ⟨i, List.mem_append_right _ h⟩)
  intro he
  rcases h with h | h | ⟨i, h⟩ <;> rw [he] at h <;> cases h

/-! ## C123: the echo producer -/

/-- C123: with echo producers and map stores, a request to create, update or delete is carried out when
the push returns: the stores are as after the corresponding downstream message, and the request and this
message, and no other, have been pushed (to the calls they led to C116 applies). -/
theorem echo_applies [DecidableEq P] (c : Config (Map P V) P V) (hc : ∀ t, c.ops t = mapOps) (st : Nat → Map P V)
    (a : A) (t : Nat) (m d : Msg P V) (hd : CarriesOut m d) :
    ∃ n, (run c echo n (start st a (.push t m .done))).tasks = []
      ∧ (run c echo n (start st a (.push t m .done))).world.stores = setStore st t (MapStore.apply (st t) d).1
      ∧ pushes (run c echo n (start st a (.push t m .done))).world.log = [(t, m), (t, d)] := by
  have hd : toDown m = some d := by cases hd <;> rfl
  have hl : ∀ t, Lawful (c.ops t) := fun t => by rw [hc]; exact Context.mapOps_lawful
  have hlis : ∀ (i : Nat) (m' : Msg P V), ∀ y ∈ (c.listeners t).map (fun l => Task.listen (A := A) i l t m'),
      Idle c echo y := by
    intro i m' y hy
    obtain ⟨l, -, rfl⟩ := List.mem_map.1 hy
    exact idle_listen c echo i l t m' fun s => by rw [hc]; rfl
  have hup : m.isUpRead = false ∧ towardsProducer m = true ∧ MapStore.apply (st t) m = (st t, false) := by
    cases m <;> first | (cases hd; done) | exact ⟨rfl, rfl, rfl⟩
  have hdown : d.isUpRead = false ∧ towardsProducer d = false := by
    cases m <;> first | (cases hd; done) | (injection hd with hd; subst hd; exact ⟨rfl, rfl⟩)
  -- the request
  have e1 : mainCalls c st t m = [.up (c.producerOf t) t m] := by
    rw [(mainCalls_write c st t m hup.1 (hl t)).2, writeCalls, hc, show mapOps.apply (st t) m = (st t, false) from hup.2.2,
      hup.2.1]
    rfl
  have e2 : (pushMain c st t m).1 = st := by
    rw [pushMain_stores c hl, hc, show mapOps.apply (st t) m = (st t, false) from hup.2.2]
    funext u; unfold setStore; split
    · rename_i h; rw [h]
    · rfl
  let w1 : World A (Map P V) P V := ⟨st, a, 1, [.pushed 0 t m st, .called 0 none (.up (c.producerOf t) t m) st]⟩
  let rest : List (Task A P V) := (c.listeners t).map (fun l => Task.listen 0 l t m) ++ [.prog .done]
  have s1 : run c echo 4 (start st a (.push t m .done)) = ⟨w1, .push t d :: .prog .done :: rest⟩ := by
    have a1 : run c echo 1 (start st a (.push t m .done)) = ⟨⟨st, a, 0, []⟩, [.push t m, .prog .done]⟩ := rfl
    have a2 : step c echo ⟨(⟨st, a, 0, []⟩ : World A (Map P V) P V), [.push t m, .prog .done]⟩
        = ⟨⟨st, a, 1, [.pushed 0 t m st]⟩, .call 0 none (.up (c.producerOf t) t m) :: rest⟩ := by
      simp only [step, exec, e1, e2]; rfl
    have a3 : step c echo ⟨(⟨st, a, 1, [.pushed 0 t m st]⟩ : World A (Map P V) P V), .call 0 none (.up (c.producerOf t) t m) :: rest⟩
        = ⟨w1, .prog (.push t d .done) :: rest⟩ := by
      simp only [step, exec, echo, hd]; rfl
    show run c echo 3 (run c echo 1 (start st a (.push t m .done))) = _
    rw [a1]
    show step c echo (step c echo (step c echo _)) = _
    rw [a2, a3]; rfl
  -- what is pushed by the producer
  have hcalls : ∀ y ∈ (mainCalls c st t d).map (Task.call (A := A) 1 none), Idle c echo y := by
    intro y hy
    obtain ⟨b, hb, rfl⟩ := List.mem_map.1 hy
    refine idle_call c echo _ _ _ ?_
    rw [(mainCalls_write c st t d hdown.1 (hl t)).2, writeCalls, hdown.2] at hb
    rcases List.mem_append.1 hb with hb | hb
    · split at hb
      · obtain ⟨x, -, rfl⟩ := List.mem_map.1 hb; exact .done
      · cases hb
    · simp only [Bool.false_eq_true, if_false] at hb
      obtain ⟨x, -, rfl⟩ := List.mem_map.1 hb; exact .done
  let w2 := (exec c echo w1 (.push t d)).1
  have hall : ∀ y ∈ ((mainCalls c st t d).map (Task.call (A := A) 1 none) ++ (c.listeners t).map (fun l => Task.listen 1 l t d))
      ++ (.prog .done :: rest), Idle c echo y := by
    intro y hy
    have hdn : Idle c (echo : Code A P V) (.prog .done) := idle_prog c echo _ .done
    rcases List.mem_append.1 hy with hy | hy
    · rcases List.mem_append.1 hy with hy | hy
      · exact hcalls y hy
      · exact hlis 1 d y hy
    · rcases List.mem_cons.1 hy with rfl | hy
      · exact hdn
      · rcases List.mem_append.1 hy with hy | hy
        · exact hlis 0 m y hy
        · rw [List.mem_singleton.1 hy]; exact hdn
  obtain ⟨n, w3, h1, h2, h3⟩ := idle_list c echo _ hall w2 []
  have s2 : run c echo (4 + (1 + n)) (start st a (.push t m .done)) = ⟨w3, []⟩ := by
    rw [run_add, s1, run_add, ← h1, List.append_nil]
    rfl
  refine ⟨4 + (1 + n), by rw [s2], ?_, ?_⟩
  · rw [s2]
    show w3.stores = _
    rw [h2]
    show (pushMain c st t d).1 = _
    rw [pushMain_stores c hl, hc]; rfl
  · rw [s2]
    show pushes w3.log = _
    rw [h3]; rfl

example : CarriesOut (.upUpdate 5 9 : Msg Nat Nat) (.downUpdate 5 (.value 9))
    ∧ shows sample (run sample (echo : Code Nat Nat Nat) 40 (start (fun _ => MapStore.empty) 0
        (.push 0 (.upUpdate 5 9) .done))).world.stores 0 5 = some (.value 9) :=
  ⟨.update 5 9, by decide +kernel⟩

end Nbdl.Nested
