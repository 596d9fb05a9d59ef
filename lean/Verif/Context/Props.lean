import Verif.Context.Model
import Verif.MapStore.Props
/-! Context properties C27, C28, C29, C64. -/
namespace Nbdl.Context
open MapStore (Msg View Payload)
variable {S P V : Type}

/-! ## Vocabulary for the statements -/

/-- Who was told about a change of path type `t`, and of which path. -/
def notified (t : Nat) : List (Event S P V) → List (Nat × P)
  | [] => []
  | .notify a t' p _ :: e => if t' = t then (a, p) :: notified t e else notified t e
  | _ :: e => notified t e

/-- Messages sent to producers: actor, path type and message. -/
def sentUp : List (Event S P V) → List (Nat × Nat × Msg P V)
  | [] => []
  | .up a t m _ :: e => (a, t, m) :: sentUp e
  | _ :: e => sentUp e

/-- Messages sent to consumers. -/
def sentDown : List (Event S P V) → List (Nat × Nat × Msg P V)
  | [] => []
  | .down a t m _ :: e => (a, t, m) :: sentDown e
  | _ :: e => sentDown e

theorem notified_append (t : Nat) (a b : List (Event S P V)) : notified t (a ++ b) = notified t a ++ notified t b := by
  induction a with
  | nil => rfl
  | cons e a ih => cases e <;> simp only [List.cons_append, notified, ih] <;> split <;> rfl

theorem sentUp_append (a b : List (Event S P V)) : sentUp (a ++ b) = sentUp a ++ sentUp b := by
  induction a with
  | nil => rfl
  | cons e a ih => cases e <;> simp [sentUp, ih]

theorem sentDown_append (a b : List (Event S P V)) : sentDown (a ++ b) = sentDown a ++ sentDown b := by
  induction a with
  | nil => rfl
  | cons e a ih => cases e <;> simp [sentDown, ih]

/-- The actors with a property, in order of declaration. -/
def actorsWith (f : Actor → Bool) (c : Config S P V) : List Nat :=
  (List.range c.actors.length).filter fun i => (c.actors[i]?.map f).getD false

theorem indices_eq (f : Actor → Bool) (actors : List Actor) :
    indices f actors = (List.range actors.length).filter fun i => (actors[i]?.map f).getD false := by
  unfold indices
  rw [List.zipIdx_eq_zip_range', List.range_eq_range']
  suffices h : ∀ (l pre : List Actor),
      ((l.zip (List.range' pre.length l.length)).filter (fun x => f x.1)).map (·.2)
        = (List.range' pre.length l.length).filter fun i => ((pre ++ l)[i]?.map f).getD false by
    have := h actors []
    simpa using this
  intro l
  induction l with
  | nil => intro pre; rfl
  | cons a l ih =>
    intro pre
    have := ih (pre ++ [a])
    simp only [List.length_append, List.length_cons, List.length_nil, List.append_assoc,
      List.singleton_append] at this
    simp only [List.length_cons, List.range'_succ, List.zip_cons_cons, List.filter_cons]
    have ha : (pre ++ a :: l)[pre.length]? = some a := by simp
    rw [ha]
    simp only [Option.map_some, Option.getD_some]
    split
    · simp only [List.map_cons]
      rw [Nat.zero_add] at this
      rw [this]
    · rw [Nat.zero_add] at this
      exact this

theorem notified_map (c : Config S P V) (st : Nat → S) (t u : Nat) (p : P) :
    notified u (notifyStateConsumers c st t p)
      = if t = u then (actorsWith Actor.stateConsumer c).map (·, p) else [] := by
  unfold notifyStateConsumers actorsWith
  rw [indices_eq]
  generalize (List.range c.actors.length).filter _ = l
  by_cases h : t = u
  · simp only [h, if_true]
    induction l with
    | nil => rfl
    | cons a l ih => simp [notified, ih]
  · simp only [h, if_false]
    induction l with
    | nil => rfl
    | cons a l ih => simp [notified, h, ih]

theorem notify_only (c : Config S P V) (st : Nat → S) (t : Nat) (p : P) :
    sentUp (notifyStateConsumers c st t p) = [] ∧ sentDown (notifyStateConsumers c st t p) = [] := by
  unfold notifyStateConsumers
  generalize indices _ c.actors = l
  induction l with
  | nil => exact ⟨rfl, rfl⟩
  | cons a l ih => exact ih

theorem down_only (c : Config S P V) (st : Nat → S) (t u : Nat) (m : Msg P V) :
    notified u (propagateDownstream c st t m) = [] ∧ sentUp (propagateDownstream c st t m) = []
    ∧ sentDown (propagateDownstream c st t m) = (actorsWith Actor.consumer c).map (·, t, m) := by
  unfold propagateDownstream actorsWith
  rw [indices_eq]
  generalize (List.range c.actors.length).filter _ = l
  induction l with
  | nil => exact ⟨rfl, rfl, rfl⟩
  | cons a l ih => exact ⟨ih.1, ih.2.1, by simp [sentDown, ih.2.2]⟩

theorem up_only (c : Config S P V) (st : Nat → S) (t u : Nat) (m : Msg P V) :
    notified u (propagateUpstream c st t m) = [] ∧ sentDown (propagateUpstream c st t m) = []
    ∧ sentUp (propagateUpstream c st t m) = [(c.producerOf t, t, m)] := ⟨rfl, rfl, rfl⟩

theorem flatMap_notify (c : Config S P V) (st : Nat → S) (l u : Nat) (ps : List P) :
    sentUp (ps.flatMap (notifyStateConsumers c st l)) = [] ∧ sentDown (ps.flatMap (notifyStateConsumers c st l)) = []
    ∧ (l ≠ u → notified u (ps.flatMap (notifyStateConsumers c st l)) = []) := by
  induction ps with
  | nil => exact ⟨rfl, rfl, fun _ => rfl⟩
  | cons p ps ih =>
    have h1 := notify_only c st l p
    simp only [List.flatMap_cons, sentUp_append, sentDown_append, notified_append, h1.1, h1.2, ih.1, ih.2.1,
      List.append_nil, true_and]
    intro hne
    rw [ih.2.2 hne, notified_map, if_neg hne]; rfl

/-- The listeners only notify, only about their own path types, and leave other stores alone. -/
theorem listeners_only (c : Config S P V) (t u : Nat) (m : Msg P V) (ls : List Nat) (st : Nat → S) :
    sentUp (applyListeners c t m ls st).2 = [] ∧ sentDown (applyListeners c t m ls st).2 = []
    ∧ (u ∉ ls → notified u (applyListeners c t m ls st).2 = [] ∧ (applyListeners c t m ls st).1 u = st u
        ∧ ∀ e ∈ (applyListeners c t m ls st).2, e.seen u = st u) := by
  induction ls generalizing st with
  | nil => exact ⟨rfl, rfl, fun _ => ⟨rfl, rfl, by simp [applyListeners]⟩⟩
  | cons l ls ih =>
    have hi := ih (setStore st l ((c.ops l).foreign (st l) t m).1)
    have hf := flatMap_notify c (setStore st l ((c.ops l).foreign (st l) t m).1) l u
      ((c.ops l).foreign (st l) t m).2
    simp only [applyListeners, sentUp_append, sentDown_append, notified_append, hi.1, hi.2.1, hf.1, hf.2.1,
      List.append_nil, true_and]
    intro hu
    have hlu : l ≠ u := by rintro rfl; simp at hu
    have hu' : u ∉ ls := by intro h; exact hu (by simp [h])
    have hset : setStore st l ((c.ops l).foreign (st l) t m).1 u = st u := by
      simp [setStore, Ne.symm hlu]
    obtain ⟨h1, h2, h3⟩ := hi.2.2 hu'
    refine ⟨by rw [hf.2.2 hlu, h1]; rfl, by rw [h2, hset], ?_⟩
    intro e he
    rcases List.mem_append.1 he with he | he
    · obtain ⟨p, -, hp⟩ := List.mem_flatMap.1 he
      obtain ⟨a, -, rfl⟩ := List.mem_map.1 hp
      exact hset
    · rw [h3 e he, hset]

/-- A store whose `apply_message` is statically false for a message does nothing with it. -/
def Lawful (o : StoreOps S P V) : Prop := ∀ s m, m.isUpRead = false → o.never m = true → o.apply s m = (s, false)

theorem mapOps_lawful [DecidableEq P] : Lawful (mapOps : StoreOps (MapStore.Map P V) P V) := by
  intro s m h1 h2
  cases m <;> simp_all [mapOps, Msg.isUpstream, Msg.isUpRead, MapStore.apply]

theorem contextStoreOps_lawful : Lawful (contextStoreOps : StoreOps (Payload V) P V) := by
  intro s m _ h2
  cases m <;> simp_all [contextStoreOps]

theorem nullOps_lawful : Lawful (nullOps : StoreOps Unit P V) := fun _ _ _ _ => rfl

/-! ## C27 -/

/-- The messages towards the producers. -/
def towardsProducer : Msg P V → Bool
  | .upCreate _ _ | .upRead _ | .upUpdate _ _ | .upDelete _ => true
  | .downCreate _ _ | .downRead _ _ | .downUpdate _ _ | .downDelete _ => false

theorem isUpstream_eq (m : Msg P V) : m.isUpstream = towardsProducer m := by cases m <;> rfl

/-- C27: a message that is not a read request.  Every actor that is told anything sees the store
already updated; the state consumers are told of the path, once each in order, iff the store reported
a change; an upstream message goes to the producer of its path and nowhere else, a downstream one to
each consumer once in order.  The listening stores come last. -/
theorem push_write (c : Config S P V) (st : Nat → S) (t : Nat) (m : Msg P V)
    (hr : m.isUpRead = false) (hlaw : Lawful (c.ops t)) (hself : t ∉ c.listeners t) :
    let out := push c st t m
    out.1 t = ((c.ops t).apply (st t) m).1
    ∧ (∀ e ∈ out.2, e.seen t = ((c.ops t).apply (st t) m).1)
    ∧ notified t out.2 = (if ((c.ops t).apply (st t) m).2 then
        (actorsWith Actor.stateConsumer c).map (·, m.path) else [])
    ∧ sentUp out.2 = (if towardsProducer m then [(c.producerOf t, t, m)] else [])
    ∧ sentDown out.2 = (if towardsProducer m then [] else (actorsWith Actor.consumer c).map (·, t, m))
    ∧ ∃ told sent later, out.2 = told ++ sent ++ later
        ∧ sentUp told = [] ∧ sentDown told = [] ∧ notified t sent = []
        ∧ sentUp later = [] ∧ sentDown later = [] ∧ notified t later = [] := by
  rw [← isUpstream_eq]
  have hr' : (if (c.ops t).never m then (st t, false) else (c.ops t).apply (st t) m) = (c.ops t).apply (st t) m := by
    split
    · rename_i h; exact (hlaw _ _ hr h).symm
    · rfl
  have hmain : pushMain c st t m =
      (setStore st t ((c.ops t).apply (st t) m).1,
        (if ((c.ops t).apply (st t) m).2 then
          notifyStateConsumers c (setStore st t ((c.ops t).apply (st t) m).1) t m.path else [])
        ++ (if m.isUpstream then propagateUpstream c (setStore st t ((c.ops t).apply (st t) m).1) t m
            else propagateDownstream c (setStore st t ((c.ops t).apply (st t) m).1) t m)) := by
    unfold pushMain
    rw [hr]
    simp only [Bool.false_eq_true, if_false, hr']
  simp only [push, hmain]
  generalize (c.ops t).apply (st t) m = r
  have hL := listeners_only c t t m (c.listeners t) (setStore st t r.1)
  obtain ⟨hL1, hL2, hL3⟩ := hL
  obtain ⟨hL3, hL4, hL5⟩ := hL3 hself
  have hset : setStore st t r.1 t = r.1 := by simp [setStore]
  have hn := notify_only c (setStore st t r.1) t m.path
  have hd := down_only c (setStore st t r.1) t t m
  have hu := up_only c (setStore st t r.1) t t m
  have hnm := notified_map c (setStore st t r.1) t t m.path
  refine ⟨by rw [hL4, hset], ?_, ?_, ?_, ?_, ?_⟩
  · intro e he
    rcases List.mem_append.1 he with he | he
    · rw [← hset]
      rcases List.mem_append.1 he with he | he
      · split at he
        · obtain ⟨a, -, rfl⟩ := List.mem_map.1 he; rfl
        · simp at he
      · split at he
        · simp only [propagateUpstream, List.mem_singleton] at he; subst he; rfl
        · obtain ⟨a, -, rfl⟩ := List.mem_map.1 he; rfl
    · rw [hL5 e he, hset]
  · rw [notified_append, notified_append, hL3, List.append_nil]
    cases r.2 <;> cases m.isUpstream <;> simp [hnm, hd.1, hu.1, notified]
  · rw [sentUp_append, sentUp_append, hL1, List.append_nil]
    cases r.2 <;> cases m.isUpstream <;> simp [hn.1, hd.2.1, hu.2.2, sentUp]
  · rw [sentDown_append, sentDown_append, hL2, List.append_nil]
    cases r.2 <;> cases m.isUpstream <;> simp [hn.2, hd.2.2, hu.2.1, sentDown]
  · refine ⟨_, _, _, rfl, ?_, ?_, ?_, hL1, hL2, hL3⟩
    · cases r.2 <;> simp [hn.1, sentUp]
    · cases r.2 <;> simp [hn.2, sentDown]
    · cases m.isUpstream <;> simp [hd.1, hu.1]

/-- C27: a message without a complete path goes to the producer and touches nothing. -/
theorem push_incomplete (c : Config S P V) (st : Nat → S) (t : Nat) (m : Msg P V) :
    (pushIncomplete c st t m).1 = st ∧ sentUp (pushIncomplete c st t m).2 = [(c.producerOf t, t, m)]
    ∧ sentDown (pushIncomplete c st t m).2 = [] ∧ ∀ u, notified u (pushIncomplete c st t m).2 = [] :=
  ⟨rfl, rfl, rfl, fun _ => rfl⟩

/-- A context with a producer, two consumers (one of them also a state consumer) and two map stores. -/
def sampleConfig : Config (MapStore.Map Nat Nat) Nat Nat where
  actors := [⟨true, false, false⟩, ⟨false, true, true⟩, ⟨false, true, false⟩, ⟨true, false, true⟩]
  producerOf t := if t = 0 then 0 else 3
  listeners t := if t = 0 then [1] else []
  ops _ := mapOps

example : notified 0 (push sampleConfig (fun _ => MapStore.empty) 0 (.downCreate 5 (.value 9))).2 = [(1, 5), (3, 5)]
    ∧ sentDown (push sampleConfig (fun _ => MapStore.empty) 0 (.downCreate 5 (.value 9))).2
      = [(1, 0, .downCreate 5 (.value 9)), (2, 0, .downCreate 5 (.value 9))]
    ∧ sentUp (push sampleConfig (fun _ => MapStore.empty) 1 (.upDelete 5)).2 = [(3, 1, .upDelete 5)] := by
  decide
example : 0 ∉ sampleConfig.listeners 0 := by decide

/-! ## C28 -/

/-- C28, exactly: what a read request does depends on what the store shows after it has been applied. -/
theorem push_read (c : Config S P V) (st : Nat → S) (t : Nat) (p : P) :
    let s' := ((c.ops t).apply (st t) (.upRead p)).1
    let out := push c st t (.upRead p)
    ((c.ops t).view s' p = .triggerRead → sentUp out.2 = [(c.producerOf t, t, .upRead p)] ∧ sentDown out.2 = [])
    ∧ ((c.ops t).view s' p ≠ .triggerRead → sentUp out.2 = [])
    ∧ (∀ w, (c.ops t).view s' p = .value w →
        sentDown out.2 = (actorsWith Actor.consumer c).map (·, t, .downRead p w))
    ∧ ((c.ops t).view s' p = .unresolved → sentUp out.2 = [] ∧ sentDown out.2 = [])
    ∧ (t ∉ c.listeners t → out.1 t = s' ∧ notified t out.2 = [] ∧ ∀ e ∈ out.2, e.seen t = s') := by
  simp only [push, pushMain, Msg.isUpRead, if_true, Msg.path]
  have hset : setStore st t ((c.ops t).apply (st t) (.upRead p)).1 t = ((c.ops t).apply (st t) (.upRead p)).1 := by
    simp [setStore]
  rw [hset]
  generalize hs : setStore st t ((c.ops t).apply (st t) (.upRead p)).1 = st' at *
  obtain ⟨hL1, hL2, hL3⟩ := listeners_only c t t (.upRead p) (c.listeners t) st'
  simp only [sentUp_append, sentDown_append, notified_append, hL1, hL2, List.append_nil]
  have hd := fun w => down_only c st' t t (.downRead p w)
  have hu := up_only c st' t t (.upRead p)
  refine ⟨?_, ?_, ?_, ?_, ?_⟩
  · intro hw; simp [hw, hu]
  · intro hw
    cases hv : (c.ops t).view ((c.ops t).apply (st t) (.upRead p)).1 p <;> simp_all [sentUp]
  · intro w hw; simp [hw, (hd w).2.2]
  · intro hw; simp [hw, sentUp, sentDown]
  · intro hself
    obtain ⟨hL3, hL4, hL5⟩ := hL3 hself
    refine ⟨by rw [hL4, hset], ?_, ?_⟩
    · rw [hL3]
      cases hv : (c.ops t).view ((c.ops t).apply (st t) (.upRead p)).1 p <;> simp [hd, hu, notified]
    · intro e he
      rcases List.mem_append.1 he with he | he
      · rw [← hset]
        revert he
        cases hv : (c.ops t).view ((c.ops t).apply (st t) (.upRead p)).1 p with
        | triggerRead => intro he; simp only [propagateUpstream, List.mem_singleton] at he; subst he; rfl
        | unresolved => intro he; simp at he
        | value w => intro he; obtain ⟨a, -, rfl⟩ := List.mem_map.1 he; rfl
        | notInSet => intro he; obtain ⟨a, -, rfl⟩ := List.mem_map.1 he; rfl
      · rw [hL5 e he, hset]

/-- C28, partial: with a map store a read of a resolved path is answered to every consumer from the
store, without bothering the producer and without touching the store. -/
theorem read_answered_partial [DecidableEq P] (c : Config (MapStore.Map P V) P V) (st : Nat → MapStore.Map P V)
    (t : Nat) (p : P) (w : Payload V) (ho : c.ops t = mapOps) (hv : MapStore.view (st t) p = .value w) :
    sentUp (push c st t (.upRead p)).2 = []
    ∧ sentDown (push c st t (.upRead p)).2 = (actorsWith Actor.consumer c).map (·, t, .downRead p w) := by
  have h := push_read c st t p
  simp only [ho] at h
  have hv' : mapOps.view (MapStore.apply (st t) (.upRead p)).1 p = .value w := by
    have := MapStore.apply_same (st t) (.upRead p)
    simp only [Msg.path, hv] at this
    exact this
  refine ⟨h.2.1 ?_, h.2.2.1 w hv'⟩
  show mapOps.view (MapStore.apply (st t) (.upRead p)).1 p ≠ _
  rw [hv']; simp

example : (MapStore.view (MapStore.runAll [.downCreate 5 (.value 9)] : MapStore.Map Nat Nat) 5) = .value (.value 9) := by
  decide

/-- What `match` shows for a map store is never `trigger_read`. -/
theorem map_never_triggers [DecidableEq P] (m : MapStore.Map P V) (p : P) : MapStore.view m p ≠ .triggerRead := by
  unfold MapStore.view; split <;> simp

/-- C28 fails: with a map store no read request is ever forwarded to the producer, in any history. -/
theorem read_never_forwarded_violated [DecidableEq P] (c : Config (MapStore.Map P V) P V)
    (st : Nat → MapStore.Map P V) (t : Nat) (ho : c.ops t = mapOps) (h : List (Nat × Msg P V)) :
    ∀ a p, (a, t, Msg.upRead p) ∉ sentUp (pushAll c st h).2 := by
  induction h generalizing st with
  | nil => intro a p; simp [pushAll, sentUp]
  | cons x h ih =>
    obtain ⟨u, m⟩ := x
    intro a p hm
    simp only [pushAll, sentUp_append, List.mem_append] at hm
    rcases hm with hm | hm
    · -- this push
      by_cases hr : m.isUpRead = true
      · obtain ⟨q, rfl⟩ : ∃ q, m = .upRead q := by cases m <;> simp_all [Msg.isUpRead]
        by_cases hv : (c.ops u).view ((c.ops u).apply (st u) (.upRead q)).1 q = .triggerRead
        · rw [((push_read c st u q).1 hv).1] at hm
          simp only [List.mem_singleton, Prod.mk.injEq] at hm
          obtain ⟨-, rfl, -⟩ := hm
          rw [ho] at hv
          exact map_never_triggers _ _ hv
        · rw [(push_read c st u q).2.1 hv] at hm
          simp at hm
      · -- not a read
        have hx : ∀ x ∈ sentUp (push c st u m).2, x.2.2 = m := by
          simp only [push, sentUp_append, (listeners_only c u u m (c.listeners u) _).1, List.append_nil]
          simp only [pushMain, hr, Bool.false_eq_true, if_false, sentUp_append]
          generalize (if (c.ops u).never m = true then (st u, false) else (c.ops u).apply (st u) m) = r
          intro x hx
          rcases List.mem_append.1 hx with hx | hx
          · split at hx
            · rw [(notify_only c _ u _).1] at hx; simp at hx
            · simp [sentUp] at hx
          · split at hx
            · simp only [propagateUpstream, sentUp, List.mem_singleton] at hx; subst hx; rfl
            · rw [(down_only c _ u u m).2.1] at hx; simp at hx
        have := hx _ hm
        simp only at this
        rw [← this] at hr
        simp [Msg.isUpRead] at hr
    · exact ih _ a p hm

/-- … and looking at a path never requests it: the observer is told `not_in_set`. -/
theorem match_never_requests_violated [DecidableEq P] (c : Config (MapStore.Map P V) P V)
    (st : Nat → MapStore.Map P V) (t : Nat) (p : P) (ho : c.ops t = mapOps) :
    matchCtx c st t p = (st, [], MapStore.view (st t) p) := by
  unfold matchCtx
  simp only [ho, mapOps]
  have := map_never_triggers (st t) p
  split
  · rename_i h; exact absurd h this
  · rfl

/-- Looking at a path whose store asks for a read requests it, exactly as a read request pushed by a user does, and
shows `unresolved` meanwhile; looking at any other path changes nothing and shows what is there. -/
theorem match_requests (c : Config S P V) (st : Nat → S) (t : Nat) (p : P) :
    ((c.ops t).view (st t) p = .triggerRead →
      (matchCtx c st t p).2.2 = .unresolved ∧
      (matchCtx c st t p).1 = (push c st t (.upRead p)).1 ∧ (matchCtx c st t p).2.1 = (push c st t (.upRead p)).2 ∧
      ((c.ops t).view ((c.ops t).apply (st t) (.upRead p)).1 p = .triggerRead →
        sentUp (matchCtx c st t p).2.1 = [(c.producerOf t, t, .upRead p)])) ∧
    ((c.ops t).view (st t) p ≠ .triggerRead → matchCtx c st t p = (st, [], (c.ops t).view (st t) p)) := by
  unfold matchCtx
  cases h : (c.ops t).view (st t) p with
  | triggerRead =>
    exact ⟨fun _ => ⟨rfl, rfl, rfl, fun h2 => ((push_read c st t p).1 h2).1⟩, fun h2 => absurd rfl h2⟩
  | _ => exact ⟨by simp, fun _ => rfl⟩

/-- More generally: a store that prepares a placeholder when it is told of a read request, as the
comment in the code asks (context.hpp:169-172), never gets the request forwarded. -/
theorem placeholder_blocks_read_violated (c : Config S P V) (st : Nat → S) (t : Nat) (p : P)
    (h : (c.ops t).view ((c.ops t).apply (st t) (.upRead p)).1 p = .unresolved) :
    sentUp (push c st t (.upRead p)).2 = [] := ((push_read c st t p).2.2.2.1 h).1

example : MapStore.view (MapStore.apply (MapStore.empty : MapStore.Map Nat Nat) (.upRead 3)).1 3 = .unresolved := by
  decide

/-! ## C29 -/

theorem initActors_eq (actors : List Actor) :
    initActors actors = (indices Actor.producer actors).map .producer ++ (indices Actor.consumer actors).map .consumer := by
  unfold initActors indices
  congr 1
  · generalize actors.zipIdx = l
    induction l with
    | nil => rfl
    | cons x l ih => by_cases h : x.1.producer = true <;> simp [List.flatMap_cons, h, ih]
  · generalize actors.zipIdx = l
    induction l with
    | nil => rfl
    | cons x l ih => by_cases h : x.1.consumer = true <;> simp [List.flatMap_cons, h, ih]

/-- C29: the producers are initialised exactly once each in order of declaration, then the consumers
likewise. -/
theorem init_order (c : Config S P V) :
    initActors c.actors
      = (actorsWith Actor.producer c).map .producer ++ (actorsWith Actor.consumer c).map .consumer := by
  rw [initActors_eq, indices_eq, indices_eq]; rfl

/-- What `actorsWith` lists: the actors with the property, each once, in increasing order. -/
theorem actorsWith_spec (f : Actor → Bool) (c : Config S P V) :
    (actorsWith f c).Pairwise (· < ·)
    ∧ ∀ i, i ∈ actorsWith f c ↔ ∃ h : i < c.actors.length, f c.actors[i] = true := by
  unfold actorsWith
  refine ⟨List.Pairwise.filter _ List.pairwise_lt_range, fun i => ?_⟩
  rw [List.mem_filter, List.mem_range]
  constructor
  · rintro ⟨h1, h2⟩
    refine ⟨h1, ?_⟩
    rw [List.getElem?_eq_getElem h1] at h2
    simpa using h2
  · rintro ⟨h1, h2⟩
    refine ⟨h1, ?_⟩
    rw [List.getElem?_eq_getElem h1]
    simpa using h2

example : initActors sampleConfig.actors = [.producer 0, .producer 3, .consumer 1, .consumer 2] := by decide

/-! ## C64 -/

/-- The last update of a history. -/
def lastUpdate (init : Payload V) (h : List (Msg P V)) : Payload V :=
  ((h.reverse.findSome? fun m => match m with | .downUpdate _ w => some w | _ => none)).getD init

/-- C64: a single-value store shows the value of the last downstream update, for every history, and
reports a change exactly for those messages. -/
theorem context_store_last (init : Payload V) (h : List (Msg P V)) :
    h.foldl (fun s m => ((contextStoreOps : StoreOps _ P V).apply s m).1) init = lastUpdate init h := by
  induction hr : h.reverse generalizing h with
  | nil =>
    have : h = [] := by simpa using hr
    subst this; rfl
  | cons x r ih =>
    have hh : h = r.reverse ++ [x] := by rw [← List.reverse_reverse h, hr]; simp
    subst hh
    rw [List.foldl_append, ih r.reverse (by simp)]
    simp only [List.foldl_cons, List.foldl_nil, lastUpdate, List.reverse_append, List.reverse_cons,
      List.reverse_nil, List.nil_append, List.singleton_append, List.findSome?_cons]
    cases x <;> simp [contextStoreOps]

theorem context_store_report (s : Payload V) (m : Msg P V) :
    ((contextStoreOps : StoreOps _ P V).apply s m).2 = true ↔ ∃ p w, m = .downUpdate p w := by
  cases m <;> simp [contextStoreOps]

theorem listeners_context_store (c : Config (Payload V) P V) (t u : Nat) (m : Msg P V)
    (hc : c.ops u = contextStoreOps) (ls : List Nat) (st : Nat → Payload V) :
    (applyListeners c t m ls st).1 u = st u := by
  induction ls generalizing st with
  | nil => rfl
  | cons l ls ih =>
    simp only [applyListeners, ih, setStore]
    split
    · rename_i h; subst h; rw [hc]; rfl
    · rfl

theorem push_context_store (c : Config (Payload V) P V) (t u : Nat) (m : Msg P V)
    (hc : c.ops u = contextStoreOps) (st : Nat → Payload V) :
    (push c st t m).1 u = if t = u then lastUpdate (st u) [m] else st u := by
  simp only [push, listeners_context_store c t u m hc]
  by_cases h : t = u
  · subst h
    cases m <;> simp [pushMain, Msg.isUpRead, hc, contextStoreOps, setStore, lastUpdate]
  · have h' : u ≠ t := fun e => h e.symm
    simp only [if_neg h]
    unfold pushMain
    split <;> simp [setStore, h']

theorem lastUpdate_cons (init : Payload V) (m : Msg P V) (h : List (Msg P V)) :
    lastUpdate init (m :: h) = lastUpdate (lastUpdate init [m]) h := by
  simp only [lastUpdate, List.reverse_cons, List.findSome?_append, List.reverse_nil, List.nil_append,
    List.findSome?_cons, List.findSome?_nil]
  cases h.reverse.findSome? _ <;> cases m <;> rfl

/-- C64, in a context: whatever is pushed, to whichever path types, the store shows the last downstream
update pushed to its own path type. -/
theorem context_store_in_context (c : Config (Payload V) P V) (u : Nat) (hc : c.ops u = contextStoreOps)
    (h : List (Nat × Msg P V)) (st : Nat → Payload V) :
    (pushAll c st h).1 u = lastUpdate (st u) ((h.filter (·.1 = u)).map (·.2)) := by
  induction h generalizing st with
  | nil => rfl
  | cons x h ih =>
    obtain ⟨t, m⟩ := x
    simp only [pushAll, ih, push_context_store c t u m hc, List.filter_cons]
    by_cases ht : t = u
    · simp only [ht, if_true, decide_true, List.map_cons]
      exact (lastUpdate_cons _ _ _).symm
    · simp [ht]

open Classical in
/-- C64, in a context: the state consumers are told of the path exactly when an update is pushed. -/
theorem context_store_notified (c : Config (Payload V) P V) (u : Nat) (hc : c.ops u = contextStoreOps)
    (hself : u ∉ c.listeners u) (st : Nat → Payload V) (m : Msg P V) (hr : m.isUpRead = false) :
    notified u (push c st u m).2
      = if (∃ p w, m = .downUpdate p w) then (actorsWith Actor.stateConsumer c).map (·, m.path) else [] := by
  have h := (push_write c st u m hr (by rw [hc]; exact contextStoreOps_lawful) hself).2.2.1
  rw [h]
  simp only [hc, context_store_report]

example : lastUpdate (.value 0) [Msg.downUpdate 1 (.value 5), .downCreate 1 (.value 7), .upUpdate 1 8] = .value 5 := by
  decide

def singleConfig : Config (Payload Nat) Nat Nat where
  actors := [⟨true, false, true⟩, ⟨false, true, true⟩]
  producerOf := fun _ => 0
  listeners := fun t => if t = 0 then [1] else []
  ops := fun _ => contextStoreOps
example : (pushAll singleConfig (fun _ => .value 0)
      [(0, .downUpdate 1 (.value 5)), (1, .downUpdate 1 (.value 6)), (0, .upUpdate 1 8)]).1 0 = .value 5 :=
  context_store_in_context singleConfig 0 rfl _ _
example : notified 0 (push singleConfig (fun _ => .value 0) 0 (.downUpdate 1 (.value 5))).2 = [(0, 1), (1, 1)] := by
  decide

end Nbdl.Context
