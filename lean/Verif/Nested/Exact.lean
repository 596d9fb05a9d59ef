import Verif.Nested.Props
/-!
# In which contexts the order is kept whatever the actors do (C118, C121)
-/
namespace Nbdl.Nested
open MapStore (Msg View Payload Map)
open Context (Config Actor StoreOps Lawful mapOps actorsWith setStore)
open Spec
variable {A S P V : Type}

/-- The machine gets from the one state to the other. -/
def Reach (c : Config S P V) (code : Code A P V) (s s' : State A S P V) : Prop := ∃ n, run c code n s = s'

theorem Reach.refl {c : Config S P V} {code : Code A P V} {s : State A S P V} : Reach c code s s := ⟨0, rfl⟩

theorem Reach.trans {c : Config S P V} {code : Code A P V} {s s' s'' : State A S P V} (h : Reach c code s s')
    (g : Reach c code s' s'') : Reach c code s s'' := by
  obtain ⟨n, rfl⟩ := h
  obtain ⟨m, rfl⟩ := g
  exact ⟨n + m, run_add c code n m s⟩

theorem Reach.step (c : Config S P V) (code : Code A P V) (w : World A S P V) (x : Task A P V) (r : List (Task A P V)) :
    Reach c code ⟨w, x :: r⟩ ⟨(exec c code w x).1, (exec c code w x).2 ++ r⟩ := ⟨1, rfl⟩

theorem Reach.exec {c : Config S P V} {code : Code A P V} {w w' : World A S P V} {x : Task A P V}
    {ts : List (Task A P V)} (e : Nested.exec c code w x = (w', ts)) (r : List (Task A P V)) :
    Reach c code ⟨w, x :: r⟩ ⟨w', ts ++ r⟩ := by
  have := Reach.step c code w x r
  rwa [e] at this

/-- An actor that does nothing in this call. -/
def DoesNothing (code : Code A P V) (v : A) (a : Call P V) : Prop :=
  code a = .done ∨ ∃ k, code a = .get k ∧ k v = .done

theorem still_call (c : Config S P V) (code : Code A P V) (w : World A S P V) (i : Nat) (src : Option Nat) (a : Call P V)
    (h : DoesNothing code w.vars a) (r : List (Task A P V)) :
    Reach c code ⟨w, .call i src a :: r⟩ ⟨{ w with log := w.log ++ [.called i src a w.stores] }, r⟩ := by
  refine (Reach.step c code w _ r).trans ?_
  rcases h with h | ⟨k, h, hk⟩
  · have e : exec c code w (.call i src a) = ({ w with log := w.log ++ [.called i src a w.stores] }, [.prog .done]) := by
      rw [exec, h]
    rw [e]
    exact Reach.step c code _ _ r
  · have e : exec c code w (.call i src a) = ({ w with log := w.log ++ [.called i src a w.stores] }, [.prog (.get k)]) := by
      rw [exec, h]
    rw [e]
    refine (Reach.step c code _ _ r).trans ?_
    have e2 : exec c code { w with log := w.log ++ [.called i src a w.stores] } (.prog (.get k))
        = ({ w with log := w.log ++ [.called i src a w.stores] }, [.prog .done]) := by
      rw [exec, hk]
    rw [e2]
    exact Reach.step c code _ _ r

theorem still_calls (c : Config S P V) (code : Code A P V) (i : Nat) (src : Option Nat) (cs : List (Call P V))
    (r : List (Task A P V)) : ∀ w : World A S P V, (∀ a ∈ cs, DoesNothing code w.vars a) →
    Reach c code ⟨w, cs.map (.call i src) ++ r⟩
      ⟨{ w with log := w.log ++ cs.map fun a => .called i src a w.stores }, r⟩ := by
  induction cs with
  | nil => intro w _; simpa using Reach.refl
  | cons a cs ih =>
    intro w h
    refine (still_call c code w i src a (h a (List.mem_cons_self ..)) _).trans ?_
    have := ih { w with log := w.log ++ [.called i src a w.stores] } (fun x hx => h x (List.mem_cons_of_mem _ hx))
    simpa using this

theorem still_listens (c : Config S P V) (code : Code A P V) (i t : Nat) (m : Msg P V) (ls : List Nat)
    (r : List (Task A P V)) : ∀ w : World A S P V, (∀ b u p, DoesNothing code w.vars (.notify b u p)) →
    ∃ st es, Reach c code ⟨w, ls.map (.listen i · t m) ++ r⟩ ⟨⟨st, w.vars, w.next, w.log ++ es⟩, r⟩
      ∧ (∀ b, es.filterMap (gotDown b) = []) ∧ ∀ l, heardBy l t es = (ls.filter (· = l)).map fun _ => i := by
  induction ls with
  | nil => intro w _; exact ⟨w.stores, [], by simpa using Reach.refl, fun _ => rfl, fun _ => rfl⟩
  | cons l ls ih =>
    intro w h
    have hs := Reach.step c code w (.listen i l t m) (ls.map (.listen i · t m) ++ r)
    generalize hst : setStore w.stores l ((c.ops l).foreign (w.stores l) t m).1 = st1 at *
    generalize hcs : ((c.ops l).foreign (w.stores l) t m).2.flatMap (notifyCalls c l) = cs
    have e : exec c code w (.listen i l t m)
        = (⟨st1, w.vars, w.next, w.log ++ [.heard i l t m w.stores]⟩, cs.map (.call i (some l))) := by
      rw [exec, hst, hcs]
    rw [e] at hs
    have hidle : ∀ a ∈ cs, DoesNothing code w.vars a := by
      intro a ha
      rw [← hcs] at ha
      obtain ⟨p, -, hp⟩ := List.mem_flatMap.1 ha
      obtain ⟨b, -, rfl⟩ := List.mem_map.1 hp
      exact h _ _ _
    have hc := still_calls c code i (some l) cs (ls.map (.listen i · t m) ++ r)
      ⟨st1, w.vars, w.next, w.log ++ [.heard i l t m w.stores]⟩ hidle
    obtain ⟨st, es, g1, g2, g3⟩ := ih ⟨st1, w.vars, w.next, (w.log ++ [.heard i l t m w.stores])
      ++ cs.map fun a => .called i (some l) a st1⟩ h
    refine ⟨st, [.heard i l t m w.stores] ++ (cs.map fun a => .called i (some l) a st1) ++ es, ?_, ?_, ?_⟩
    · have := (hs.trans hc).trans g1
      simpa using this
    · intro b
      have hz : (cs.map fun a => Entry.called i (some l) a st1).filterMap (gotDown b) = [] := by
        rw [List.filterMap_eq_nil_iff]
        intro y hy
        obtain ⟨a, -, rfl⟩ := List.mem_map.1 hy
        rfl
      rw [List.filterMap_append, List.filterMap_append, g2, List.append_nil, hz]
      rfl
    · intro l'
      have hn : heardBy l' t ([.heard i l t m w.stores] ++ (cs.map fun a => Entry.called i (some l) a st1) ++ es)
          = heardBy l' t [.heard i l t m w.stores] ++ heardBy l' t es := by
        have hz : heardBy l' t (cs.map fun a => Entry.called i (some l) a st1) = [] := by
          unfold heardBy
          rw [List.filterMap_eq_nil_iff]
          intro y hy
          obtain ⟨a, -, rfl⟩ := List.mem_map.1 hy
          rfl
        have ha : ∀ x y : List (Entry S P V), heardBy l' t (x ++ y) = heardBy l' t x ++ heardBy l' t y :=
          fun x y => List.filterMap_append
        rw [ha, ha, hz, List.append_nil]
      rw [hn, g3, List.filter_cons]
      by_cases hl : l = l'
      · simp [heardBy, hl]
      · simp [heardBy, hl]

/-- The actor answers the first time it gets this call. -/
noncomputable def answer (x : Call P V) (t : Nat) (m : Msg P V) : Code Bool P V := fun a =>
  have := Classical.propDecidable (a = x)
  if a = x then .get fun f => if f then .done else .put true (.push t m .done) else .done

theorem answer_still (x : Call P V) (t : Nat) (m : Msg P V) (a : Call P V) : DoesNothing (answer x t m) true a := by
  unfold answer DoesNothing
  by_cases h : a = x
  · exact .inr ⟨_, by simp only [if_pos h]; rfl, rfl⟩
  · exact .inl (by simp only [if_neg h])

/-- When the first actor called for a message answers with a second message for which the same actors are called, the
others are sent the second one before the first one. -/
theorem answered_first (c : Config S P V) (st : Nat → S) (t : Nat) (m : Msg P V) (x : Call P V)
    (cs : List (Call P V)) (st1 : Nat → S) (h0 : mainCalls c st t m = x :: cs)
    (e0 : (Context.pushMain c st t m).1 = st1) (h1 : mainCalls c st1 t m = x :: cs)
    (b : Nat) (m' : Msg P V) (hb : .down b t m' ∈ cs) :
    ∃ n, ¬ (sentTo b (run c (answer x t m) n (start st false (.push t m .done))).world.log).Pairwise (· < ·) := by
  have hx : answer x t m x = .get fun f => if f then .done else .put true (.push t m .done) := by
    simp only [answer, if_true]
  have r1 : Reach c (answer x t m) (start st false (.push t m .done))
      ⟨⟨st1, true, 1, [.pushed 0 t m st, .called 0 none x st1]⟩,
        .push t m :: .prog .done :: (cs.map (.call 0 none) ++ ((c.listeners t).map (.listen 0 · t m) ++ [.prog .done]))⟩ := by
    have e : exec c (answer x t m) ⟨st, false, 0, []⟩ (.push t m)
        = (⟨st1, false, 1, [.pushed 0 t m st]⟩,
          .call 0 none x :: (cs.map (.call 0 none) ++ (c.listeners t).map (.listen 0 · t m))) := by
      rw [exec, h0, e0]; rfl
    have e2 : exec c (answer x t m) ⟨st1, false, 1, [.pushed 0 t m st]⟩ (.call 0 none x)
        = (⟨st1, false, 1, [.pushed 0 t m st, .called 0 none x st1]⟩,
          [.prog (.get fun f => if f then .done else .put true (.push t m .done))]) := by
      rw [exec, hx]; rfl
    have s1 := (Reach.step c (answer x t m) ⟨st, false, 0, []⟩ (.prog (.push t m .done)) []).trans
      ((Reach.exec e [.prog .done]).trans (Reach.exec e2 _))
    have s2 := ((s1.trans (Reach.step c _ _ _ _)).trans (Reach.step c _ _ _ _)).trans (Reach.step c _ _ _ _)
    simpa [exec, start] using s2
  have r2 := still_calls c (answer x t m) 1 none (x :: cs) ((c.listeners t).map (.listen 1 · t m) ++ .prog .done ::
      (cs.map (.call 0 none) ++ ((c.listeners t).map (.listen 0 · t m) ++ [.prog .done])))
    ⟨(Context.pushMain c st1 t m).1, true, 2, [.pushed 0 t m st, .called 0 none x st1, .pushed 1 t m st1]⟩
    (fun a _ => answer_still x t m a)
  obtain ⟨st2, es, r3, g1, -⟩ := still_listens c (answer x t m) 1 t m (c.listeners t) (.prog .done ::
      (cs.map (.call 0 none) ++ ((c.listeners t).map (.listen 0 · t m) ++ [.prog .done])))
    ⟨(Context.pushMain c st1 t m).1, true, 2, [.pushed 0 t m st, .called 0 none x st1, .pushed 1 t m st1]
      ++ (x :: cs).map fun a => .called 1 none a (Context.pushMain c st1 t m).1⟩
    (fun b u p => answer_still x t m _)
  have r4 := still_calls c (answer x t m) 0 none cs ((c.listeners t).map (.listen 0 · t m) ++ [.prog .done])
    ⟨st2, true, 2, [.pushed 0 t m st, .called 0 none x st1, .pushed 1 t m st1]
      ++ ((x :: cs).map fun a => .called 1 none a (Context.pushMain c st1 t m).1) ++ es⟩
    (fun a _ => answer_still x t m a)
  have rp : Reach c (answer x t m) ⟨⟨st1, true, 1, [.pushed 0 t m st, .called 0 none x st1]⟩,
        .push t m :: .prog .done :: (cs.map (.call 0 none) ++ ((c.listeners t).map (.listen 0 · t m) ++ [.prog .done]))⟩
      ⟨⟨(Context.pushMain c st1 t m).1, true, 2, [.pushed 0 t m st, .called 0 none x st1, .pushed 1 t m st1]⟩,
        (x :: cs).map (.call 1 none) ++ ((c.listeners t).map (.listen 1 · t m) ++ .prog .done ::
      (cs.map (.call 0 none) ++ ((c.listeners t).map (.listen 0 · t m) ++ [.prog .done])))⟩ := by
    have hs := Reach.step c (answer x t m) ⟨st1, true, 1, [.pushed 0 t m st, .called 0 none x st1]⟩ (.push t m)
      (.prog .done :: (cs.map (.call 0 none) ++ ((c.listeners t).map (.listen 0 · t m) ++ [.prog .done])))
    have e : exec c (answer x t m) ⟨st1, true, 1, [.pushed 0 t m st, .called 0 none x st1]⟩ (.push t m)
        = (⟨(Context.pushMain c st1 t m).1, true, 2, [.pushed 0 t m st, .called 0 none x st1, .pushed 1 t m st1]⟩,
          (x :: cs).map (.call 1 none) ++ (c.listeners t).map (.listen 1 · t m)) := by
      rw [exec, h1]; rfl
    rw [e] at hs
    simpa only [List.append_assoc] using hs
  have rd := Reach.step c (answer x t m) ⟨st2, true, 2, [.pushed 0 t m st, .called 0 none x st1, .pushed 1 t m st1]
      ++ ((x :: cs).map fun a => .called 1 none a (Context.pushMain c st1 t m).1) ++ es⟩ (.prog .done)
    (cs.map (.call 0 none) ++ ((c.listeners t).map (.listen 0 · t m) ++ [.prog .done]))
  obtain ⟨n, hn⟩ := ((((r1.trans rp).trans r2).trans r3).trans rd).trans r4
  refine ⟨n, ?_⟩
  rw [hn, sentTo_eq]
  have hin : ∀ (i : Nat) (u : Nat → S), i ∈ (cs.map fun a => Entry.called i none a u).filterMap (gotDown b) := by
    intro i u
    rw [List.mem_filterMap]
    exact ⟨_, List.mem_map.2 ⟨_, hb, rfl⟩, by simp [gotDown]⟩
  intro hp
  dsimp only at hp
  rw [List.filterMap_append, List.pairwise_append] at hp
  have h1m : 1 ∈ List.filterMap (gotDown b) ([Entry.pushed 0 t m st, .called 0 none x st1, .pushed 1 t m st1]
      ++ ((x :: cs).map fun a => .called 1 none a (Context.pushMain c st1 t m).1) ++ es) := by
    rw [List.filterMap_append, List.filterMap_append, List.map_cons, List.mem_append, List.mem_append]
    refine .inl (.inr ?_)
    obtain ⟨y, hy, e⟩ := List.mem_filterMap.1 (hin 1 (Context.pushMain c st1 t m).1)
    exact List.mem_filterMap.2 ⟨y, List.mem_cons_of_mem _ hy, e⟩
  have := hp.2.2 1 h1m 0 (hin 0 st2)
  omega

/-- C118, exactly: in a context with map stores a consumer gets the messages in the order in which they were pushed,
whatever the actors and the program do, just if there are no state consumers and it is the first consumer. -/
theorem consumer_order_exact [DecidableEq P] [Inhabited P] [Inhabited V] (c : Config (Map P V) P V)
    (hc : ∀ t, c.ops t = mapOps) (b : Nat) (hb : b ∈ actorsWith Actor.consumer c) :
    (∀ (code : Code Bool P V) (st : Nat → Map P V) (a : Bool) (q : Prog Bool P V) (n : Nat),
      (sentTo b (run c code n (start st a q)).world.log).Pairwise (· < ·))
    ↔ actorsWith Actor.stateConsumer c = [] ∧ ∀ d ∈ actorsWith Actor.consumer c, b ≤ d := by
  have hl : ∀ t, Lawful (c.ops t) := fun t => by rw [hc]; exact Context.mapOps_lawful
  constructor
  · intro h
    have hcalls : ∀ st : Nat → Map P V, mainCalls c st 0 (.downCreate default (.value default))
        = ((actorsWith Actor.stateConsumer c).map fun a => .notify a 0 default)
          ++ (actorsWith Actor.consumer c).map fun a => .down a 0 (.downCreate default (.value default)) := by
      intro st
      rw [(mainCalls_write c st 0 _ rfl (hl 0)).2, writeCalls, hc]
      rfl
    have bad : ∀ (x : Call P V) cs, ((actorsWith Actor.stateConsumer c).map fun a => Call.notify a 0 default)
          ++ (actorsWith Actor.consumer c).map (fun a => .down a 0 (.downCreate default (.value default))) = x :: cs →
        ¬ .down b 0 (.downCreate default (.value default)) ∈ cs := by
      intro x cs e hm
      obtain ⟨n, hn⟩ := answered_first c (fun _ => MapStore.empty) 0 (.downCreate default (.value default)) x cs _
        ((hcalls _).trans e) rfl ((hcalls _).trans e) b _ hm
      exact hn (h _ _ _ _ _)
    match hs : actorsWith Actor.stateConsumer c with
    | s :: ss =>
      rw [hs] at bad
      refine absurd ?_ (bad _ _ rfl)
      exact List.mem_append_right _ (List.mem_map.2 ⟨b, hb, rfl⟩)
    | [] =>
      rw [hs] at bad
      refine ⟨rfl, ?_⟩
      match hd : actorsWith Actor.consumer c, hb, actorsWith_sorted Actor.consumer c with
      | d :: ds, hb, hsort =>
        rw [hd] at bad
        rcases List.mem_cons.1 hb with rfl | hb
        · intro d hd
          rcases List.mem_cons.1 hd with rfl | hd
          · exact Nat.le_refl _
          · exact Nat.le_of_lt ((List.pairwise_cons.1 hsort).1 d hd)
        · exact absurd (List.mem_map.2 ⟨b, hb, rfl⟩) (bad _ _ rfl)
  · rintro ⟨h1, h2⟩ code st a q n
    refine consumer_order_partial c hl code b ?_ ?_ st a q n
    · intro d hd; rw [h1] at hd; cases hd
    · intro d hd hlt; have := h2 d hd; omega

/-- Contexts of both kinds: one with a single consumer, and `sample`, which has a state consumer. -/
example : actorsWith Actor.stateConsumer { sample with actors := [⟨true, false, false⟩, ⟨false, true, false⟩] } = []
    ∧ 1 ∈ actorsWith Actor.consumer { sample with actors := [⟨true, false, false⟩, ⟨false, true, false⟩] }
    ∧ 1 ∈ actorsWith Actor.consumer sample ∧ actorsWith Actor.stateConsumer sample ≠ [] := by decide +kernel

theorem heardBy_append (l t : Nat) (x y : List (Entry S P V)) :
    heardBy l t (x ++ y) = heardBy l t x ++ heardBy l t y := List.filterMap_append

theorem heardBy_calls (l t i : Nat) (src : Option Nat) (u : Nat → S) (cs : List (Call P V)) :
    heardBy l t (cs.map fun a => Entry.called i src a u) = [] := by
  unfold heardBy
  rw [List.filterMap_eq_nil_iff]
  intro y hy
  obtain ⟨a, -, rfl⟩ := List.mem_map.1 hy
  rfl

/-- C121 does not hold in any context: with the echo producer and any store that listens to a type, a request for a
change of this type is shown to the listening store after the change itself, although it was pushed before. -/
theorem listener_order_echo_violated (c : Config S P V) (hl : ∀ t, Lawful (c.ops t)) (l t : Nat)
    (hls : l ∈ c.listeners t) (st : Nat → S) (a : A) (p : P) (v : V) :
    ∃ n, (run c echo n (start st a (.push t (.upCreate p v) .done))).tasks = []
      ∧ heardBy l t (run c echo n (start st a (.push t (.upCreate p v) .done))).world.log
        = ((c.listeners t).filter (· = l)).map (fun _ => 1) ++ ((c.listeners t).filter (· = l)).map (fun _ => 0)
      ∧ ¬ (heardBy l t (run c echo n (start st a (.push t (.upCreate p v) .done))).world.log).Pairwise (· < ·) := by
  have idle : ∀ (x : A) (k : Call P V), (∀ b u m, k ≠ .up b u m) → DoesNothing echo x k := by
    intro x k hk
    cases k with
    | up b u m => exact absurd rfl (hk b u m)
    | notify b u q => exact .inl rfl
    | down b u m => exact .inl rfl
  obtain ⟨ns, hns, hc0⟩ : ∃ ns : List (Call P V), (∀ k ∈ ns, ∀ b u m, k ≠ .up b u m)
      ∧ mainCalls c st t (.upCreate p v) = ns ++ [.up (c.producerOf t) t (.upCreate p v)] := by
    refine ⟨_, ?_, (mainCalls_write c st t _ rfl (hl t)).2⟩
    intro k hk b u m e
    subst e
    split at hk
    · obtain ⟨z, -, hz⟩ := List.mem_map.1 hk; cases hz
    · cases hk
  generalize hst1 : (Context.pushMain c st t (.upCreate p v)).1 = st1
  have hc1 : ∀ k ∈ mainCalls c st1 t (.downCreate p (.value v)), ∀ b u m, k ≠ .up b u m := by
    rw [(mainCalls_write c st1 t _ rfl (hl t)).2]
    intro k hk b u m e
    subst e
    rw [writeCalls, List.mem_append] at hk
    rcases hk with hk | hk
    · split at hk
      · obtain ⟨z, -, hz⟩ := List.mem_map.1 hk; cases hz
      · cases hk
    · rw [if_neg (by simp [Context.towardsProducer])] at hk
      obtain ⟨z, -, hz⟩ := List.mem_map.1 hk; cases hz
  generalize hcs : mainCalls c st1 t (.downCreate p (.value v)) = cs at hc1
  have e1 : exec c echo ⟨st, a, 0, []⟩ (.push t (.upCreate p v))
      = (⟨st1, a, 1, [.pushed 0 t (.upCreate p v) st]⟩,
        (ns ++ [Call.up (c.producerOf t) t (.upCreate p v)]).map (.call 0 none)
          ++ (c.listeners t).map (.listen 0 · t (.upCreate p v))) := by
    rw [exec, hc0, hst1]; rfl
  have s1 := (Reach.step c echo ⟨st, a, 0, []⟩ (.prog (.push t (.upCreate p v) .done)) []).trans
    (Reach.exec e1 [.prog .done])
  rw [List.map_append, List.append_assoc, List.append_assoc] at s1
  have s2 := s1.trans (still_calls c echo 0 none ns _ ⟨st1, a, 1, [.pushed 0 t (.upCreate p v) st]⟩
    (fun k hk => idle a k (hns k hk)))
  dsimp only at s2
  generalize hL : [Entry.pushed 0 t (Msg.upCreate p v) st] ++ ns.map (fun k => Entry.called 0 none k st1) = L at s2
  have hLl : heardBy l t L = [] := by
    rw [← hL, heardBy_append, heardBy_calls]; rfl
  have e3 : exec c echo ⟨st1, a, 1, L⟩ (.call 0 none (.up (c.producerOf t) t (.upCreate p v)))
      = (⟨st1, a, 1, L ++ [.called 0 none (.up (c.producerOf t) t (.upCreate p v)) st1]⟩,
        [.prog (.push t (.downCreate p (.value v)) .done)]) := rfl
  have s3 := (s2.trans (Reach.exec e3 _)).trans (Reach.step c echo _ _ _)
  generalize hL2 : L ++ [Entry.called 0 none (.up (c.producerOf t) t (.upCreate p v)) st1] = L2 at s3
  have hL2l : heardBy l t L2 = [] := by
    rw [← hL2, heardBy_append, hLl]; rfl
  have e4 : exec c echo ⟨st1, a, 1, L2⟩ (.push t (.downCreate p (.value v)))
      = (⟨(Context.pushMain c st1 t (.downCreate p (.value v))).1, a, 2, L2 ++ [.pushed 1 t (.downCreate p (.value v)) st1]⟩,
        cs.map (.call 1 none) ++ (c.listeners t).map (.listen 1 · t (.downCreate p (.value v)))) := by
    rw [exec, hcs]
  have s4 := s3.trans (Reach.exec e4 _)
  rw [List.append_assoc] at s4
  have s5 := s4.trans (still_calls c echo 1 none cs _ _ (fun k hk => idle a k (hc1 k hk)))
  obtain ⟨st2, es, g1, -, g2⟩ := still_listens c echo 1 t (.downCreate p (.value v)) (c.listeners t)
    ([.prog .done] ++ ((c.listeners t).map (.listen 0 · t (.upCreate p v)) ++ [.prog .done]))
    ⟨(Context.pushMain c st1 t (.downCreate p (.value v))).1, a, 2, (L2 ++ [.pushed 1 t (.downCreate p (.value v)) st1])
      ++ cs.map fun k => .called 1 none k (Context.pushMain c st1 t (.downCreate p (.value v))).1⟩
    (fun b u q => .inl rfl)
  have s6 := s5.trans g1
  have s7 := s6.trans (Reach.step c echo _ _ _)
  obtain ⟨st3, es', g3, -, g4⟩ := still_listens c echo 0 t (.upCreate p v) (c.listeners t) [.prog .done]
    ⟨st2, a, 2, ((L2 ++ [.pushed 1 t (.downCreate p (.value v)) st1])
      ++ cs.map fun k => .called 1 none k (Context.pushMain c st1 t (.downCreate p (.value v))).1) ++ es⟩
    (fun b u q => .inl rfl)
  have s8 := (s7.trans g3).trans (Reach.step c echo _ _ _)
  obtain ⟨n, hn⟩ := s8
  have hheard : heardBy l t (run c echo n (start st a (.push t (.upCreate p v) .done))).world.log
      = ((c.listeners t).filter (· = l)).map (fun _ => 1) ++ ((c.listeners t).filter (· = l)).map (fun _ => 0) := by
    rw [show start st a (.push t (.upCreate p v) .done) = ⟨⟨st, a, 0, []⟩, [.prog (.push t (.upCreate p v) .done)]⟩ from rfl, hn]
    show heardBy l t ((((L2 ++ [.pushed 1 t (.downCreate p (.value v)) st1])
      ++ cs.map fun k => .called 1 none k (Context.pushMain c st1 t (.downCreate p (.value v))).1) ++ es) ++ es') = _
    rw [heardBy_append, heardBy_append, heardBy_append, heardBy_append, heardBy_calls, hL2l, g2, g4]
    rfl
  refine ⟨n, ?_, hheard, ?_⟩
  · rw [show start st a (.push t (.upCreate p v) .done) = ⟨⟨st, a, 0, []⟩, [.prog (.push t (.upCreate p v) .done)]⟩ from rfl, hn]
    rfl
  · rw [hheard, List.pairwise_append]
    rintro ⟨-, -, h⟩
    have hm : l ∈ (c.listeners t).filter (· = l) := List.mem_filter.2 ⟨hls, by simp⟩
    have := h 1 (List.mem_map.2 ⟨l, hm, rfl⟩) 0 (List.mem_map.2 ⟨l, hm, rfl⟩)
    omega

example : 1 ∈ sample.listeners 0 ∧ heardBy 1 0 (run sample (echo : Code Nat Nat Nat) 20
    (start (fun _ => MapStore.empty) 0 (.push 0 (.upCreate 5 8) .done))).world.log = [1, 0] := by decide +kernel

end Nbdl.Nested
