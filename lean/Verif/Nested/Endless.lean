import Verif.Nested.Exact
/-!
# What actors can do in any context: never come to rest (C122), answer while one is looking (C120)
-/
namespace Nbdl.Nested
open MapStore (Msg View Payload Map)
open Context (Config Actor StoreOps Lawful mapOps actorsWith setStore towardsProducer)
open Spec
variable {A S P V : Type}

/-! ## C122 -/

/-- A producer that answers each request by the same request. -/
def again : Code A P V
  | .up _ t m => .push t m .done
  | _ => .done

/-- C122 does not hold in any context: with a producer that answers each request by the same request, a
single request is never done with, whatever the stores and whatever they contain. -/
theorem never_rests_violated (c : Config S P V) (hl : ∀ t, Lawful (c.ops t)) (st : Nat → S) (a : A) (t : Nat)
    (m : Msg P V) (hr : m.isUpRead = false) (hm : towardsProducer m = true) (n : Nat) :
    (run c again n (start st a (.push t m .done))).tasks ≠ [] := by
  let I : State A S P V → Prop := fun s =>
    Task.prog (.push t m .done) ∈ s.tasks ∨ Task.push t m ∈ s.tasks
      ∨ ∃ i b, Task.call i none (.up b t m) ∈ s.tasks
  have h : I (run c again n (start st a (.push t m .done))) := by
    refine run_inv c again I ?_ n _ (.inl List.mem_cons_self)
    intro w x r h
    rcases h with h | h | ⟨i, b, h⟩
    · rcases List.mem_cons.1 h with rfl | h
      · exact .inr (.inl List.mem_cons_self)
      · exact .inl (List.mem_append_right _ h)
    · rcases List.mem_cons.1 h with rfl | h
      · refine .inr (.inr ⟨w.next, c.producerOf t,
          List.mem_append_left _ (List.mem_append_left _ (List.mem_map.2 ⟨_, ?_, rfl⟩))⟩)
        rw [(mainCalls_write c w.stores t m hr (hl t)).2, writeCalls, if_pos hm]
        exact List.mem_append_right _ List.mem_cons_self
      · exact .inr (.inl (List.mem_append_right _ h))
    · rcases List.mem_cons.1 h with rfl | h
      · exact .inl List.mem_cons_self
      · exact .inr (.inr ⟨i, b, List.mem_append_right _ h⟩)
  intro he
  rcases h with h | h | ⟨i, b, h⟩ <;> rw [he] at h <;> cases h

example : (Msg.upUpdate 5 1 : Msg Nat Nat).isUpRead = false ∧ towardsProducer (Msg.upUpdate 5 1 : Msg Nat Nat) = true :=
  ⟨rfl, rfl⟩

/-! ## C120 -/

theorem run_rest (c : Config S P V) (code : Code A P V) (n : Nat) (s : State A S P V) (h : s.tasks = []) :
    run c code n s = s := by
  induction n with
  | zero => rfl
  | succ n ih =>
    have e : step c code s = s := by unfold step; rw [h]
    rw [run, e, ih]

/-- There is only one way to come to rest. -/
theorem rest_unique {c : Config S P V} {code : Code A P V} {s s' : State A S P V} (h : Reach c code s s')
    (h' : s'.tasks = []) (n : Nat) (hn : (run c code n s).tasks = []) : run c code n s = s' := by
  obtain ⟨k, rfl⟩ := h
  rcases Nat.le_total n k with hk | hk
  · obtain ⟨d, rfl⟩ := Nat.exists_eq_add_of_le hk
    rw [run_add, run_rest c code d _ hn]
  · obtain ⟨d, rfl⟩ := Nat.exists_eq_add_of_le hk
    rw [run_add, run_rest c code d _ h']

/-- An actor that pushes a message when it gets this call. -/
noncomputable def reply (x : Call P V) (t : Nat) (m : Msg P V) : Code A P V := fun a =>
  have := Classical.propDecidable (a = x)
  if a = x then .push t m .done else .done

theorem reply_still (x : Call P V) (t : Nat) (m : Msg P V) (v : A) (a : Call P V) (h : a ≠ x) :
    DoesNothing (reply x t m) v a := by
  unfold reply DoesNothing
  exact .inl (by simp only [if_neg h])

/-- If the first actor that is called for the read request answers it at once, `unresolved` is handed over after the value
has arrived. -/
theorem answered_look (c : Config S P V) (hl : ∀ t, Lawful (c.ops t)) (t : Nat) (p : P) (hls : c.listeners t = [])
    (v : V) (hw : ∀ s, (c.ops t).view ((c.ops t).apply s (.downRead p (.value v))).1 p = .value (.value v))
    (st : Nat → S) (hv : (c.ops t).view (st t) p = .triggerRead) (x : Call P V) (cs : List (Call P V))
    (hc : mainCalls c st t (.upRead p) = x :: cs) (hx : x ∉ cs) (hx' : ∀ b u q, x ≠ .notify b u q)
    (hx'' : ∀ b, x ≠ .down b t (.downRead p (.value v))) :
    ∃ n, (run c (reply x t (.downRead p (.value v))) n (start st none (.look t p fun v => .put (some v) .done))).tasks = []
      ∧ (run c (reply x t (.downRead p (.value v))) n (start st none (.look t p fun v => .put (some v) .done))).world.vars
        = some View.unresolved
      ∧ (c.ops t).view ((run c (reply x t (.downRead p (.value v))) n
          (start st none (.look t p fun v => .put (some v) .done))).world.stores t) p = .value (.value v) := by
  generalize hm : (Msg.downRead p (.value v) : Msg P V) = m
  generalize hcode : (reply x t m : Code (Option (View V)) P V) = code
  have hxc : code x = .push t m .done := by rw [← hcode]; simp only [reply, if_true]
  have still : ∀ z a, a ≠ x → DoesNothing code z a := fun z a h => by rw [← hcode]; exact reply_still x t m z a h
  generalize hst1 : (Context.pushMain c st t (.upRead p)).1 = st1
  generalize hst2 : (Context.pushMain c st1 t m).1 = st2
  generalize hds : mainCalls c st1 t m = ds
  have hdx : ∀ a ∈ ds, a ≠ x := by
    rintro a ha rfl
    rw [← hds, ← hm, (mainCalls_write c st1 t _ rfl (hl t)).2, writeCalls, List.mem_append] at ha
    rcases ha with ha | ha
    · split at ha
      · obtain ⟨z, -, hz⟩ := List.mem_map.1 ha; exact hx' _ _ _ hz.symm
      · cases ha
    · rw [if_neg (by simp [towardsProducer])] at ha
      obtain ⟨z, -, hz⟩ := List.mem_map.1 ha; exact hx'' _ hz.symm
  have e1 : exec c code ⟨st, none, 0, []⟩ (.prog (.look t p fun v => .put (some v) .done))
      = (⟨st, none, 0, []⟩, [.push t (.upRead p), .prog (.put (some .unresolved) .done)]) :=
    exec_look_trigger c code ⟨st, none, 0, []⟩ t p _ hv
  have e2 : exec c code ⟨st, none, 0, []⟩ (.push t (.upRead p))
      = (⟨st1, none, 1, [.pushed 0 t (.upRead p) st]⟩, .call 0 none x :: cs.map (.call 0 none)) := by
    rw [exec, hc, hst1, hls]; simp
  have e3 : exec c code ⟨st1, none, 1, [.pushed 0 t (.upRead p) st]⟩ (.call 0 none x)
      = (⟨st1, none, 1, [.pushed 0 t (.upRead p) st] ++ [.called 0 none x st1]⟩, [.prog (.push t m .done)]) := by
    rw [exec, hxc]
  have e4 : exec c code ⟨st1, none, 1, [.pushed 0 t (.upRead p) st] ++ [.called 0 none x st1]⟩ (.prog (.push t m .done))
      = (⟨st1, none, 1, [.pushed 0 t (.upRead p) st] ++ [.called 0 none x st1]⟩, [.push t m, .prog .done]) := rfl
  have e5 : exec c code ⟨st1, none, 1, [.pushed 0 t (.upRead p) st] ++ [.called 0 none x st1]⟩ (.push t m)
      = (⟨st2, none, 2, [.pushed 0 t (.upRead p) st] ++ [.called 0 none x st1] ++ [.pushed 1 t m st1]⟩,
        ds.map (.call 1 none)) := by
    rw [exec, hds, hst2, hls]; simp
  have r1 := (((Reach.exec e1 []).trans (Reach.exec e2 _)).trans (Reach.exec e3 _)).trans (Reach.exec e4 _)
  have r2 := r1.trans (Reach.exec e5 _)
  have r3 := r2.trans (still_calls c code 1 none ds _ _ fun a ha => still _ a (hdx a ha))
  have r4 := r3.trans (Reach.step c code _ (.prog .done) _)
  have r5 := r4.trans (still_calls c code 0 none cs _ _ fun a ha => still _ a fun e => hx (e ▸ ha))
  have r6 := (r5.trans (Reach.step c code _ _ _)).trans (Reach.step c code _ _ _)
  obtain ⟨n, hn⟩ := r6
  refine ⟨n, ?_⟩
  have hn' : run c code n (start st none (.look t p fun v => .put (some v) .done)) = _ := hn
  rw [hn']
  refine ⟨rfl, rfl, ?_⟩
  show (c.ops t).view (st2 t) p = _
  rw [← hst2, pushMain_stores c hl, ← hm]
  simp only [setStore, if_true]
  exact hw _

/-- C120, exactly: what is handed to the callback of `match` is what the store shows when all is done, whatever the
actors do, just if the store need not be asked for more or nobody is called for the read request. -/
theorem match_current_exact (c : Config S P V) (hl : ∀ t, Lawful (c.ops t)) (t : Nat) (hh : Honest (c.ops t)) (p : P)
    (hls : c.listeners t = []) (v : V)
    (hw : ∀ s, (c.ops t).view ((c.ops t).apply s (.downRead p (.value v))).1 p = .value (.value v)) (st : Nat → S) :
    (∀ (code : Code (Option (View V)) P V) (n : Nat),
      (run c code n (start st none (.look t p fun v => .put (some v) .done))).tasks = [] →
      ∀ x, (run c code n (start st none (.look t p fun v => .put (some v) .done))).world.vars = some (View.value x)
        ↔ (c.ops t).view ((run c code n (start st none (.look t p fun v => .put (some v) .done))).world.stores t) p
          = .value x)
    ↔ (c.ops t).view (st t) p ≠ .triggerRead
      ∨ (c.ops t).view ((c.ops t).apply (st t) (.upRead p)).1 p = .unresolved
      ∨ (c.ops t).view ((c.ops t).apply (st t) (.upRead p)).1 p = .notInSet ∧ actorsWith Actor.consumer c = [] := by
  constructor
  · intro h
    by_cases hv : (c.ops t).view (st t) p = .triggerRead
    · refine .inr ?_
      have bad : ∀ x cs, mainCalls c st t (.upRead p) = x :: cs → x ∉ cs → (∀ b u q, x ≠ .notify b u q) →
          (∀ b, x ≠ .down b t (.downRead p (.value v))) → False := by
        intro x cs h1 h2 h3 h4
        obtain ⟨n, g1, g2, g3⟩ := answered_look c hl t p hls v hw st hv x cs h1 h2 h3 h4
        have := (h _ n g1 _).2 g3
        rw [g2] at this
        cases this
      have hcalls := (mainCalls_read c st t p).2
      cases ha : (c.ops t).view ((c.ops t).apply (st t) (.upRead p)).1 p with
      | unresolved => exact .inl rfl
      | triggerRead =>
        rw [ha] at hcalls
        exact (bad _ _ hcalls (by simp) (by intros; simp) (by intros; simp)).elim
      | value w =>
        have := (hh.read (st t) p p w).1 ha
        rw [hv] at this; cases this
      | notInSet =>
        refine .inr ⟨rfl, ?_⟩
        rw [ha, readCalls] at hcalls
        match hd : actorsWith Actor.consumer c, actorsWith_sorted Actor.consumer c with
        | [], _ => rfl
        | d :: ds, hs =>
          rw [hd] at hcalls
          refine (bad _ _ hcalls ?_ (by intros; simp) (by intros; simp)).elim
          intro hm
          obtain ⟨e, he, hz⟩ := List.mem_map.1 hm
          have := (List.pairwise_cons.1 hs).1 e he
          have : e = d := by injection hz
          omega
    · exact .inl hv
  · intro h code n hn x
    by_cases hv : (c.ops t).view (st t) p = .triggerRead
    · have h' : mainCalls c st t (.upRead p) = [] := by
        rw [(mainCalls_read c st t p).2]
        rcases h with h | h | ⟨h, hc⟩
        · exact absurd hv h
        · rw [h]; rfl
        · rw [h, readCalls, hc]; rfl
      have e1 : exec c code ⟨st, none, 0, []⟩ (.prog (.look t p fun v => .put (some v) .done))
          = (⟨st, none, 0, []⟩, [.push t (.upRead p), .prog (.put (some .unresolved) .done)]) :=
        exec_look_trigger c code ⟨st, none, 0, []⟩ t p _ hv
      have e2 : exec c code ⟨st, none, 0, []⟩ (.push t (.upRead p))
          = (⟨(Context.pushMain c st t (.upRead p)).1, none, 1, [.pushed 0 t (.upRead p) st]⟩, []) := by
        rw [exec, h', hls]; rfl
      have r := (((Reach.exec e1 []).trans (Reach.exec e2 _)).trans (Reach.step c code _ _ _)).trans (Reach.step c code _ _ _)
      have hn' : run c code n (start st none (.look t p fun v => .put (some v) .done)) = _ := rest_unique r rfl n hn
      rw [hn']
      show some View.unresolved = some (View.value x) ↔ (c.ops t).view ((Context.pushMain c st t (.upRead p)).1 t) p = _
      rw [pushMain_stores c hl]
      simp only [setStore, if_true]
      rw [hh.read, hv]
      constructor <;> intro h <;> cases h
    · have e1 : exec c code ⟨st, none, 0, []⟩ (.prog (.look t p fun v => .put (some v) .done))
          = (⟨st, none, 0, []⟩, [.prog (.put (some ((c.ops t).view (st t) p)) .done)]) :=
        exec_look_other c code ⟨st, none, 0, []⟩ t p _ hv
      have r := ((Reach.exec e1 []).trans (Reach.step c code _ _ _)).trans (Reach.step c code _ _ _)
      have hn' : run c code n (start st none (.look t p fun v => .put (some v) .done)) = _ := rest_unique r rfl n hn
      rw [hn']
      show some ((c.ops t).view (st t) p) = some (View.value x) ↔ (c.ops t).view (st t) p = _
      rw [Option.some.injEq]

/-- Stores of both kinds: with map stores the producer is not even called (C28), and stores that ask do ask. -/
example : (mapOps (P := Nat) (V := Nat)).view (mapOps.apply MapStore.empty (.upRead 5)).1 5 = .unresolved := by rfl
example : (askingOps (P := Nat) (V := Nat)).view (askingOps.apply (fun _ => none) (.upRead 5)).1 5 = .triggerRead := by rfl
example (s : Nat → Option (Payload Nat)) :
    askingOps.view (askingOps.apply s (.downRead 5 (.value 7))).1 5 = .value (.value 7) := by rfl
example : asking.listeners 0 = [] ∧ (∀ t, Lawful (asking.ops t)) ∧ Honest (asking.ops 0) :=
  ⟨rfl, fun _ => askingOps_lawful, askingOps_honest⟩

end Nbdl.Nested
