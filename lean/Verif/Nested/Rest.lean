import Verif.Nested.Lemmas
/-! When a machine comes to rest. -/
namespace Nbdl.Nested
open MapStore (Msg View Payload)
open Context (Config Actor StoreOps Event setStore pushMain Lawful actorsWith towardsProducer)
open Spec
variable {A S P V : Type}

/-- The task is carried out in finitely many steps, wherever it stands. -/
def Ends (c : Config S P V) (code : Code A P V) (x : Task A P V) : Prop :=
  ∀ w r, ∃ n w', run c code n ⟨w, x :: r⟩ = ⟨w', r⟩

theorem ends_list (c : Config S P V) (code : Code A P V) (ts : List (Task A P V)) (h : ∀ x ∈ ts, Ends c code x)
    (w : World A S P V) (r : List (Task A P V)) : ∃ n w', run c code n ⟨w, ts ++ r⟩ = ⟨w', r⟩ := by
  induction ts generalizing w with
  | nil => exact ⟨0, w, rfl⟩
  | cons x ts ih =>
    obtain ⟨n, w1, h1⟩ := h x List.mem_cons_self w (ts ++ r)
    obtain ⟨n2, w2, h2⟩ := ih (fun y hy => h y (List.mem_cons_of_mem _ hy)) w1
    exact ⟨n + n2, w2, by rw [run_add, List.cons_append, h1, h2]⟩

theorem ends_exec (c : Config S P V) (code : Code A P V) (x : Task A P V)
    (h : ∀ w, ∀ y ∈ (exec c code w x).2, Ends c code y) : Ends c code x := by
  intro w r
  obtain ⟨n, w', h1⟩ := ends_list c code _ (h w) (exec c code w x).1 r
  exact ⟨n + 1, w', h1⟩

theorem ends_done (c : Config S P V) (code : Code A P V) : Ends c code (.prog .done) :=
  fun w r => ⟨1, w, rfl⟩

theorem ends_call (c : Config S P V) (code : Code A P V) (i : Nat) (src : Option Nat) (a : Call P V)
    (h : Ends c code (.prog (code a))) : Ends c code (.call i src a) :=
  ends_exec c code _ fun w y hy => by rw [List.mem_singleton.1 hy]; exact h

theorem ends_below (c : Config S P V) (code : Code A P V) (rank : Nat → Msg P V → Nat) (n : Nat)
    (hp : ∀ t m, rank t m < n → Ends c code (.push t m) ∧ Ends c code (.submit t m)) (q : Prog A P V)
    (hq : Below c rank n q) : Ends c code (.prog q) := by
  induction hq with
  | done => exact ends_done c code
  | get h ih => exact ends_exec c code _ fun w y hy => by rw [List.mem_singleton.1 hy]; exact ih _
  | put h ih => exact ends_exec c code _ fun w y hy => by rw [List.mem_singleton.1 hy]; exact ih
  | push hr h ih =>
    refine ends_exec c code _ fun w y hy => ?_
    rcases List.mem_cons.1 hy with rfl | hy
    · exact (hp _ _ hr).1
    · rw [List.mem_singleton.1 hy]; exact ih
  | submit hr h ih =>
    refine ends_exec c code _ fun w y hy => ?_
    rcases List.mem_cons.1 hy with rfl | hy
    · exact (hp _ _ hr).2
    · rw [List.mem_singleton.1 hy]; exact ih
  | @look t p k hv h ih =>
    refine ends_exec c code _ fun w y hy => ?_
    by_cases hv' : (c.ops t).view (w.stores t) p = .triggerRead
    · rw [exec_look_trigger c code w t p k hv'] at hy
      have hr : rank t (.upRead p) < n := by
        rcases hv with hv | hv
        · exact hv
        · exact absurd hv' (hv _)
      rcases List.mem_cons.1 hy with rfl | hy
      · exact (hp _ _ hr).1
      · rw [List.mem_singleton.1 hy]; exact ih _
    · rw [exec_look_other c code w t p k hv'] at hy
      rw [List.mem_singleton.1 hy]; exact ih _

theorem mainCalls_concern (c : Config S P V) (st : Nat → S) (t : Nat) (m : Msg P V) :
    ∀ a ∈ mainCalls c st t m, Concerns c t m a := by
  intro a ha
  have downs : ∀ (m' : Msg P V) st', (m' = m ∨ ∃ p w, m = .upRead p ∧ m' = .downRead p w) →
      ∀ a ∈ (Context.propagateDownstream c st' t m').map callOf, Concerns c t m a := by
    intro m' st' hm a ha
    obtain ⟨e, he, rfl⟩ := List.mem_map.1 ha
    obtain ⟨b, -, rfl⟩ := List.mem_map.1 he
    exact ⟨rfl, hm⟩
  unfold mainCalls pushMain at ha
  cases hm : m.isUpRead
  · rw [hm] at ha
    simp only [Bool.false_eq_true, if_false, List.map_append] at ha
    generalize (if (c.ops t).never m = true then (st t, false) else (c.ops t).apply (st t) m) = o at ha
    rcases List.mem_append.1 ha with ha | ha
    · split at ha
      · obtain ⟨e, he, rfl⟩ := List.mem_map.1 ha
        obtain ⟨b, -, rfl⟩ := List.mem_map.1 he
        exact .inl ⟨rfl, rfl⟩
      · cases ha
    · split at ha
      · rw [List.mem_singleton.1 ha]; exact ⟨rfl, rfl⟩
      · exact downs m _ (.inl rfl) a ha
  · cases m with
    | upRead p =>
      simp only [Msg.isUpRead, if_true] at ha
      generalize hst' : setStore st t ((c.ops t).apply (st t) (.upRead p)).1 = st' at ha
      cases hv : (c.ops t).view (st' t) (Msg.path (.upRead p : Msg P V)) with
      | triggerRead => rw [hv] at ha; rw [List.mem_singleton.1 ha]; exact ⟨rfl, rfl⟩
      | unresolved => rw [hv] at ha; cases ha
      | value w => rw [hv] at ha; exact downs _ _ (.inr ⟨p, w, rfl, rfl⟩) a ha
      | notInSet => rw [hv] at ha; exact downs _ _ (.inr ⟨p, .notFound, rfl, rfl⟩) a ha
    | _ => cases hm

theorem ends_push (c : Config S P V) (code : Code A P V) (t : Nat) (m : Msg P V)
    (h : ∀ a, Concerns c t m a → Ends c code (.prog (code a))) :
    Ends c code (.push t m) ∧ Ends c code (.submit t m) := by
  constructor
  · refine ends_exec c code _ fun w y hy => ?_
    rcases List.mem_append.1 hy with hy | hy
    · obtain ⟨a, ha, rfl⟩ := List.mem_map.1 hy
      exact ends_call c code _ _ _ (h a (mainCalls_concern c _ t m a ha))
    · obtain ⟨l, hl, rfl⟩ := List.mem_map.1 hy
      refine ends_exec c code _ fun w' z hz => ?_
      obtain ⟨a, ha, rfl⟩ := List.mem_map.1 hz
      obtain ⟨p, -, ha⟩ := List.mem_flatMap.1 ha
      obtain ⟨b, -, rfl⟩ := List.mem_map.1 ha
      exact ends_call c code _ _ _ (h _ (.inr hl))
  · refine ends_exec c code _ fun w y hy => ?_
    rw [List.mem_singleton.1 hy]
    exact ends_call c code _ _ _ (h _ ⟨rfl, rfl⟩)

theorem ends_all (c : Config S P V) (code : Code A P V) (rank : Nat → Msg P V → Nat) (hd : Descending c code rank)
    (n : Nat) : ∀ q : Prog A P V, Below c rank n q → Ends c code (.prog q) := by
  induction n using Nat.strongRecOn with
  | _ n ih =>
    intro q hq
    refine ends_below c code rank n (fun t m hr => ends_push c code t m fun a ha => ?_) q hq
    exact ih (rank t m) hr (code a) (hd t m a ha)

theorem ends_prog (c : Config S P V) (code : Code A P V) (rank : Nat → Msg P V → Nat) (hd : Descending c code rank)
    (q : Prog A P V) : Ends c code (.prog q) := by
  have hp : ∀ t m, Ends c code (.push t m) ∧ Ends c code (.submit t m) := fun t m =>
    ends_push c code t m fun a ha => ends_all c code rank hd _ _ (hd t m a ha)
  induction q with
  | done => exact ends_done c code
  | get k ih => exact ends_exec c code _ fun w y hy => by rw [List.mem_singleton.1 hy]; exact ih _
  | put a k ih => exact ends_exec c code _ fun w y hy => by rw [List.mem_singleton.1 hy]; exact ih
  | push t m k ih =>
    refine ends_exec c code _ fun w y hy => ?_
    rcases List.mem_cons.1 hy with rfl | hy
    · exact (hp _ _).1
    · rw [List.mem_singleton.1 hy]; exact ih
  | submit t m k ih =>
    refine ends_exec c code _ fun w y hy => ?_
    rcases List.mem_cons.1 hy with rfl | hy
    · exact (hp _ _).2
    · rw [List.mem_singleton.1 hy]; exact ih
  | look t p k ih =>
    refine ends_exec c code _ fun w y hy => ?_
    by_cases hv' : (c.ops t).view (w.stores t) p = .triggerRead
    · rw [exec_look_trigger c code w t p k hv'] at hy
      rcases List.mem_cons.1 hy with rfl | hy
      · exact (hp _ _).1
      · rw [List.mem_singleton.1 hy]; exact ih _
    · rw [exec_look_other c code w t p k hv'] at hy
      rw [List.mem_singleton.1 hy]; exact ih _

/-! ## Tasks that leave everything as it is -/

/-- The task ends, and leaves the stores and the messages pushed as they were. -/
def Idle (c : Config S P V) (code : Code A P V) (x : Task A P V) : Prop :=
  ∀ w r, ∃ n w', run c code n ⟨w, x :: r⟩ = ⟨w', r⟩ ∧ w'.stores = w.stores ∧ pushes w'.log = pushes w.log

theorem idle_list (c : Config S P V) (code : Code A P V) (ts : List (Task A P V)) (h : ∀ x ∈ ts, Idle c code x)
    (w : World A S P V) (r : List (Task A P V)) : ∃ n w', run c code n ⟨w, ts ++ r⟩ = ⟨w', r⟩
      ∧ w'.stores = w.stores ∧ pushes w'.log = pushes w.log := by
  induction ts generalizing w with
  | nil => exact ⟨0, w, rfl, rfl, rfl⟩
  | cons x ts ih =>
    obtain ⟨n, w1, h1, h2, h3⟩ := h x List.mem_cons_self w (ts ++ r)
    obtain ⟨n2, w2, g1, g2, g3⟩ := ih (fun y hy => h y (List.mem_cons_of_mem _ hy)) w1
    exact ⟨n + n2, w2, by rw [run_add, List.cons_append, h1, g1], g2.trans h2, g3.trans h3⟩

theorem idle_exec (c : Config S P V) (code : Code A P V) (x : Task A P V)
    (h : ∀ w, (exec c code w x).1.stores = w.stores ∧ pushes (exec c code w x).1.log = pushes w.log
      ∧ ∀ y ∈ (exec c code w x).2, Idle c code y) : Idle c code x := by
  intro w r
  obtain ⟨h1, h2, h3⟩ := h w
  obtain ⟨n, w', g1, g2, g3⟩ := idle_list c code _ h3 (exec c code w x).1 r
  exact ⟨n + 1, w', g1, g2.trans h1, g3.trans h2⟩

theorem idle_prog (c : Config S P V) (code : Code A P V) (q : Prog A P V) (hq : Quiet c q) :
    Idle c code (.prog q) := by
  induction hq with
  | done => exact idle_exec c code _ fun w => ⟨rfl, rfl, fun y hy => nomatch hy⟩
  | get h ih =>
    exact idle_exec c code _ fun w => ⟨rfl, rfl, fun y hy => by rw [List.mem_singleton.1 hy]; exact ih _⟩
  | put h ih =>
    exact idle_exec c code _ fun w => ⟨rfl, rfl, fun y hy => by rw [List.mem_singleton.1 hy]; exact ih⟩
  | @look t p k hv h ih =>
    refine idle_exec c code _ fun w => ?_
    rw [exec_look_other c code w t p k (hv _)]
    exact ⟨rfl, rfl, fun y hy => by rw [List.mem_singleton.1 hy]; exact ih _⟩

theorem pushes_append (a b : List (Entry S P V)) : pushes (a ++ b) = pushes a ++ pushes b := List.filterMap_append

theorem idle_call (c : Config S P V) (code : Code A P V) (i : Nat) (src : Option Nat) (a : Call P V)
    (hq : Quiet c (code a)) : Idle c code (.call i src a) := by
  refine idle_exec c code _ fun w => ⟨rfl, ?_, fun y hy => by rw [List.mem_singleton.1 hy]; exact idle_prog c code _ hq⟩
  show pushes (w.log ++ [Entry.called i src a w.stores]) = _
  rw [pushes_append]; exact List.append_nil _

theorem idle_listen (c : Config S P V) (code : Code A P V) (i l t : Nat) (m : Msg P V)
    (hf : ∀ s, (c.ops l).foreign s t m = (s, [])) : Idle c code (.listen i l t m) := by
  refine idle_exec c code _ fun w => ⟨?_, ?_, ?_⟩
  · show setStore w.stores l ((c.ops l).foreign (w.stores l) t m).1 = w.stores
    rw [hf]
    funext u; unfold setStore; split
    · rename_i h; rw [h]
    · rfl
  · show pushes (w.log ++ [Entry.heard i l t m w.stores]) = _
    rw [pushes_append]; exact List.append_nil _
  · intro y hy
    have : (exec c code w (.listen i l t m)).2 = [] := by
      simp only [exec, hf]; rfl
    rw [this] at hy; cases hy

end Nbdl.Nested
