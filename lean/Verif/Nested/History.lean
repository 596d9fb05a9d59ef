import Verif.Nested.Lemmas
/-! The stores are the effect of the history; the state consumers have been told of it. -/
namespace Nbdl.Nested
open MapStore (Msg View Payload)
open Context (Config Actor StoreOps Event setStore pushMain Lawful actorsWith towardsProducer)
open Spec
variable {A S P V : Type}

theorem effect_append (c : Config S P V) (st : Nat → S) (a b : List (Entry S P V)) :
    effect c st (a ++ b) = effect c (effect c st a) b := by
  induction a generalizing st with
  | nil => rfl
  | cons e a ih => cases e <;> exact ih _

/-- The stores that are noted in an entry. -/
def noted : Entry S P V → Option (Nat → S)
  | .pushed _ _ _ st => some st
  | .submitted _ _ _ => none
  | .heard _ _ _ _ st => some st
  | .called _ _ _ st => some st

/-- The number of the push a call belongs to. -/
def owner : Entry S P V → Option Nat
  | .called i _ _ _ => some i
  | .heard i _ _ _ _ => some i
  | _ => none

/-- What a step writes. -/
theorem exec_writes (c : Config S P V) (hl : ∀ t, Lawful (c.ops t)) (code : Code A P V) (w : World A S P V)
    (x : Task A P V) (hx : Old w.next x) :
    ((exec c code w x).1.log = w.log ∧ (exec c code w x).1.stores = w.stores)
    ∨ ∃ e, (exec c code w x).1.log = w.log ++ [e] ∧ (exec c code w x).1.stores = effect c w.stores [e]
        ∧ (∀ st, noted e = some st → st = w.stores) ∧ ∀ i, owner e = some i → i < w.next := by
  match x, hx with
  | .prog .done, _ => exact .inl ⟨rfl, rfl⟩
  | .prog (.get k), _ => exact .inl ⟨rfl, rfl⟩
  | .prog (.put a k), _ => exact .inl ⟨rfl, rfl⟩
  | .prog (.push t m k), _ => exact .inl ⟨rfl, rfl⟩
  | .prog (.submit t m k), _ => exact .inl ⟨rfl, rfl⟩
  | .prog (.look t p k), _ =>
    by_cases hv : (c.ops t).view (w.stores t) p = .triggerRead
    · rw [exec_look_trigger c code w t p k hv]; exact .inl ⟨rfl, rfl⟩
    · rw [exec_look_other c code w t p k hv]; exact .inl ⟨rfl, rfl⟩
  | .push t m, _ =>
    refine .inr ⟨.pushed w.next t m w.stores, rfl, pushMain_stores c hl w.stores t m, ?_, ?_⟩
    · intro st h; cases h; rfl
    · intro i h; cases h
  | .submit t m, _ =>
    refine .inr ⟨.submitted w.next t m, rfl, rfl, ?_, ?_⟩
    · intro st h; cases h
    · intro i h; cases h
  | .call i src a, hx =>
    refine .inr ⟨.called i src a w.stores, rfl, rfl, ?_, ?_⟩
    · intro st h; cases h; rfl
    · intro j h; cases h; exact hx
  | .listen i l t m, hx =>
    refine .inr ⟨.heard i l t m w.stores, rfl, rfl, ?_, ?_⟩
    · intro st h; cases h; rfl
    · intro j h; cases h; exact hx

theorem splits_snoc {α : Type} {Q : List α → α → Prop} {log : List α} {e : α}
    (h : ∀ l1 x l2, log = l1 ++ x :: l2 → Q l1 x) (hn : Q log e) :
    ∀ l1 x l2, log ++ [e] = l1 ++ x :: l2 → Q l1 x := by
  intro l1 x l2 hs
  rcases List.eq_nil_or_concat l2 with rfl | ⟨l2', y, rfl⟩
  · have h2 := List.append_inj' hs rfl
    obtain ⟨rfl, h3⟩ := h2
    injection h3 with h3
    rw [← h3]
    exact hn
  · rw [List.concat_eq_append, show l1 ++ x :: (l2' ++ [y]) = (l1 ++ x :: l2') ++ [y] by simp] at hs
    exact h l1 x l2' (List.append_inj' hs rfl).1

/-- The invariant: the stores are the effect of the history, what is noted is the effect of the history
so far, and a call comes after the beginning of its push. -/
structure Hist (c : Config S P V) (st0 : Nat → S) (s : State A S P V) : Prop where
  now : s.world.stores = effect c st0 s.world.log
  then_ : ∀ l1 e l2, s.world.log = l1 ++ e :: l2 →
    (∀ st, noted e = some st → st = effect c st0 l1) ∧ ∀ i, owner e = some i → i ∈ l1.filterMap begun

theorem hist_run (c : Config S P V) (hl : ∀ t, Lawful (c.ops t)) (code : Code A P V) (st0 : Nat → S) (a : A)
    (q : Prog A P V) (n : Nat) : Hist c st0 (run c code n (start st0 a q)) := by
  refine (run_inv c code (fun s => Hist c st0 s ∧ Inv c s) ?_ n _ ⟨⟨rfl, ?_⟩, inv_start c st0 a q⟩).1
  · rintro w x r ⟨h, hi⟩
    refine ⟨?_, inv_exec c code w x r hi⟩
    have hnow : w.stores = effect c st0 w.log := h.now
    rcases exec_writes c hl code w x (hi.old x List.mem_cons_self) with ⟨h1, h2⟩ | ⟨e, h1, h2, h3, h4⟩
    · refine ⟨?_, ?_⟩
      · show (exec c code w x).1.stores = effect c st0 (exec c code w x).1.log
        rw [h1, h2]; exact hnow
      · show ∀ l1 e l2, (exec c code w x).1.log = l1 ++ e :: l2 → _
        rw [h1]; exact h.then_
    · refine ⟨?_, ?_⟩
      · show (exec c code w x).1.stores = effect c st0 (exec c code w x).1.log
        rw [h1, h2, effect_append, ← hnow]
      · show ∀ l1 e l2, (exec c code w x).1.log = l1 ++ e :: l2 → _
        rw [h1]
        refine splits_snoc h.then_ ⟨?_, ?_⟩
        · intro st hst; rw [h3 st hst]; exact hnow
        · intro i hi'
          have : w.log.filterMap begun = List.range w.next := hi.ids
          rw [this]
          exact List.mem_range.2 (h4 i hi')
  · intro l1 e l2 h
    exact absurd h (by simp [start])

/-- If no store listens, the effect is that of pushing one after the other. -/
theorem effect_sequential (c : Config S P V) (hl : ∀ t, Lawful (c.ops t))
    (hf : ∀ l s t m, (c.ops l).foreign s t m = (s, [])) (st : Nat → S) (log : List (Entry S P V)) :
    effect c st log = (Context.pushAll c st (pushes log)).1 := by
  have hset : ∀ (st : Nat → S) l, setStore st l (st l) = st := by
    intro st l; funext u; unfold setStore; split
    · rename_i h; rw [h]
    · rfl
  have hlis : ∀ (ls : List Nat) t m (st : Nat → S), (Context.applyListeners c t m ls st).1 = st := by
    intro ls
    induction ls with
    | nil => intros; rfl
    | cons l ls ih =>
      intro t m st
      show (Context.applyListeners c t m ls (setStore st l ((c.ops l).foreign (st l) t m).1)).1 = st
      rw [hf, hset, ih]
  induction log generalizing st with
  | nil => rfl
  | cons e log ih =>
    cases e with
    | pushed i t m b =>
      show effect c (setStore st t ((c.ops t).apply (st t) m).1) log
        = (Context.pushAll c (Context.push c st t m).1 (pushes log)).1
      have : (Context.push c st t m).1 = setStore st t ((c.ops t).apply (st t) m).1 := by
        show (Context.applyListeners c t m (c.listeners t) (pushMain c st t m).1).1 = _
        rw [hlis, pushMain_stores c hl]
      rw [this]
      exact ih _
    | submitted i t m => exact ih st
    | heard i l t m b =>
      show effect c (setStore st l ((c.ops l).foreign (st l) t m).1) log = (Context.pushAll c st (pushes log)).1
      rw [hf, hset]
      exact ih st
    | called i src a b => exact ih st

/-! ## State consumers are told of the last change -/

theorem lastTold_append [DecidableEq P] (a t : Nat) (p : P) (l r : List (Entry S P V)) :
    lastTold a t p (l ++ r) = (lastTold a t p r).or (lastTold a t p l) := by
  induction l with
  | nil => simp [lastTold]
  | cons e l ih =>
    cases e with
    | pushed i t' m b => exact ih
    | submitted i t' m => exact ih
    | heard i l' t' m b => exact ih
    | called i src b st =>
      cases b with
      | up x y z => exact ih
      | down x y z => exact ih
      | notify x y z =>
        simp only [List.cons_append, lastTold, ih]
        cases lastTold a t p r <;> cases lastTold a t p l <;> simp

/-- The value at a path is the same in two states of the stores. -/
def Same (c : Config S P V) (t : Nat) (p : P) (st st' : Nat → S) : Prop :=
  ∀ w, (c.ops t).view (st t) p = .value w ↔ (c.ops t).view (st' t) p = .value w

theorem same_shows (c : Config S P V) (t : Nat) (p : P) (st st' : Nat → S) (h : Same c t p st st') :
    shows c st t p = shows c st' t p := by
  unfold shows
  cases h1 : (c.ops t).view (st t) p with
  | value w => rw [(h w).1 h1]
  | _ =>
    cases h2 : (c.ops t).view (st' t) p with
    | value w => exact absurd ((h w).2 h2) (by rw [h1]; intro h; cases h)
    | _ => rfl

/-- What was last told, or the beginning. -/
def told [DecidableEq P] (st0 : Nat → S) (a t : Nat) (p : P) (log : List (Entry S P V)) : Nat → S :=
  (lastTold a t p log).getD st0

/-- The invariant. -/
def Latest [DecidableEq P] (c : Config S P V) (st0 : Nat → S) (s : State A S P V) : Prop :=
  ∀ a ∈ actorsWith Actor.stateConsumer c, ∀ t p,
    (∃ i src, Task.call i src (.notify a t p) ∈ s.tasks) ∨ Same c t p s.world.stores (told st0 a t p s.world.log)

theorem notifyCalls_eq (c : Config S P V) (t : Nat) (p : P) :
    notifyCalls c t p = (actorsWith Actor.stateConsumer c).map fun a => .notify a t p := by
  simp only [notifyCalls, Context.indices_eq, actorsWith]

/-- The value changed by a push is notified. -/
theorem push_same (c : Config S P V) (hl : ∀ t, Lawful (c.ops t)) (hh : ∀ t, Honest (c.ops t)) (st : Nat → S)
    (t u : Nat) (m : Msg P V) (p : P) (a : Nat) (ha : a ∈ actorsWith Actor.stateConsumer c) :
    Call.notify a u p ∈ mainCalls c st t m ∨ Same c u p (pushMain c st t m).1 st := by
  rw [pushMain_stores c hl]
  by_cases hut : u = t
  · subst hut
    have hset : ∀ x : S, setStore st u x u = x := by intro x; simp [setStore]
    cases hm : m.isUpRead
    · by_cases hc : ((c.ops u).apply (st u) m).2 = true ∧ p = m.path
      · refine .inl ?_
        rw [(mainCalls_write c st u m hm (hl u)).2, writeCalls, hc.1, hc.2]
        exact List.mem_append_left _ (by simp only [if_true]; exact List.mem_map.2 ⟨a, ha, rfl⟩)
      · refine .inr fun w => ?_
        rw [hset]
        refine (hh u).silent (st u) m p w hm ?_
        by_cases h2 : ((c.ops u).apply (st u) m).2 = true
        · exact .inr fun h => hc ⟨h2, h⟩
        · exact .inl (by simpa using h2)
    · cases m with
      | upRead q => refine .inr fun w => ?_; rw [hset]; exact (hh u).read (st u) q p w
      | _ => cases hm
  · refine .inr fun w => ?_
    have : setStore st t ((c.ops t).apply (st t) m).1 u = st u := by simp [setStore, hut]
    rw [this]

theorem latest_exec [DecidableEq P] (c : Config S P V) (hl : ∀ t, Lawful (c.ops t)) (hh : ∀ t, Honest (c.ops t))
    (code : Code A P V) (st0 : Nat → S) (w : World A S P V) (x : Task A P V) (r : List (Task A P V))
    (h : Latest c st0 ⟨w, x :: r⟩) : Latest c st0 ⟨(exec c code w x).1, (exec c code w x).2 ++ r⟩ := by
  intro a ha t p
  have h0 := h a ha t p
  -- a task that is no call and does not touch the stores
  have plain : ∀ (w' : World A S P V) (ts : List (Task A P V)), (∀ i src b, x ≠ .call i src b) →
      w'.stores = w.stores → lastTold a t p w'.log = lastTold a t p w.log →
      (∃ i src, Task.call i src (.notify a t p) ∈ ts ++ r) ∨ Same c t p w'.stores (told st0 a t p w'.log) := by
    intro w' ts hx h1 h2
    rcases h0 with ⟨i, src, hm⟩ | hs
    · rcases List.mem_cons.1 hm with hm | hm
      · exact absurd hm.symm (hx _ _ _)
      · exact .inl ⟨i, src, List.mem_append_right _ hm⟩
    · refine .inr ?_
      rw [h1, told, h2]
      exact hs
  match x, plain, h0 with
  | .prog .done, plain, h0 => exact plain _ _ (fun _ _ _ h => by cases h) rfl rfl
  | .prog (.get k), plain, h0 => exact plain _ _ (fun _ _ _ h => by cases h) rfl rfl
  | .prog (.put a k), plain, h0 => exact plain _ _ (fun _ _ _ h => by cases h) rfl rfl
  | .prog (.push _ m k), plain, h0 => exact plain _ _ (fun _ _ _ h => by cases h) rfl rfl
  | .prog (.submit _ m k), plain, h0 => exact plain _ _ (fun _ _ _ h => by cases h) rfl rfl
  | .prog (.look t' p' k), plain, h0 =>
    by_cases hv : (c.ops t').view (w.stores t') p' = .triggerRead
    · rw [exec_look_trigger c code w t' p' k hv]; exact plain _ _ (fun _ _ _ h => by cases h) rfl rfl
    · rw [exec_look_other c code w t' p' k hv]; exact plain _ _ (fun _ _ _ h => by cases h) rfl rfl
  | .submit t' m, plain, h0 =>
    refine plain _ _ (fun _ _ _ h => by cases h) rfl ?_
    show lastTold a t p (w.log ++ [_]) = _
    rw [lastTold_append]; rfl
  | .push t' m, _, h0 =>
    rcases push_same c hl hh w.stores t' t m p a ha with hc | hs
    · exact .inl ⟨w.next, none, List.mem_append_left _ (List.mem_append_left _ (List.mem_map.2 ⟨_, hc, rfl⟩))⟩
    · rcases h0 with ⟨i, src, hm⟩ | h0
      · rcases List.mem_cons.1 hm with hm | hm
        · cases hm
        · exact .inl ⟨i, src, List.mem_append_right _ hm⟩
      · refine .inr fun v => ?_
        have e : told st0 a t p (exec c code w (.push t' m)).1.log = told st0 a t p w.log := by
          show (lastTold a t p (w.log ++ [_])).getD st0 = _
          rw [lastTold_append]; rfl
        rw [e]
        exact (hs v).trans (h0 v)
  | .listen i l t' m, _, h0 =>
    by_cases hc : t = l ∧ p ∈ ((c.ops l).foreign (w.stores l) t' m).2
    · obtain ⟨rfl, hp⟩ := hc
      refine .inl ⟨i, some t, List.mem_append_left _ (List.mem_map.2 ⟨_, ?_, rfl⟩)⟩
      refine List.mem_flatMap.2 ⟨p, hp, ?_⟩
      rw [notifyCalls_eq]
      exact List.mem_map.2 ⟨a, ha, rfl⟩
    · rcases h0 with ⟨j, src, hm⟩ | h0
      · rcases List.mem_cons.1 hm with hm | hm
        · cases hm
        · exact .inl ⟨j, src, List.mem_append_right _ hm⟩
      · refine .inr fun v => ?_
        have e : told st0 a t p (exec c code w (.listen i l t' m)).1.log = told st0 a t p w.log := by
          show (lastTold a t p (w.log ++ [_])).getD st0 = _
          rw [lastTold_append]; rfl
        rw [e]
        refine Iff.trans ?_ (h0 v)
        show (c.ops t).view (setStore w.stores l ((c.ops l).foreign (w.stores l) t' m).1 t) p = .value v ↔ _
        by_cases htl : t = l
        · subst htl
          have : setStore w.stores t ((c.ops t).foreign (w.stores t) t' m).1 t = ((c.ops t).foreign (w.stores t) t' m).1 := by
            simp [setStore]
          rw [this]
          exact (hh t).marked (w.stores t) t' m p v fun hp => hc ⟨rfl, hp⟩
        · have : setStore w.stores l ((c.ops l).foreign (w.stores l) t' m).1 t = w.stores t := by
            simp [setStore, htl]
          rw [this]
  | .call i src b, _, h0 =>
    have hlog : ∀ z, lastTold a t p (w.log ++ [Entry.called i src b w.stores]) = z →
        told st0 a t p (exec c code w (.call i src b)).1.log = z.getD st0 := by
      intro z hz
      show (lastTold a t p (w.log ++ [_])).getD st0 = _
      rw [hz]
    by_cases hb : b = .notify a t p
    · subst hb
      refine .inr ?_
      rw [hlog (some w.stores) (by rw [lastTold_append]; simp [lastTold])]
      exact fun v => Iff.rfl
    · rcases h0 with ⟨j, src', hm⟩ | h0
      · rcases List.mem_cons.1 hm with hm | hm
        · injection hm with h1 h2 h3
          exact absurd h3.symm hb
        · exact .inl ⟨j, src', List.mem_append_right _ hm⟩
      · refine .inr ?_
        have : lastTold a t p [Entry.called i src b w.stores] = none := by
          cases b with
          | up _ _ _ => rfl
          | down _ _ _ => rfl
          | notify a' t' p' =>
            have : ¬ (a' = a ∧ t' = t ∧ p' = p) := by
              rintro ⟨rfl, rfl, rfl⟩; exact hb rfl
            simp [lastTold, this]
        rw [hlog (lastTold a t p w.log) (by rw [lastTold_append, this]; rfl)]
        exact h0

theorem latest_run [DecidableEq P] (c : Config S P V) (hl : ∀ t, Lawful (c.ops t)) (hh : ∀ t, Honest (c.ops t))
    (code : Code A P V) (st0 : Nat → S) (a : A) (q : Prog A P V) (n : Nat) :
    Latest c st0 (run c code n (start st0 a q)) :=
  run_inv c code (Latest c st0) (fun w x r h => latest_exec c hl hh code st0 w x r h) n _
    (fun _ _ _ _ => .inr fun _ => Iff.rfl)

end Nbdl.Nested
