import Verif.Screen.Model
import Verif.Replica.Exact
import Verif.Page.Exact
/-! Lemmas on the pages of clients. -/
namespace Nbdl.Screen
open MapStore (Msg Map Payload)
open Context (Config Actor push matchCtx mapOps actorsWith setStore pushMain)
open Replica Replica.Spec
variable {P V : Type} [DecidableEq P]

namespace Spec

/-- The stores show the same at the paths in `D`. -/
def Agree (D : Nat → P → Prop) (st st' : Stores P V) : Prop := ∀ t p, D t p → shows st t p = shows st' t p

end Spec
open Spec

/-! ## Pages and the states they have been given -/

theorem follow {S : Type} {R : (Nat → S) → (Nat → S) → Prop} (x : Dom.Item (Nat → S)) (hx : Dom.Spec.Shape x)
    (hv : Page.Spec.Respects R x) (doc : Dom.Dom) (el : Nat) (hroom : Dom.Room doc el x) (st : Nat → S)
    (seen : List (Nat → S)) (now : Nat → S) (hcur : R (seen.getLast?.getD st) now) (hcur' : R now (seen.getLast?.getD st))
    (hr : ∀ s ∈ st :: seen, Dom.Spec.InRange s x) (hm : Dom.Spec.Matched now x) :
    ∃ doc' ms, ((Dom.render st doc el x).bind fun r => Dom.updates r.1 r.2 seen) = .ok (doc', ms)
      ∧ Page.Spec.IsPage doc el x now doc' := by
  have hm' := Page.matched_congr hcur' x hv hm
  rcases List.eq_nil_or_concat seen with rfl | ⟨ss, s, rfl⟩
  · obtain ⟨h', ms, ids, e, hch, hsh, -, hot, -, -, hset⟩ := Dom.render_correct_partial x st doc el hx
      (hr st List.mem_cons_self) hroom
    refine ⟨h', ms, by simp only [Dom.render, e, Except.map, Except.bind, Dom.updates], ⟨ids, hch, ?_⟩, hot, ?_⟩
    · rw [← Page.trees_congr hcur x hv]; exact hsh
    · exact Page.setsOnly_congr hcur x hv hset
  · rw [List.concat_eq_append] at hcur hm' hr ⊢
    have hg : (ss ++ [s]).getLast?.getD st = s := by simp
    rw [hg] at hcur hm'
    obtain ⟨h1, m1, h2, m2, ids, e1, e2, hch, hsh, -, hot, -, -, hset⟩ :=
      Dom.update_correct_partial x st ss s doc el hx hr hm' hroom
    refine ⟨h2, m2, by rw [e1]; exact e2, ⟨ids, hch, ?_⟩, hot, ?_⟩
    · rw [← Page.trees_congr hcur x hv]; exact hsh
    · exact Page.setsOnly_congr hcur x hv hset

/-! ## What the renderer of a client finds -/

omit [DecidableEq P] in
theorem notified_append (b : Nat) (x y : List (Context.Event (Map P V) P V)) :
    notified b (x ++ y) = notified b x ++ notified b y := List.filterMap_append

omit [DecidableEq P] in
theorem notified_up (c : Config (Map P V) P V) (b : Nat) (st : Stores P V) (t : Nat) (m : Msg P V) :
    notified b (Context.propagateUpstream c st t m) = [] := rfl

omit [DecidableEq P] in
theorem notified_down (c : Config (Map P V) P V) (b : Nat) (st : Stores P V) (t : Nat) (m : Msg P V) :
    notified b (Context.propagateDownstream c st t m) = [] := by
  unfold notified Context.propagateDownstream
  rw [List.filterMap_map]
  apply List.filterMap_eq_nil_iff.2
  intro a _; rfl

theorem getLast_const {α : Type} (a : α) (l : List α) (h : ∀ y ∈ l, y = a) (hn : l ≠ []) : l.getLast? = some a := by
  rw [List.getLast?_eq_some_getLast hn, h _ (List.getLast_mem hn)]

omit [DecidableEq P] in
theorem notified_told (c : Config (Map P V) P V) (b : Nat) (hb : b ∈ actorsWith Actor.stateConsumer c) (st : Stores P V)
    (t : Nat) (p : P) : (notified b (Context.notifyStateConsumers c st t p)).getLast? = some st := by
  have hmem : ∀ y, y ∈ notified b (Context.notifyStateConsumers c st t p) ↔ y = st := by
    intro y
    unfold notified Context.notifyStateConsumers
    rw [Context.indices_eq, List.mem_filterMap]
    constructor
    · rintro ⟨e, he, hy⟩
      obtain ⟨a, -, rfl⟩ := List.mem_map.1 he
      simp only at hy
      split at hy
      · exact (Option.some.inj hy).symm
      · cases hy
    · rintro rfl
      exact ⟨.notify b t p y, List.mem_map.2 ⟨b, hb, rfl⟩, by simp⟩
  refine getLast_const st _ (fun y hy => (hmem y).1 hy) ?_
  intro h
  have := (hmem st).2 rfl
  rw [h] at this
  cases this

/-- The renderer has found the stores as they are after a message, or the message has changed nothing that is shown. -/
theorem notified_push (c : Config (Map P V) P V) (hc : ∀ t, c.ops t = mapOps) (b : Nat)
    (hb : b ∈ actorsWith Actor.stateConsumer c) (st : Stores P V) (t : Nat) (m : Msg P V) (t' : Nat) (p' : P) :
    shows ((notified b (push c st t m).2).getLast?.getD st) t' p' = shows (push c st t m).1 t' p' := by
  by_cases hup : m.isUpstream = true
  · have e : notified b (push c st t m).2 = [] := by
      rw [push_map c hc]
      unfold pushMain
      rw [hc]
      cases m <;> simp [Msg.isUpstream] at hup <;> simp only [Msg.isUpRead, mapOps, Msg.isUpstream, if_true, if_false,
        Bool.false_eq_true, List.nil_append]
      all_goals try exact notified_up ..
      split
      · exact notified_up ..
      · rfl
      · exact notified_down ..
      · exact notified_down ..
    rw [e, shows_push c hc, effect_upstream _ _ _ _ hup]
    rfl
  · have hread : m.isUpRead = false := by cases m <;> simp_all [Msg.isUpstream, Msg.isUpRead]
    by_cases hch : (MapStore.apply (st t) m).2 = true
    · have e : (notified b (push c st t m).2).getLast? = some (push c st t m).1 := by
        rw [push_map c hc]
        unfold pushMain
        rw [hc]
        simp only [hread, hup, mapOps, hch, if_true, if_false, Bool.false_eq_true, notified_append, notified_down,
          List.append_nil]
        exact notified_told c b hb _ t m.path
      rw [e]
      rfl
    · have e : notified b (push c st t m).2 = [] := by
        rw [push_map c hc]
        unfold pushMain
        rw [hc]
        simp only [hread, hup, mapOps, hch, if_false, Bool.false_eq_true, List.nil_append]
        exact notified_down ..
      have e2 : (MapStore.apply (st t) m).1 = st t := by
        cases m <;> simp_all [MapStore.apply, Msg.isUpstream]
        split <;> simp_all
      rw [e, push_stores c hc, e2]
      have e3 : setStore st t (st t) = st := by funext k; unfold setStore; split <;> simp_all
      rw [e3]
      rfl

theorem found_step (u : Setup P V) (hu : Legal u) (b i : Nat) (hb : b ∈ actorsWith Actor.stateConsumer u.client)
    (s : Sys P V) (c : Client P V) (hc : s.clients[i]? = some c) (x : Step P V) :
    ∃ c', (step u s x).clients[i]? = some c'
      ∧ ∀ t p, shows ((notified b (events u i s x)).getLast?.getD c.stores) t p = shows c'.stores t p := by
  have hpush : ∀ (s : Sys P V) (c : Client P V), s.clients[i]? = some c → ∀ t m,
      ∃ c', (serverPush u s t m).clients[i]? = some c' ∧ c'.stores = c.stores := by
    intro s c hc t m
    refine ⟨broadcast (downTo u.serverActor (push u.server s.server t m).2) c, ?_, ?_⟩
    · simp only [serverPush, List.getElem?_map, hc, Option.map_some]
    · unfold broadcast; split <;> rfl
  cases x with
  | join =>
    refine ⟨c, ?_, fun _ _ => rfl⟩
    simp only [step]
    rw [List.getElem?_append_left (List.getElem?_eq_some_iff.1 hc).1, hc]
  | leave j =>
    refine ⟨_, getElem?_modify_cases _ i j _ c hc, fun _ _ => ?_⟩
    split <;> rfl
  | produce t m =>
    obtain ⟨c', h1, h2⟩ := hpush s c hc t m
    exact ⟨c', h1, fun _ _ => by rw [h2]; rfl⟩
  | serve j =>
    simp only [step]
    split
    · rename_i a b' t m rest d he
      obtain ⟨c', h1, h2⟩ := hpush { s with clients := s.clients.modify j fun c => { c with outbox := rest } } _
        (getElem?_modify_cases _ i j _ c hc) t m
      refine ⟨c', h1, fun _ _ => ?_⟩
      rw [h2]
      split <;> rfl
    · exact ⟨c, hc, fun _ _ => rfl⟩
  | deliver j =>
    refine ⟨_, getElem?_modify_cases _ i j _ c hc, fun t' p' => ?_⟩
    by_cases hj : j = i
    · simp only [events, hj, if_true, hc]
      obtain ⟨st, inbox, outbox, reg⟩ := c
      cases inbox with
      | nil => rfl
      | cons w rest =>
        obtain ⟨t, m⟩ := w
        exact notified_push u.client hu.clientStores b hb st t m t' p'
    · simp only [events, hj, if_false]
      rfl
  | act j t m =>
    refine ⟨_, getElem?_modify_cases _ i j _ c hc, fun t' p' => ?_⟩
    by_cases hj : j = i
    · simp only [events, hj, if_true, hc]
      exact notified_push u.client hu.clientStores b hb c.stores t m t' p'
    · simp only [events, hj, if_false]
      rfl
  | look j t p =>
    refine ⟨_, getElem?_modify_cases _ i j _ c hc, fun t' p' => ?_⟩
    simp only [look_map u hu.clientStores, ite_self]
    by_cases hj : j = i
    · have e : (matchCtx u.client c.stores t p).2.1 = [] := by
        unfold matchCtx
        rw [hu.clientStores]
        simp only [mapOps]
        cases h : MapStore.view (c.stores t) p with
        | triggerRead => exact absurd h (Context.map_never_triggers _ _)
        | _ => rfl
      simp only [events, hj, if_true, hc, e]
      rfl
    · simp only [events, hj, if_false]
      rfl

theorem getLast_append_getD {α : Type} (a b : List α) (d : α) :
    (a ++ b).getLast?.getD d = b.getLast?.getD (a.getLast?.getD d) := by
  rw [List.getLast?_append]
  cases b.getLast? <;> simp

theorem found_run (u : Setup P V) (hu : Legal u) (b i : Nat) (hb : b ∈ actorsWith Actor.stateConsumer u.client) :
    ∀ (h : List (Step P V)) (s : Sys P V) (c : Client P V) (st : Stores P V), s.clients[i]? = some c →
      (∀ t p, shows st t p = shows c.stores t p) →
    ∃ c', (run u s h).clients[i]? = some c' ∧ ∀ t p, shows ((found u b i s h).getLast?.getD st) t p = shows c'.stores t p
  | [], s, c, st, hc, hst => ⟨c, hc, hst⟩
  | x :: h, s, c, st, hc, hst => by
    obtain ⟨c', h1, h2⟩ := found_step u hu b i hb s c hc x
    obtain ⟨c'', h3, h4⟩ := found_run u hu b i hb h (step u s x) c'
      ((notified b (events u i s x)).getLast?.getD st) h1 (fun t p => by
        rw [← h2]
        cases (notified b (events u i s x)).getLast? with
        | none => exact hst t p
        | some y => rfl)
    refine ⟨c'', h3, fun t p => ?_⟩
    rw [found, getLast_append_getD]
    exact h4 t p

end Nbdl.Screen
