import Verif.Nested.Lemmas
/-! In which order the calls and hearings of one kind are made. -/
namespace Nbdl.Nested
open MapStore (Msg View Payload)
open Context (Config Actor StoreOps Event setStore pushMain Lawful actorsWith towardsProducer)
open Spec
variable {A S P V : Type}

/-! ## In general -/

section general
variable (tgt : Task A P V → Option Nat) (safe : Task A P V → Prop) (got : Entry S P V → Option Nat)

/-- What comes before a target is safe, and there is one target at most. -/
def Tidy : List (Task A P V) → Prop
  | [] => True
  | x :: r => (∀ y ∈ r, tgt y = none) ∨ (tgt x = none ∧ safe x ∧ Tidy r)

theorem tidy_none (ts : List (Task A P V)) (h : ∀ y ∈ ts, tgt y = none) : Tidy tgt safe ts := by
  cases ts with
  | nil => trivial
  | cons x r => exact .inl fun y hy => h y (List.mem_cons_of_mem _ hy)

theorem tidy_append_none (ts r : List (Task A P V)) (h : Tidy tgt safe ts) (hr : ∀ y ∈ r, tgt y = none) :
    Tidy tgt safe (ts ++ r) := by
  induction ts with
  | nil => exact tidy_none tgt safe r hr
  | cons x ts ih =>
    rcases h with h | ⟨h1, h2, h3⟩
    · refine .inl fun y hy => ?_
      rcases List.mem_append.1 hy with hy | hy
      · exact h y hy
      · exact hr y hy
    · exact .inr ⟨h1, h2, ih h3⟩

theorem tidy_append_safe (ts r : List (Task A P V)) (h : ∀ y ∈ ts, tgt y = none ∧ safe y) (hr : Tidy tgt safe r) :
    Tidy tgt safe (ts ++ r) := by
  induction ts with
  | nil => exact hr
  | cons x ts ih =>
    exact .inr ⟨(h x List.mem_cons_self).1, (h x List.mem_cons_self).2,
      ih fun y hy => h y (List.mem_cons_of_mem _ hy)⟩

theorem ids_none (ts : List (Task A P V)) (h : ∀ y ∈ ts, tgt y = none) : ts.filterMap tgt = [] :=
  List.filterMap_eq_nil_iff.2 h

/-- The invariant. -/
structure Ord (s : State A S P V) : Prop where
  sorted : (s.world.log.filterMap got ++ s.tasks.filterMap tgt).Pairwise (· < ·)
  old : ∀ i ∈ s.world.log.filterMap got, i < s.world.next
  tidy : Tidy tgt safe s.tasks

/-- What is needed of the steps. -/
structure Keeps (c : Config S P V) (code : Code A P V) : Prop where
  next : ∀ w x, w.next ≤ (exec c code w x).1.next
  calm : ∀ w x, tgt x = none → safe x → ∀ y ∈ (exec c code w x).2, tgt y = none ∧ safe y
  other : ∀ w x, tgt x = none → (exec c code w x).1.log.filterMap got = w.log.filterMap got
    ∧ Tidy tgt safe (exec c code w x).2
    ∧ ((exec c code w x).2.filterMap tgt = [] ∨ (exec c code w x).2.filterMap tgt = [w.next])
  target : ∀ w x i, tgt x = some i → i < w.next →
    (exec c code w x).1.log.filterMap got = w.log.filterMap got ++ [i]
    ∧ (∀ y ∈ (exec c code w x).2, tgt y = none) ∧ (exec c code w x).1.next = w.next

theorem ord_exec (c : Config S P V) (code : Code A P V) (hk : Keeps tgt safe got c code) (w : World A S P V)
    (x : Task A P V) (r : List (Task A P V)) (hx : ∀ i, tgt x = some i → i < w.next)
    (h : Ord tgt safe got ⟨w, x :: r⟩) :
    Ord tgt safe got ⟨(exec c code w x).1, (exec c code w x).2 ++ r⟩ := by
  have hs : (w.log.filterMap got ++ (x :: r).filterMap tgt).Pairwise (· < ·) := h.sorted
  have ho : ∀ i ∈ w.log.filterMap got, i < w.next := h.old
  have ht : Tidy tgt safe (x :: r) := h.tidy
  cases hc : tgt x with
  | some i =>
    have hr : ∀ y ∈ r, tgt y = none := by
      rcases ht with hr | ⟨h1, -, -⟩
      · exact hr
      · rw [hc] at h1; cases h1
    obtain ⟨h1, h2, h3⟩ := hk.target w x i hc (hx i hc)
    have hall : ∀ y ∈ (exec c code w x).2 ++ r, tgt y = none := by
      intro y hy
      rcases List.mem_append.1 hy with hy | hy
      · exact h2 y hy
      · exact hr y hy
    have e1 : (x :: r).filterMap tgt = [i] := by
      rw [List.filterMap_cons, hc, ids_none tgt r hr]
    rw [e1] at hs
    refine ⟨?_, ?_, tidy_none tgt safe _ hall⟩
    · show ((exec c code w x).1.log.filterMap got ++ ((exec c code w x).2 ++ r).filterMap tgt).Pairwise (· < ·)
      rw [h1, ids_none tgt _ hall, List.append_nil]
      exact hs
    · show ∀ j ∈ (exec c code w x).1.log.filterMap got, j < (exec c code w x).1.next
      rw [h1, h3]
      intro j hj
      rcases List.mem_append.1 hj with hj | hj
      · exact ho j hj
      · rw [List.mem_singleton.1 hj]; exact hx i hc
  | none =>
    obtain ⟨h1, h2, h3⟩ := hk.other w x hc
    have hold : ∀ j ∈ (exec c code w x).1.log.filterMap got, j < (exec c code w x).1.next := by
      rw [h1]
      intro j hj
      exact Nat.lt_of_lt_of_le (ho j hj) (hk.next w x)
    have e1 : (x :: r).filterMap tgt = r.filterMap tgt := by rw [List.filterMap_cons, hc]
    rw [e1] at hs
    rcases ht with hr | ⟨-, h5, h6⟩
    · refine ⟨?_, hold, tidy_append_none tgt safe _ _ h2 hr⟩
      show ((exec c code w x).1.log.filterMap got ++ ((exec c code w x).2 ++ r).filterMap tgt).Pairwise (· < ·)
      rw [h1, List.filterMap_append, ids_none tgt r hr, List.append_nil]
      rw [ids_none tgt r hr, List.append_nil] at hs
      rcases h3 with h3 | h3
      · rw [h3, List.append_nil]; exact hs
      · rw [h3, List.pairwise_append]
        refine ⟨hs, List.pairwise_singleton _ _, fun i hi j hj => ?_⟩
        rw [List.mem_singleton.1 hj]
        exact ho i hi
    · have hsafe := hk.calm w x hc h5
      refine ⟨?_, hold, tidy_append_safe tgt safe _ _ hsafe h6⟩
      show ((exec c code w x).1.log.filterMap got ++ ((exec c code w x).2 ++ r).filterMap tgt).Pairwise (· < ·)
      rw [h1, List.filterMap_append, ids_none tgt _ fun y hy => (hsafe y hy).1, List.nil_append]
      exact hs

theorem ord_run (c : Config S P V) (code : Code A P V) (hk : Keeps tgt safe got c code)
    (ht : ∀ n x i, Old n x → tgt x = some i → i < n)
    (st : Nat → S) (a : A) (q : Prog A P V) (hq : tgt (.prog q) = none) (n : Nat) :
    ((run c code n (start st a q)).world.log.filterMap got).Pairwise (· < ·) := by
  have h := (run_inv c code (fun s => Ord tgt safe got s ∧ Inv c s) ?_ n (start st a q)
    ⟨⟨?_, ?_, ?_⟩, inv_start c st a q⟩).1.sorted
  · exact (List.pairwise_append.1 h).1
  · rintro w x r ⟨h, hi⟩
    exact ⟨ord_exec tgt safe got c code hk w x r (fun i => ht _ _ i (hi.old x List.mem_cons_self)) h,
      inv_exec c code w x r hi⟩
  · show ([] ++ [Task.prog q].filterMap tgt).Pairwise (· < ·)
    simp [hq]
  · intro i hi; exact absurd hi (by simp [start])
  · exact .inl fun y hy => nomatch hy

end general

theorem exec_next (c : Config S P V) (code : Code A P V) (w : World A S P V) (x : Task A P V) :
    w.next ≤ (exec c code w x).1.next := by
  match x with
  | .prog .done => exact Nat.le_refl _
  | .prog (.get k) => exact Nat.le_refl _
  | .prog (.put a k) => exact Nat.le_refl _
  | .prog (.push t m k) => exact Nat.le_refl _
  | .prog (.submit t m k) => exact Nat.le_refl _
  | .prog (.look t p k) =>
    by_cases hv : (c.ops t).view (w.stores t) p = .triggerRead
    · rw [exec_look_trigger c code w t p k hv]; exact Nat.le_refl _
    · rw [exec_look_other c code w t p k hv]; exact Nat.le_refl _
  | .push t m => exact Nat.le_succ _
  | .submit t m => exact Nat.le_succ _
  | .call i src a => exact Nat.le_refl _
  | .listen i l t m => exact Nat.le_refl _

/-! ## What a consumer is sent -/

/-- The message for consumer `a`. -/
def tgtDown (a : Nat) : Task A P V → Option Nat
  | .call i none (.down b _ _) => if b = a then some i else none
  | _ => none

def gotDown (a : Nat) : Entry S P V → Option Nat
  | .called i none (.down b _ _) _ => if b = a then some i else none
  | _ => none

/-- Tasks that push nothing. -/
def safeQuiet (c : Config S P V) (code : Code A P V) : Task A P V → Prop
  | .prog q => Quiet c q
  | .call _ _ b => Quiet c (code b)
  | _ => False

theorem sentTo_eq (a : Nat) (log : List (Entry S P V)) : sentTo a log = log.filterMap (gotDown a) := by
  unfold sentTo
  congr 1

theorem actorsWith_sorted (f : Actor → Bool) (c : Config S P V) : (actorsWith f c).Pairwise (· < ·) :=
  List.Pairwise.sublist List.filter_sublist List.pairwise_lt_range

theorem tidy_downs (c : Config S P V) (code : Code A P V) (a n t : Nat) (m : Msg P V)
    (l : List Nat) (hq : ∀ b ∈ l, b < a → Quiet c (code (.down b t m))) (hl : l.Pairwise (· < ·)) :
    Tidy (tgtDown a) (safeQuiet c code) (l.map fun b => Task.call n none (.down b t m))
    ∧ ((l.map fun b => Task.call (A := A) n none (.down b t m)).filterMap (tgtDown a) = []
      ∨ (l.map fun b => Task.call (A := A) n none (.down b t m)).filterMap (tgtDown a) = [n]) := by
  induction l with
  | nil => exact ⟨trivial, .inl rfl⟩
  | cons b l ih =>
    obtain ⟨hb, hl'⟩ := List.pairwise_cons.1 hl
    obtain ⟨ih1, ih2⟩ := ih (fun d h => hq d (List.mem_cons_of_mem _ h)) hl'
    have hrest : a ≤ b → ∀ y ∈ l.map (fun b => Task.call (A := A) n none (.down b t m)), tgtDown a y = none := by
      intro hab y hy
      obtain ⟨b', hb', rfl⟩ := List.mem_map.1 hy
      have : b' ≠ a := fun h => by have := hb b' hb'; omega
      simp only [tgtDown, if_neg this]
    by_cases hba : b = a
    · have hr := hrest (by omega)
      refine ⟨.inl hr, .inr ?_⟩
      have e1 : tgtDown a (Task.call (A := A) n none (.down b t m)) = some n := by simp only [tgtDown, if_pos hba]
      rw [List.map_cons, List.filterMap_cons, e1]
      rw [ids_none _ _ hr]
    · have e1 : tgtDown a (Task.call (A := A) n none (.down b t m)) = none := by simp only [tgtDown, if_neg hba]
      refine ⟨?_, ?_⟩
      · rcases Nat.lt_or_ge b a with hlt | hge
        · exact .inr ⟨e1, hq b (List.mem_cons_self ..) hlt, ih1⟩
        · exact .inl (hrest hge)
      · rw [List.map_cons, List.filterMap_cons, e1]
        exact ih2

theorem keeps_down (c : Config S P V) (hl : ∀ t, Lawful (c.ops t)) (code : Code A P V) (a : Nat)
    (hn : ∀ b ∈ actorsWith Actor.stateConsumer c, ∀ t p, Quiet c (code (.notify b t p)))
    (hd : ∀ b ∈ actorsWith Actor.consumer c, b < a → ∀ t m, Quiet c (code (.down b t m))) :
    Keeps (tgtDown a) (safeQuiet c code) (gotDown a) c code := by
  refine ⟨exec_next c code, ?_, ?_, ?_⟩
  · intro w x hx hs y hy
    match x, hs, hy with
    | .prog .done, hs, hy => cases hy
    | .prog (.get k), hs, hy =>
      rw [List.mem_singleton.1 hy]
      refine ⟨rfl, ?_⟩
      cases hs with
      | get h => exact h _
    | .prog (.put b k), hs, hy =>
      rw [List.mem_singleton.1 hy]
      refine ⟨rfl, ?_⟩
      cases hs with
      | put h => exact h
    | .prog (.push _ _ _), hs, hy => cases hs
    | .prog (.submit _ _ _), hs, hy => cases hs
    | .prog (.look t p k), hs, hy =>
      cases hs with
      | look hv h =>
        rw [exec_look_other c code w t p k (hv _)] at hy
        rw [List.mem_singleton.1 hy]
        exact ⟨rfl, h _⟩
    | .call i src b, hs, hy =>
      rw [List.mem_singleton.1 hy]
      exact ⟨rfl, hs⟩
  · intro w x hx
    have logs : ∀ es : List (Entry S P V), (∀ e ∈ es, gotDown a e = none) →
        (w.log ++ es).filterMap (gotDown a) = w.log.filterMap (gotDown a) := by
      intro es h
      rw [List.filterMap_append, List.filterMap_eq_nil_iff.2 h, List.append_nil]
    have single : ∀ y : Task A P V, tgtDown a y = none →
        Tidy (tgtDown a) (safeQuiet c code) [y] ∧ ([y].filterMap (tgtDown a) = [] ∨ [y].filterMap (tgtDown a) = [w.next]) := by
      intro y hy
      exact ⟨tidy_none _ _ _ fun z hz => by rw [List.mem_singleton.1 hz]; exact hy,
        .inl (ids_none _ _ fun z hz => by rw [List.mem_singleton.1 hz]; exact hy)⟩
    have double : ∀ y y' : Task A P V, tgtDown a y = none → tgtDown a y' = none →
        Tidy (tgtDown a) (safeQuiet c code) [y, y']
        ∧ ([y, y'].filterMap (tgtDown a) = [] ∨ [y, y'].filterMap (tgtDown a) = [w.next]) := by
      intro y y' hy hy'
      have : ∀ z ∈ [y, y'], tgtDown a z = none := by
        intro z hz
        rcases List.mem_cons.1 hz with rfl | hz
        · exact hy
        · rw [List.mem_singleton.1 hz]; exact hy'
      exact ⟨tidy_none _ _ _ this, .inl (ids_none _ _ this)⟩
    match x, hx with
    | .prog .done, _ => exact ⟨rfl, trivial, .inl rfl⟩
    | .prog (.get k), _ => exact ⟨rfl, single (.prog (k w.vars)) rfl⟩
    | .prog (.put b k), _ => exact ⟨rfl, single (.prog k) rfl⟩
    | .prog (.push t m k), _ => exact ⟨rfl, double (.push t m) (.prog k) rfl rfl⟩
    | .prog (.submit t m k), _ => exact ⟨rfl, double (.submit t m) (.prog k) rfl rfl⟩
    | .prog (.look t p k), _ =>
      by_cases hv : (c.ops t).view (w.stores t) p = .triggerRead
      · rw [exec_look_trigger c code w t p k hv]; exact ⟨rfl, double (.push t (.upRead p)) (.prog (k .unresolved)) rfl rfl⟩
      · rw [exec_look_other c code w t p k hv]; exact ⟨rfl, single (.prog _) rfl⟩
    | .submit t m, _ =>
      exact ⟨logs [.submitted w.next t m] (fun e he => by rw [List.mem_singleton.1 he]; rfl), single (.call w.next none (.up (c.producerOf t) t m)) rfl⟩
    | .call i src b, hx =>
      refine ⟨logs [.called i src b w.stores] (fun e he => ?_), single (.prog (code b)) rfl⟩
      rw [List.mem_singleton.1 he]
      cases src with
      | some l => rfl
      | none =>
        cases b with
        | up _ _ _ => rfl
        | notify _ _ _ => rfl
        | down b t m =>
          by_cases hb : b = a
          · simp only [tgtDown, if_pos hb] at hx; cases hx
          · simp only [gotDown, if_neg hb]
    | .listen i l t m, _ =>
      refine ⟨logs [.heard i l t m w.stores] (fun e he => by rw [List.mem_singleton.1 he]; rfl), ?_⟩
      have : ∀ y ∈ (exec c code w (.listen i l t m)).2, tgtDown a y = none := by
        intro y hy
        obtain ⟨b, -, rfl⟩ := List.mem_map.1 hy
        rfl
      exact ⟨tidy_none _ _ _ this, .inl (ids_none _ _ this)⟩
    | .push t m, _ =>
      refine ⟨logs [.pushed w.next t m w.stores] (fun e he => by rw [List.mem_singleton.1 he]; rfl), ?_⟩
      have hlis : ∀ y ∈ (c.listeners t).map (fun l => Task.listen (A := A) w.next l t m), tgtDown a y = none := by
        intro y hy
        obtain ⟨b, -, rfl⟩ := List.mem_map.1 hy
        rfl
      have hmain : Tidy (tgtDown a) (safeQuiet c code) ((mainCalls c w.stores t m).map (Task.call w.next none))
          ∧ (((mainCalls c w.stores t m).map (Task.call (A := A) w.next none)).filterMap (tgtDown a) = []
            ∨ ((mainCalls c w.stores t m).map (Task.call (A := A) w.next none)).filterMap (tgtDown a) = [w.next]) := by
        have downs : ∀ (m' : Msg P V), Tidy (tgtDown a) (safeQuiet c code)
              (((actorsWith Actor.consumer c).map fun b => Call.down b t m').map (Task.call w.next none))
            ∧ ((((actorsWith Actor.consumer c).map fun b => Call.down b t m').map (Task.call (A := A) w.next none)).filterMap (tgtDown a) = []
              ∨ (((actorsWith Actor.consumer c).map fun b => Call.down b t m').map (Task.call (A := A) w.next none)).filterMap (tgtDown a) = [w.next]) := by
          intro m'
          have := tidy_downs c code a w.next t m' _ (fun b hm hb => hd b hm hb t m') (actorsWith_sorted Actor.consumer c)
          rw [List.map_map]
          exact this
        cases hm : m.isUpRead
        · rw [(mainCalls_write c w.stores t m hm (hl t)).2, writeCalls, List.map_append]
          have hns : ∀ y ∈ (if ((c.ops t).apply (w.stores t) m).2 = true then
              (actorsWith Actor.stateConsumer c).map fun b => Call.notify b t m.path else []).map (Task.call w.next none),
              tgtDown a y = none ∧ safeQuiet c code y := by
            intro y hy
            split at hy
            · obtain ⟨z, hz, rfl⟩ := List.mem_map.1 hy
              obtain ⟨b, hb, rfl⟩ := List.mem_map.1 hz
              exact ⟨rfl, hn b hb _ _⟩
            · cases hy
          have hrest : Tidy (tgtDown a) (safeQuiet c code)
              ((if towardsProducer m = true then [Call.up (c.producerOf t) t m]
                else (actorsWith Actor.consumer c).map fun b => Call.down b t m).map (Task.call w.next none))
              ∧ (((if towardsProducer m = true then [Call.up (c.producerOf t) t m]
                else (actorsWith Actor.consumer c).map fun b => Call.down b t m).map (Task.call (A := A) w.next none)).filterMap (tgtDown a) = []
              ∨ ((if towardsProducer m = true then [Call.up (c.producerOf t) t m]
                else (actorsWith Actor.consumer c).map fun b => Call.down b t m).map (Task.call (A := A) w.next none)).filterMap (tgtDown a) = [w.next]) := by
            split
            · exact single (.call w.next none (.up (c.producerOf t) t m)) rfl
            · exact downs m
          refine ⟨tidy_append_safe _ _ _ _ hns hrest.1, ?_⟩
          rw [List.filterMap_append, ids_none (tgtDown a) _ fun y hy => (hns y hy).1, List.nil_append]
          exact hrest.2
        · cases m with
          | upRead p =>
            rw [(mainCalls_read c w.stores t p).2]
            cases (c.ops t).view ((c.ops t).apply (w.stores t) (.upRead p)).1 p with
            | triggerRead => exact single (.call w.next none (.up (c.producerOf t) t (.upRead p))) rfl
            | unresolved => exact ⟨trivial, .inl rfl⟩
            | value v => exact downs _
            | notInSet => exact downs _
          | _ => cases hm
      refine ⟨tidy_append_none _ _ _ _ hmain.1 hlis, ?_⟩
      show List.filterMap (tgtDown a) (_ ++ _) = [] ∨ List.filterMap (tgtDown a) (_ ++ _) = [w.next]
      rw [List.filterMap_append, ids_none (tgtDown a) _ hlis, List.append_nil]
      exact hmain.2
  · intro w x i hx hi
    match x, hx with
    | .call j none (.down b t m), hx =>
      have hb : b = a := by
        by_cases hb : b = a
        · exact hb
        · simp only [tgtDown, if_neg hb] at hx; cases hx
      have hji : j = i := by
        simp only [tgtDown, if_pos hb] at hx; injection hx
      refine ⟨?_, ?_, rfl⟩
      · show (w.log ++ [Entry.called j none (.down b t m) w.stores]).filterMap (gotDown a) = _
        have e : gotDown a (Entry.called j none (.down b t m) w.stores) = some i := by
          simp only [gotDown, if_pos hb, hji]
        rw [List.filterMap_append, List.filterMap_cons, e]; rfl
      · intro y hy
        rw [List.mem_singleton.1 hy]; rfl

theorem tgtDown_old (a n : Nat) (x : Task A P V) (i : Nat) (hx : Old n x) (h : tgtDown a x = some i) : i < n := by
  match x, hx, h with
  | .call j none (.down b t m), hx, h =>
    by_cases hb : b = a
    · simp only [tgtDown, if_pos hb] at h
      injection h with h
      rw [← h]; exact hx
    · simp only [tgtDown, if_neg hb] at h; cases h

/-! ## What a listening store is shown -/

def tgtListen (l t : Nat) : Task A P V → Option Nat
  | .listen i l' t' _ => if l' = l ∧ t' = t then some i else none
  | _ => none

def gotHeard (l t : Nat) : Entry S P V → Option Nat
  | .heard i l' t' _ _ => if l' = l ∧ t' = t then some i else none
  | _ => none

/-- Tasks that push nothing of type `t`. -/
def safeAvoids (c : Config S P V) (t : Nat) : Task A P V → Prop
  | .prog q => Avoids c t q
  | .push u _ => u ≠ t
  | _ => True

theorem heardBy_eq (l t : Nat) (log : List (Entry S P V)) : heardBy l t log = log.filterMap (gotHeard l t) := by
  unfold heardBy
  congr 1

theorem tidy_listens (c : Config S P V) (l t n : Nat) (m : Msg P V) (ls : List Nat) (hl : ls.Nodup) :
    Tidy (tgtListen l t) (safeAvoids c t) (ls.map fun l' => Task.listen (A := A) n l' t m)
    ∧ ((ls.map fun l' => Task.listen (A := A) n l' t m).filterMap (tgtListen l t) = []
      ∨ (ls.map fun l' => Task.listen (A := A) n l' t m).filterMap (tgtListen l t) = [n]) := by
  induction ls with
  | nil => exact ⟨trivial, .inl rfl⟩
  | cons b ls ih =>
    obtain ⟨hb, hl'⟩ := List.nodup_cons.1 hl
    obtain ⟨ih1, ih2⟩ := ih hl'
    by_cases hbl : b = l
    · have hr : ∀ y ∈ ls.map (fun l' => Task.listen (A := A) n l' t m), tgtListen l t y = none := by
        intro y hy
        obtain ⟨b', hb', rfl⟩ := List.mem_map.1 hy
        have : ¬ (b' = l ∧ t = t) := fun h => hb (by rw [hbl, ← h.1]; exact hb')
        exact if_neg this
      refine ⟨.inl hr, .inr ?_⟩
      have e1 : tgtListen l t (Task.listen (A := A) n b t m) = some n := by
        exact if_pos ⟨hbl, rfl⟩
      rw [List.map_cons, List.filterMap_cons, e1]
      rw [ids_none _ _ hr]
    · have e1 : tgtListen l t (Task.listen (A := A) n b t m) = none := by
        have : ¬ (b = l ∧ t = t) := fun h => hbl h.1
        exact if_neg this
      refine ⟨.inr ⟨e1, trivial, ih1⟩, ?_⟩
      rw [List.map_cons, List.filterMap_cons, e1]
      exact ih2

theorem keeps_listen (c : Config S P V) (code : Code A P V) (l t : Nat)
    (hcode : ∀ b, Avoids c t (code b)) (hls : (c.listeners t).Nodup) :
    Keeps (tgtListen l t) (safeAvoids c t) (gotHeard l t) c code := by
  have calls : ∀ (i : Nat) (src : Option Nat) (bs : List (Call P V)), ∀ y ∈ bs.map (Task.call (A := A) i src),
      tgtListen l t y = none ∧ safeAvoids c t y := by
    intro i src bs y hy
    obtain ⟨b, -, rfl⟩ := List.mem_map.1 hy
    exact ⟨rfl, trivial⟩
  refine ⟨exec_next c code, ?_, ?_, ?_⟩
  · intro w x hx hs y hy
    match x, hx, hs, hy with
    | .prog .done, _, hs, hy => cases hy
    | .prog (.get k), _, hs, hy =>
      rw [List.mem_singleton.1 hy]
      refine ⟨rfl, ?_⟩
      cases hs with
      | get h => exact h _
    | .prog (.put b k), _, hs, hy =>
      rw [List.mem_singleton.1 hy]
      refine ⟨rfl, ?_⟩
      cases hs with
      | put h => exact h
    | .prog (.push u m k), _, hs, hy =>
      cases hs with
      | push hu h =>
        rcases List.mem_cons.1 hy with rfl | hy
        · exact ⟨rfl, hu⟩
        · rw [List.mem_singleton.1 hy]; exact ⟨rfl, h⟩
    | .prog (.submit u m k), _, hs, hy =>
      cases hs with
      | submit h =>
        rcases List.mem_cons.1 hy with rfl | hy
        · exact ⟨rfl, trivial⟩
        · rw [List.mem_singleton.1 hy]; exact ⟨rfl, h⟩
    | .prog (.look u p k), _, hs, hy =>
      cases hs with
      | look hv h =>
        by_cases hv' : (c.ops u).view (w.stores u) p = .triggerRead
        · have hut : u ≠ t := by
            rcases hv with hv | hv
            · exact hv
            · exact absurd hv' (hv _)
          rw [exec_look_trigger c code w u p k hv'] at hy
          rcases List.mem_cons.1 hy with rfl | hy
          · exact ⟨rfl, hut⟩
          · rw [List.mem_singleton.1 hy]; exact ⟨rfl, h _⟩
        · rw [exec_look_other c code w u p k hv'] at hy
          rw [List.mem_singleton.1 hy]
          exact ⟨rfl, h _⟩
    | .push u m, _, hs, hy =>
      rcases List.mem_append.1 hy with hy | hy
      · exact calls _ _ _ y hy
      · obtain ⟨b, -, rfl⟩ := List.mem_map.1 hy
        have : ¬ (b = l ∧ u = t) := fun h => hs h.2
        exact ⟨by simp only [tgtListen, if_neg this], trivial⟩
    | .submit u m, _, hs, hy => rw [List.mem_singleton.1 hy]; exact ⟨rfl, trivial⟩
    | .call i src b, _, hs, hy => rw [List.mem_singleton.1 hy]; exact ⟨rfl, hcode b⟩
    | .listen i l' u m, _, hs, hy => exact calls _ _ _ y hy
  · intro w x hx
    have logs : ∀ es : List (Entry S P V), (∀ e ∈ es, gotHeard l t e = none) →
        (w.log ++ es).filterMap (gotHeard l t) = w.log.filterMap (gotHeard l t) := by
      intro es h
      rw [List.filterMap_append, List.filterMap_eq_nil_iff.2 h, List.append_nil]
    have nones : ∀ ys : List (Task A P V), (∀ y ∈ ys, tgtListen l t y = none) →
        Tidy (tgtListen l t) (safeAvoids c t) ys
        ∧ (ys.filterMap (tgtListen l t) = [] ∨ ys.filterMap (tgtListen l t) = [w.next]) :=
      fun ys h => ⟨tidy_none _ _ _ h, .inl (ids_none _ _ h)⟩
    have single : ∀ y : Task A P V, tgtListen l t y = none → ∀ z ∈ [y], tgtListen l t z = none :=
      fun y hy z hz => by rw [List.mem_singleton.1 hz]; exact hy
    have double : ∀ y y' : Task A P V, tgtListen l t y = none → tgtListen l t y' = none →
        ∀ z ∈ [y, y'], tgtListen l t z = none := by
      intro y y' hy hy' z hz
      rcases List.mem_cons.1 hz with rfl | hz
      · exact hy
      · rw [List.mem_singleton.1 hz]; exact hy'
    match x, hx with
    | .prog .done, _ => exact ⟨rfl, trivial, .inl rfl⟩
    | .prog (.get k), _ => exact ⟨rfl, nones _ (single (.prog (k w.vars)) rfl)⟩
    | .prog (.put b k), _ => exact ⟨rfl, nones _ (single (.prog k) rfl)⟩
    | .prog (.push u m k), _ => exact ⟨rfl, nones _ (double (.push u m) (.prog k) rfl rfl)⟩
    | .prog (.submit u m k), _ => exact ⟨rfl, nones _ (double (.submit u m) (.prog k) rfl rfl)⟩
    | .prog (.look u p k), _ =>
      by_cases hv : (c.ops u).view (w.stores u) p = .triggerRead
      · rw [exec_look_trigger c code w u p k hv]; exact ⟨rfl, nones _ (double (.push u (.upRead p)) (.prog (k .unresolved)) rfl rfl)⟩
      · rw [exec_look_other c code w u p k hv]; exact ⟨rfl, nones _ (single (.prog _) rfl)⟩
    | .submit u m, _ =>
      exact ⟨logs [.submitted w.next u m] (fun e he => by rw [List.mem_singleton.1 he]; rfl), nones _ (single (.call w.next none (.up (c.producerOf u) u m)) rfl)⟩
    | .call i src b, _ =>
      exact ⟨logs [.called i src b w.stores] (fun e he => by rw [List.mem_singleton.1 he]; rfl), nones _ (single (.prog (code b)) rfl)⟩
    | .listen i l' u m, hx =>
      refine ⟨logs [.heard i l' u m w.stores] (fun e he => ?_), nones _ fun y hy => (calls _ _ _ y hy).1⟩
      rw [List.mem_singleton.1 he]
      by_cases hb : l' = l ∧ u = t
      · simp only [tgtListen, if_pos hb] at hx; cases hx
      · simp only [gotHeard, if_neg hb]
    | .push u m, _ =>
      refine ⟨logs [.pushed w.next u m w.stores] (fun e he => by rw [List.mem_singleton.1 he]; rfl), ?_⟩
      have hcs := calls w.next none (mainCalls c w.stores u m)
      by_cases hut : u = t
      · subst hut
        have hL := tidy_listens (A := A) c l u w.next m (c.listeners u) hls
        refine ⟨tidy_append_safe _ _ _ _ hcs hL.1, ?_⟩
        show List.filterMap (tgtListen l u) (_ ++ _) = [] ∨ List.filterMap (tgtListen l u) (_ ++ _) = [w.next]
        rw [List.filterMap_append, ids_none (tgtListen l u) _ fun y hy => (hcs y hy).1, List.nil_append]
        exact hL.2
      · refine nones _ fun y hy => ?_
        rcases List.mem_append.1 hy with hy | hy
        · exact (hcs y hy).1
        · obtain ⟨b, -, rfl⟩ := List.mem_map.1 hy
          have : ¬ (b = l ∧ u = t) := fun h => hut h.2
          simp only [tgtListen, if_neg this]
  · intro w x i hx hi
    match x, hx with
    | .listen j l' u m, hx =>
      by_cases hb : l' = l ∧ u = t
      · have hji : j = i := by
          simp only [tgtListen, if_pos hb] at hx; injection hx
        refine ⟨?_, fun y hy => (calls _ _ _ y hy).1, rfl⟩
        show (w.log ++ [Entry.heard j l' u m w.stores]).filterMap (gotHeard l t) = _
        have e : gotHeard l t (Entry.heard j l' u m w.stores) = some i := by
          simp only [gotHeard, if_pos hb, hji]
        rw [List.filterMap_append, List.filterMap_cons, e]; rfl
      · simp only [tgtListen, if_neg hb] at hx; cases hx

theorem tgtListen_old (l t n : Nat) (x : Task A P V) (i : Nat) (hx : Old n x) (h : tgtListen l t x = some i) :
    i < n := by
  match x, hx, h with
  | .listen j l' u m, hx, h =>
    by_cases hb : l' = l ∧ u = t
    · simp only [tgtListen, if_pos hb] at h
      injection h with h
      rw [← h]; exact hx
    · simp only [tgtListen, if_neg hb] at h; cases h

end Nbdl.Nested
