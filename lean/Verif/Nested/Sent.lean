import Verif.Nested.Turn
/-!
# When exactly a consumer gets messages in order (C118)
-/
namespace Nbdl.Nested
open MapStore (Msg View Payload Map)
open Context (Config Actor StoreOps Lawful actorsWith)
open Spec
variable {A S P V : Type}

/-- Whenever a message was pushed that consumer `b` is sent, `b` had been sent all those that were pushed before (those
with smaller numbers). -/
def Spec.SentInTurn (b : Nat) (log : List (Entry S P V)) : Prop :=
  ∀ (before after : List (Entry S P V)) (i t : Nat) (m : Msg P V) (st : Nat → S),
    log = before ++ .pushed i t m st :: after → i ∈ sentTo b log →
    ∀ k ∈ sentTo b log, k < i → k ∈ sentTo b before

/-! ## The calls of consumer `b` -/

/-- The calls that send consumer `b` a message. -/
def downs (b : Nat) (cs : List (Call P V)) : List Unit :=
  cs.filterMap fun x => match x with
    | .down d _ _ => if d = b then some () else none
    | _ => none

/-- The messages that consumer `b` is going to be sent by what is left to do. -/
def sending (b : Nat) (ts : List (Task A P V)) : List Nat :=
  ts.filterMap fun x => match x with
    | .call i none (.down d _ _) => if d = b then some i else none
    | _ => none

/-- The pushes whose messages go to consumer `b`. -/
def pushedFor (c : Config S P V) (b : Nat) (log : List (Entry S P V)) : List Nat :=
  log.flatMap fun e => match e with
    | .pushed i t m st => (downs b (mainCalls c st t m)).map fun _ => i
    | _ => []

/-- The numbers of all pushes. -/
def numbers (log : List (Entry S P V)) : List Nat :=
  log.filterMap fun e => match e with
    | .pushed i _ _ _ => some i
    | _ => none

theorem sending_append (b : Nat) (xs ys : List (Task A P V)) :
    sending b (xs ++ ys) = sending b xs ++ sending b ys := List.filterMap_append

theorem sentTo_append (b : Nat) (x y : List (Entry S P V)) : sentTo b (x ++ y) = sentTo b x ++ sentTo b y :=
  List.filterMap_append

theorem numbers_append (x y : List (Entry S P V)) : numbers (x ++ y) = numbers x ++ numbers y :=
  List.filterMap_append

theorem pushedFor_append (c : Config S P V) (b : Nat) (x y : List (Entry S P V)) :
    pushedFor c b (x ++ y) = pushedFor c b x ++ pushedFor c b y := List.flatMap_append

theorem sending_calls (b i : Nat) : ∀ cs : List (Call P V),
    sending (A := A) b (cs.map (.call i none)) = (downs b cs).map fun _ => i
  | [] => rfl
  | x :: cs => by
    have ih := sending_calls b i cs
    cases x with
    | down d u m => by_cases h : d = b <;> simpa [sending, downs, h] using ih
    | up d u m => simpa [sending, downs] using ih
    | notify d u p => simpa [sending, downs] using ih

theorem sending_marked (b i l : Nat) (cs : List (Call P V)) :
    sending (A := A) b (cs.map (.call i (some l))) = [] := by
  induction cs with
  | nil => rfl
  | cons a cs ih => simpa [sending] using ih

theorem sending_listens (b i t : Nat) (m : Msg P V) (ls : List Nat) :
    sending (A := A) b (ls.map fun l => .listen i l t m) = [] := by
  induction ls with
  | nil => rfl
  | cons a ls ih => simpa [sending] using ih

theorem downs_notify (b t : Nat) (p : P) (as : List Nat) :
    downs b (as.map fun a => (Call.notify a t p : Call P V)) = [] := by
  induction as with
  | nil => rfl
  | cons a as ih => simpa [downs] using ih

theorem downs_consumers (b t : Nat) (m : Msg P V) : ∀ as : List Nat, as.Nodup →
    (downs b (as.map fun a => (Call.down a t m : Call P V))).length = if b ∈ as then 1 else 0
  | [], _ => rfl
  | a :: as, h => by
    obtain ⟨ha, hn⟩ := List.nodup_cons.1 h
    have ih := downs_consumers b t m as hn
    by_cases hab : a = b
    · subst hab
      rw [if_neg ha] at ih
      simpa [downs] using ih
    · have hba : b ≠ a := fun e => hab e.symm
      simpa [downs, hab, hba] using ih

/-- A push sends a consumer at most one message. -/
theorem downs_one (c : Config S P V) (hl : ∀ t, Lawful (c.ops t)) (b : Nat) (st : Nat → S) (t : Nat) (m : Msg P V) :
    (downs b (mainCalls c st t m)).length ≤ 1 := by
  have hnd : (actorsWith Actor.consumer c).Nodup :=
    (actorsWith_sorted Actor.consumer c).imp fun h => Nat.ne_of_lt h
  have hcon : ∀ m' : Msg P V, (downs b ((actorsWith Actor.consumer c).map fun a => (Call.down a t m' : Call P V))).length ≤ 1 := by
    intro m'
    rw [downs_consumers b t m' _ hnd]
    split <;> omega
  cases hr : m.isUpRead with
  | true =>
    obtain ⟨p, rfl⟩ : ∃ p, m = .upRead p := by cases m <;> simp [Msg.isUpRead] at hr ⊢
    rw [(mainCalls_read c st t p).2]
    cases (c.ops t).view ((c.ops t).apply (st t) (.upRead p)).1 p with
    | triggerRead => simp [readCalls, downs]
    | unresolved => simp [readCalls, downs]
    | value w => exact hcon _
    | notInSet => exact hcon _
  | false =>
    rw [(mainCalls_write c st t m hr (hl t)).2, writeCalls]
    have h1 : downs b (if ((c.ops t).apply (st t) m).2 = true then
        (actorsWith Actor.stateConsumer c).map fun a => (Call.notify a t m.path : Call P V) else []) = [] := by
      split
      · exact downs_notify b t _ _
      · rfl
    have h2 : ∀ x y : List (Call P V), downs b (x ++ y) = downs b x ++ downs b y := fun _ _ => List.filterMap_append
    rw [h2, h1, List.nil_append]
    split
    · simp [downs]
    · exact hcon _

/-! ## The invariant -/

/-- `SentInTurn` before everything has been sent. -/
def TurnFor (c : Config S P V) (b : Nat) (log : List (Entry S P V)) : Prop :=
  ∀ (before after : List (Entry S P V)) (i t : Nat) (m : Msg P V) (st : Nat → S),
    log = before ++ .pushed i t m st :: after → downs b (mainCalls c st t m) ≠ [] →
    ∀ k ∈ pushedFor c b before, k ∈ sentTo b before

theorem turnFor_snoc (c : Config S P V) (b : Nat) (log : List (Entry S P V)) (e : Entry S P V) :
    TurnFor c b (log ++ [e]) ↔
      TurnFor c b log ∧ (pushedFor c b [e] ≠ [] → ∀ k ∈ pushedFor c b log, k ∈ sentTo b log) := by
  constructor
  · intro h
    refine ⟨fun x y i t m st hl => h x (y ++ [e]) i t m st (by rw [hl]; simp), fun he => ?_⟩
    cases e with
    | pushed i u m st => exact h log [] i u m st rfl (fun hd => he (by simp [pushedFor, hd]))
    | submitted i u m => exact absurd rfl he
    | heard i l' u m st => exact absurd rfl he
    | called i src c st => exact absurd rfl he
  · rintro ⟨h1, h2⟩ x y i t m st hl hd
    rcases List.eq_nil_or_concat y with rfl | ⟨y', z, rfl⟩
    · obtain ⟨rfl, rfl⟩ : log = x ∧ e = .pushed i t m st := by
        have := List.append_inj' hl rfl
        exact ⟨this.1, by simpa using this.2⟩
      exact h2 (by simpa [pushedFor] using hd)
    · have hz : log = x ++ .pushed i t m st :: y' := by
        rw [List.concat_eq_append, ← List.cons_append, ← List.append_assoc] at hl
        exact (List.append_inj' hl rfl).1
      exact h1 x y' i t m st hz hd

/-- What holds at any moment. -/
structure Sends (c : Config S P V) (b : Nat) (s : State A S P V) : Prop where
  all : ∀ k, k ∈ pushedFor c b s.world.log ↔ k ∈ sentTo b s.world.log ++ sending b s.tasks
  once : (sentTo b s.world.log ++ sending b s.tasks).Nodup
  old : ∀ k ∈ sentTo b s.world.log ++ sending b s.tasks, k < s.world.next
  turn : TurnFor c b s.world.log ↔ (sentTo b s.world.log ++ sending b s.tasks).Pairwise (· < ·)
  sorted : (numbers s.world.log).Pairwise (· < ·)
  past : ∀ k ∈ numbers s.world.log, k < s.world.next

theorem Sends.same {c : Config S P V} {b : Nat} {s s' : State A S P V} (h : Sends c b s) (e : List (Entry S P V))
    (he : e = [] ∨ ∃ x, e = [x]) (hlog : s'.world.log = s.world.log ++ e)
    (hp : pushedFor c b e = []) (hh : sentTo b e ++ sending b s'.tasks = sending b s.tasks)
    (hm : numbers e = [] ∨ numbers e = [s.world.next] ∧ s.world.next < s'.world.next)
    (hn : s.world.next ≤ s'.world.next) : Sends c b s' := by
  have e1 : sentTo b s'.world.log ++ sending b s'.tasks = sentTo b s.world.log ++ sending b s.tasks := by
    rw [hlog, sentTo_append, List.append_assoc, hh]
  have e2 : pushedFor c b s'.world.log = pushedFor c b s.world.log := by
    rw [hlog, pushedFor_append, hp, List.append_nil]
  have e3 : TurnFor c b s'.world.log ↔ TurnFor c b s.world.log := by
    rcases he with rfl | ⟨x, rfl⟩
    · rw [hlog, List.append_nil]
    · rw [hlog, turnFor_snoc]
      exact ⟨fun h => h.1, fun h => ⟨h, fun hx => absurd hp hx⟩⟩
  have hpast := h.past
  refine ⟨fun k => by rw [e1, e2]; exact h.all k, by rw [e1]; exact h.once,
    fun k hk => Nat.lt_of_lt_of_le (h.old k (by rwa [e1] at hk)) hn, by rw [e1, e3]; exact h.turn, ?_, ?_⟩
  · rw [hlog, numbers_append]
    rcases hm with hm | ⟨hm, -⟩
    · rw [hm, List.append_nil]; exact h.sorted
    · rw [hm]
      exact List.pairwise_append.2 ⟨h.sorted, by simp, fun x hx y hy => by
        rw [List.mem_singleton] at hy; subst hy; exact hpast x hx⟩
  · intro k hk
    rw [hlog, numbers_append, List.mem_append] at hk
    rcases hk with hk | hk
    · exact Nat.lt_of_lt_of_le (hpast k hk) hn
    · rcases hm with hm | ⟨hm, hlt⟩
      · rw [hm] at hk; cases hk
      · rw [hm, List.mem_singleton] at hk; subst hk; exact hlt

theorem Sends.push {c : Config S P V} {b : Nat} {s s' : State A S P V} (h : Sends c b s) (t : Nat) (m : Msg P V)
    (hlog : s'.world.log = s.world.log ++ [.pushed s.world.next t m s.world.stores])
    (hp : pushedFor c b [.pushed s.world.next t m s.world.stores] = [s.world.next])
    (hw : sending b s'.tasks = s.world.next :: sending b s.tasks)
    (hn : s'.world.next = s.world.next + 1) : Sends c b s' := by
  have e1 : sentTo b s'.world.log = sentTo b s.world.log := by
    rw [hlog, sentTo_append]; simp [sentTo]
  have e2 : pushedFor c b s'.world.log = pushedFor c b s.world.log ++ [s.world.next] := by
    rw [hlog, pushedFor_append, hp]
  have e3 : numbers s'.world.log = numbers s.world.log ++ [s.world.next] := by
    rw [hlog, numbers_append]; simp [numbers]
  have hold := h.old
  have hpast := h.past
  have hmem : ∀ k, k ∈ sentTo b s.world.log ++ s.world.next :: sending b s.tasks
      ↔ k = s.world.next ∨ k ∈ sentTo b s.world.log ++ sending b s.tasks := by
    intro k
    simp only [List.mem_append, List.mem_cons]
    constructor
    · rintro (h | h | h) <;> simp [h]
    · rintro (h | h | h) <;> simp [h]
  refine ⟨fun k => ?_, ?_, ?_, ?_, ?_, ?_⟩
  · rw [e1, e2, hw, hmem, List.mem_append, List.mem_singleton, h.all k]
    exact Or.comm
  · rw [e1, hw, List.perm_middle.nodup_iff]
    exact List.nodup_cons.2 ⟨fun hk => Nat.lt_irrefl _ (hold _ hk), h.once⟩
  · rw [e1, hw, hn]
    intro k hk
    rcases (hmem k).1 hk with rfl | hk
    · exact Nat.lt_succ_self _
    · exact Nat.lt_succ_of_lt (hold k hk)
  · rw [e1, hw, hlog, turnFor_snoc, h.turn]
    constructor
    · rintro ⟨hpw, hall⟩
      have hall := hall (by rw [hp]; simp)
      have hnil : sending b s.tasks = [] := by
        cases hc : sending b s.tasks with
        | nil => rfl
        | cons k ks =>
          have hk : k ∈ sentTo b s.world.log := hall k ((h.all k).2 (by rw [hc]; simp))
          have hno := h.once
          rw [hc, List.nodup_append] at hno
          exact absurd rfl (hno.2.2 k hk k (by simp))
      rw [hnil] at hpw hold ⊢
      rw [List.append_nil] at hpw hold
      exact List.pairwise_append.2 ⟨hpw, by simp, fun a ha b hb => by
        rw [List.mem_singleton] at hb; subst hb; exact hold a ha⟩
    · intro hpw
      refine ⟨hpw.sublist (List.Sublist.append_left (List.sublist_cons_self ..) _), fun _ k hk => ?_⟩
      rcases List.mem_append.1 ((h.all k).1 hk) with hk' | hk'
      · exact hk'
      · have h1 := (List.pairwise_cons.1 (List.pairwise_append.1 hpw).2.1).1 k hk'
        exact absurd (hold k (by simp [hk'])) (Nat.lt_asymm h1)
  · rw [e3]
    exact List.pairwise_append.2 ⟨h.sorted, by simp, fun x hx y hy => by
      rw [List.mem_singleton] at hy; subst hy; exact hpast x hx⟩
  · rw [e3, hn]
    intro k hk
    rcases List.mem_append.1 hk with hk | hk
    · exact Nat.lt_succ_of_lt (hpast k hk)
    · rw [List.mem_singleton] at hk; subst hk; exact Nat.lt_succ_self _

theorem sends_step (c : Config S P V) (hl : ∀ t, Lawful (c.ops t)) (code : Code A P V) (b : Nat)
    (s : State A S P V) (h : Sends c b s) : Sends c b (step c code s) := by
  obtain ⟨w, ts⟩ := s
  cases ts with
  | nil => exact h
  | cons x r =>
    cases x with
    | prog q =>
      cases q with
      | look u p k =>
        cases hv : (c.ops u).view (w.stores u) p <;>
          exact h.same [] (.inl rfl) (by simp [step, exec, hv]) rfl (by simp [step, exec, hv, sending, sentTo])
            (.inl rfl) (by simp [step, exec, hv])
      | _ => exact h.same [] (.inl rfl) (by simp [step, exec]) rfl (by simp [step, exec, sending, sentTo])
              (.inl rfl) (Nat.le_refl _)
    | push u m =>
      have hc : sending b (step c code ⟨w, .push u m :: r⟩).tasks
          = ((downs b (mainCalls c w.stores u m)).map fun _ => w.next) ++ sending b r := by
        simp only [step, exec]
        rw [sending_append, sending_append, sending_calls, sending_listens, List.append_nil]
      have hr : sending b (.push u m :: r) = sending b r := by simp [sending]
      have hone := downs_one c hl b w.stores u m
      have hpf : pushedFor c b [.pushed w.next u m w.stores]
          = (downs b (mainCalls c w.stores u m)).map fun _ => w.next := by simp [pushedFor]
      cases hd : downs b (mainCalls c w.stores u m) with
      | nil =>
        refine h.same [.pushed w.next u m w.stores] (.inr ⟨_, rfl⟩) rfl (by rw [hpf, hd]; rfl) ?_
          (.inr ⟨rfl, Nat.lt_succ_self _⟩) (Nat.le_succ _)
        rw [hc, hd]
        simp [sentTo, hr]
      | cons y ys =>
        cases ys with
        | nil =>
          refine h.push u m rfl (by rw [hpf, hd]; rfl) ?_ rfl
          rw [hc, hd]
          simp [hr]
        | cons z zs => rw [hd] at hone; simp at hone
    | submit u m =>
      exact h.same [.submitted w.next u m] (.inr ⟨_, rfl⟩) rfl rfl (by simp [step, exec, sending, sentTo])
        (.inl rfl) (Nat.le_succ _)
    | call i src a =>
      refine h.same [.called i src a w.stores] (.inr ⟨_, rfl⟩) rfl rfl ?_ (.inl rfl) (Nat.le_refl _)
      simp only [step, exec]
      cases src with
      | some l => simp [sending, sentTo]
      | none =>
        cases a with
        | down d u m => by_cases hd : d = b <;> simp [sending, sentTo, hd]
        | up d u m => simp [sending, sentTo]
        | notify d u p => simp [sending, sentTo]
    | listen i l u m =>
      refine h.same [.heard i l u m w.stores] (.inr ⟨_, rfl⟩) rfl rfl ?_ (.inl rfl) (Nat.le_refl _)
      simp only [step, exec]
      rw [sending_append, sending_marked, List.nil_append]
      simp [sentTo, sending]

theorem sends_run (c : Config S P V) (hl : ∀ t, Lawful (c.ops t)) (code : Code A P V) (b : Nat) :
    ∀ (n : Nat) (s : State A S P V), Sends c b s → Sends c b (run c code n s)
  | 0, _, h => h
  | n + 1, s, h => sends_run c hl code b n _ (sends_step c hl code b s h)

theorem sends_start (c : Config S P V) (b : Nat) (st : Nat → S) (a : A) (q : Prog A P V) :
    Sends c b (start st a q) :=
  ⟨fun k => by simp [start, pushedFor, sentTo, sending], by simp [start, sentTo, sending],
    by simp [start, sentTo, sending], by
      constructor
      · intro _; simp [start, sentTo, sending]
      · intro _ x y i t m s hl; simp [start] at hl,
    by simp [start, numbers], by simp [start, numbers]⟩

/-- What goes to the consumer has been pushed. -/
theorem pushedFor_sub (c : Config S P V) (b : Nat) (log : List (Entry S P V)) : ∀ k ∈ pushedFor c b log, k ∈ numbers log := by
  intro k hk
  obtain ⟨e, he, hk⟩ := List.mem_flatMap.1 hk
  cases e with
  | pushed i t m st =>
    obtain ⟨-, -, rfl⟩ := List.mem_map.1 hk
    exact List.mem_filterMap.2 ⟨_, he, rfl⟩
  | _ => cases hk

/-- C118, exactly, for all actors and programs: when everything has come to an end, a consumer has got its messages in
the order in which they were pushed, if and only if none that it got was pushed before it had got the ones pushed
earlier. -/
theorem consumer_order_iff (c : Config S P V) (hl : ∀ t, Lawful (c.ops t)) (code : Code A P V) (b : Nat)
    (st : Nat → S) (a : A) (q : Prog A P V) (n : Nat) (hend : (run c code n (start st a q)).tasks = []) :
    ((sentTo b (run c code n (start st a q)).world.log).Pairwise (· < ·)
      ↔ SentInTurn b (run c code n (start st a q)).world.log)
    ∧ (sentTo b (run c code n (start st a q)).world.log).Nodup := by
  have h := sends_run c hl code b n _ (sends_start c b st a q)
  have hw : sending b (run c code n (start st a q)).tasks = [] := by rw [hend]; rfl
  have hall := h.all
  have hturn := h.turn
  have honce := h.once
  have hsort := h.sorted
  rw [hw, List.append_nil] at hturn honce
  simp only [hw, List.append_nil] at hall
  refine ⟨?_, honce⟩
  rw [← hturn]
  generalize (run c code n (start st a q)).world.log = log at *
  -- the number of a push tells where it is
  have split : ∀ x y i t m s', log = x ++ .pushed i t m s' :: y →
      (∀ k ∈ numbers x, k < i) ∧ (∀ k ∈ numbers y, i < k) := by
    intro x y i t m s' hlog
    rw [hlog, numbers_append] at hsort
    have h2 := List.pairwise_append.1 hsort
    have e : numbers (.pushed i t m s' :: y) = i :: numbers y := by simp [numbers]
    rw [e] at h2
    exact ⟨fun k hk => h2.2.2 k hk i (by simp), fun k hk => (List.pairwise_cons.1 h2.2.1).1 k hk⟩
  have parts : ∀ x y i t m s', log = x ++ .pushed i t m s' :: y → pushedFor c b log
      = pushedFor c b x ++ (((downs b (mainCalls c s' t m)).map fun _ => i) ++ pushedFor c b y) := by
    intro x y i t m s' hlog
    rw [hlog, pushedFor_append]
    simp [pushedFor]
  constructor
  · intro ht x y i t m s' hlog hi k hk hki
    obtain ⟨hx, hy⟩ := split x y i t m s' hlog
    have hp := parts x y i t m s' hlog
    have hd : downs b (mainCalls c s' t m) ≠ [] := by
      intro hd
      have := (hall i).2 hi
      rw [hp, hd, List.map_nil, List.nil_append] at this
      rcases List.mem_append.1 this with h1 | h1
      · exact Nat.lt_irrefl _ (hx i (pushedFor_sub c b x i h1))
      · exact Nat.lt_irrefl _ (hy i (pushedFor_sub c b y i h1))
    refine ht x y i t m s' hlog hd k ?_
    have := (hall k).2 hk
    rw [hp] at this
    rcases List.mem_append.1 this with h1 | h1
    · exact h1
    · rcases List.mem_append.1 h1 with h1 | h1
      · obtain ⟨-, -, rfl⟩ := List.mem_map.1 h1
        exact absurd hki (Nat.lt_irrefl _)
      · exact absurd hki (Nat.lt_asymm (hy k (pushedFor_sub c b y k h1)))
  · intro ht x y i t m s' hlog hd k hk
    obtain ⟨hx, hy⟩ := split x y i t m s' hlog
    have hp := parts x y i t m s' hlog
    have hi : i ∈ sentTo b log := (hall i).1 (by
      rw [hp]
      cases hdd : downs b (mainCalls c s' t m) with
      | nil => exact absurd hdd hd
      | cons u us => simp)
    have hkl : k ∈ sentTo b log := (hall k).1 (by rw [hp]; simp [hk])
    exact ht x y i t m s' hlog hi k hkl (hx k (pushedFor_sub c b x k hk))

/-- With the echo producer, consumer 1 of `sample` gets what the program asks for in order. -/
example : ∃ (q : Prog Nat Nat Nat) (n : Nat), (run sample echo n (start (fun _ => MapStore.empty) 0 q)).tasks.length = 0
    ∧ sentTo 1 (run sample echo n (start (fun _ => MapStore.empty) 0 q)).world.log = [1, 3] :=
  ⟨.push 0 (.upCreate 5 7) (.push 0 (.upDelete 5) .done), 60, by decide +kernel⟩

end Nbdl.Nested
