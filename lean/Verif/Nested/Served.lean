import Verif.Nested.Sent
import Verif.Replica.Lemmas
/-!
# The clients of a server whose actors push while they are called (C154)

`app::server` is a consumer of the server's context: `send_downstream_message`,
/repo/include/nbdl/app/server.hpp:176-182 and 201-206, sends each message it is called with to the clients,
which push it to their own contexts, /repo/include/nbdl/app/client.hpp:26-91.
-/
namespace Nbdl.Nested
open MapStore (Msg View Payload Map)
open Context (Config Actor Lawful actorsWith mapOps setStore pushMain pushAll)
open Spec
variable {A S P V : Type}

/-- The messages consumer `b` was sent, in the order in which it got them. -/
def Spec.gotBy (b : Nat) (log : List (Entry S P V)) : List (Nat × Msg P V) :=
  log.filterMap fun e => match e with
    | .called _ none (.down d t m) _ => if d = b then some (t, m) else none
    | _ => none

/-- The messages that calls send to consumer `b`. -/
def goes (b : Nat) (cs : List (Call P V)) : List (Nat × Msg P V) :=
  cs.filterMap fun x => match x with
    | .down d t m => if d = b then some (t, m) else none
    | _ => none

/-- The messages consumer `b` is going to be sent by what is left to do. -/
def coming (b : Nat) (ts : List (Task A P V)) : List (Nat × Msg P V) :=
  ts.filterMap fun x => match x with
    | .call _ none (.down d t m) => if d = b then some (t, m) else none
    | _ => none

theorem gotBy_append (b : Nat) (x y : List (Entry S P V)) : gotBy b (x ++ y) = gotBy b x ++ gotBy b y :=
  List.filterMap_append

theorem coming_append (b : Nat) (xs ys : List (Task A P V)) :
    coming b (xs ++ ys) = coming b xs ++ coming b ys := List.filterMap_append

theorem coming_calls (b i : Nat) : ∀ cs : List (Call P V), coming (A := A) b (cs.map (.call i none)) = goes b cs
  | [] => rfl
  | x :: cs => by
    have ih := coming_calls b i cs
    cases x with
    | down d u m => by_cases h : d = b <;> simpa [coming, goes, h] using ih
    | up d u m => simpa [coming, goes] using ih
    | notify d u p => simpa [coming, goes] using ih

theorem coming_marked (b i l : Nat) (cs : List (Call P V)) : coming (A := A) b (cs.map (.call i (some l))) = [] := by
  induction cs with
  | nil => rfl
  | cons a cs ih => simpa [coming] using ih

theorem coming_listens (b i t : Nat) (m : Msg P V) (ls : List Nat) :
    coming (A := A) b (ls.map fun l => .listen i l t m) = [] := by
  induction ls with
  | nil => rfl
  | cons a ls ih => simpa [coming] using ih

theorem coming_none (b : Nat) : ∀ ts : List (Task A P V), sending b ts = [] → coming b ts = []
  | [], _ => rfl
  | x :: ts, h => by
    have ih := coming_none b ts
    match x with
    | .prog _ => simpa [coming] using ih (by simpa [sending] using h)
    | .push _ _ => simpa [coming] using ih (by simpa [sending] using h)
    | .submit _ _ => simpa [coming] using ih (by simpa [sending] using h)
    | .listen _ _ _ _ => simpa [coming] using ih (by simpa [sending] using h)
    | .call _ (some _) _ => simpa [coming] using ih (by simpa [sending] using h)
    | .call _ none (.up _ _ _) => simpa [coming] using ih (by simpa [sending] using h)
    | .call _ none (.notify _ _ _) => simpa [coming] using ih (by simpa [sending] using h)
    | .call _ none (.down d _ _) =>
      by_cases hd : d = b
      · simp [sending, hd] at h
      · simpa [coming, hd] using ih (by simpa [sending, hd] using h)

theorem goes_none (b : Nat) : ∀ cs : List (Call P V), downs b cs = [] → goes b cs = []
  | [], _ => rfl
  | x :: cs, h => by
    have ih := goes_none b cs
    cases x with
    | down d u m =>
      by_cases hd : d = b
      · simp [downs, hd] at h
      · simpa [goes, hd] using ih (by simpa [downs, hd] using h)
    | up d u m => simpa [goes] using ih (by simpa [downs] using h)
    | notify d u p => simpa [goes] using ih (by simpa [downs] using h)

/-- The calls of a push send a consumer what `Replica` says. -/
theorem goes_main [DecidableEq P] (c : Config (Map P V) P V) (hc : ∀ t, c.ops t = mapOps) (b : Nat)
    (hb : ((c.actors[b]?.map Actor.consumer).getD false) = true) (st : Nat → Map P V) (t : Nat) (m : Msg P V) :
    goes b (mainCalls c st t m) = Replica.sends st t m := by
  rw [← Replica.downTo_push c hc b hb, Replica.push_map c hc]
  unfold mainCalls goes Replica.downTo
  induction (pushMain c st t m).2 with
  | nil => rfl
  | cons e es ih =>
    cases e with
    | down d u x y => by_cases hd : d = b <;> simpa [callOf, Context.sentDown, hd] using ih
    | up d u x y => simpa [callOf, Context.sentDown] using ih
    | notify d u x y => simpa [callOf, Context.sentDown] using ih

/-! ## What the messages do to a client -/

section
variable [DecidableEq P]

/-- What pushing messages one after the other does to what is shown. -/
theorem shows_pushAll (k : Config (Map P V) P V) (hk : ∀ t, k.ops t = mapOps) (t : Nat) (p : P) :
    ∀ (ms : List (Nat × Msg P V)) (cl : Nat → Map P V),
      Replica.Spec.shows (pushAll k cl ms).1 t p = ms.foldl (Replica.effect t p) (Replica.Spec.shows cl t p)
  | [], _ => rfl
  | (u, m) :: ms, cl => by
    simp only [pushAll, List.foldl_cons]
    rw [shows_pushAll k hk t p ms, Replica.shows_push k hk]

/-- Who shows what the server shows, and is sent what it sends for a push, still does. -/
theorem sends_effect (st : Nat → Map P V) (u : Nat) (m : Msg P V) (t : Nat) (p : P) :
    (Replica.sends st u m).foldl (Replica.effect t p) (Replica.Spec.shows st t p)
      = Replica.effect t p (Replica.Spec.shows st t p) (u, m) := by
  unfold Replica.sends
  cases m with
  | upRead q =>
    simp only [Msg.isUpRead, if_true, Msg.path]
    by_cases h : u = t ∧ q = p
    · obtain ⟨rfl, rfl⟩ := h
      cases hs : Replica.Spec.shows st u q <;> simp [Replica.effect, Msg.path]
    · cases hs : Replica.Spec.shows st u q <;> simp [Replica.effect, Msg.path, h]
  | upCreate q v => simp [Msg.isUpRead, Msg.isUpstream, Replica.effect]
  | upUpdate q v => simp [Msg.isUpRead, Msg.isUpstream, Replica.effect]
  | upDelete q => simp [Msg.isUpRead, Msg.isUpstream, Replica.effect]
  | _ => simp [Msg.isUpRead, Msg.isUpstream]

/-- The server's stores show what those of a client would that had pushed all that was and is going to be sent. -/
def Follows (c : Config (Map P V) P V) (b : Nat) (st : Nat → Map P V) (s : State A (Map P V) P V) : Prop :=
  TurnFor c b s.world.log → ∀ t p,
    (gotBy b s.world.log ++ coming b s.tasks).foldl (Replica.effect t p) (Replica.Spec.shows st t p)
      = Replica.Spec.shows s.world.stores t p

theorem Follows.same {c : Config (Map P V) P V} {b : Nat} {st : Nat → Map P V} {s s' : State A (Map P V) P V}
    (h : Follows c b st s) (e : List (Entry (Map P V) P V)) (he : e = [] ∨ ∃ x, e = [x])
    (hlog : s'.world.log = s.world.log ++ e) (hg : gotBy b e ++ coming b s'.tasks = coming b s.tasks)
    (hs : ∀ t p, Replica.Spec.shows s'.world.stores t p = Replica.Spec.shows s.world.stores t p) :
    Follows c b st s' := by
  intro ht t p
  have ht' : TurnFor c b s.world.log := by
    rcases he with rfl | ⟨x, rfl⟩
    · rwa [hlog, List.append_nil] at ht
    · rw [hlog] at ht; exact ((turnFor_snoc c b _ _).1 ht).1
  rw [hlog, gotBy_append, List.append_assoc, hg, hs]
  exact h ht' t p

theorem follows_step (c : Config (Map P V) P V) (hc : ∀ t, c.ops t = mapOps) (code : Code A P V) (b : Nat)
    (hb : ((c.actors[b]?.map Actor.consumer).getD false) = true) (st : Nat → Map P V)
    (s : State A (Map P V) P V) (h1 : Sends c b s) (h : Follows c b st s) : Follows c b st (step c code s) := by
  obtain ⟨w, ts⟩ := s
  cases ts with
  | nil => exact h
  | cons x r =>
    cases x with
    | prog q =>
      cases q with
      | look u p k =>
        cases hv : (c.ops u).view (w.stores u) p <;>
          exact h.same [] (.inl rfl) (by simp [step, exec, hv]) (by simp [step, exec, hv, coming, gotBy])
            (fun _ _ => by simp [step, exec, hv])
      | _ => exact h.same [] (.inl rfl) (by simp [step, exec]) (by simp [step, exec, coming, gotBy])
              (fun _ _ => rfl)
    | push u m =>
      have hco : coming b (step c code ⟨w, .push u m :: r⟩).tasks = Replica.sends w.stores u m ++ coming b r := by
        simp only [step, exec]
        rw [coming_append, coming_append, coming_calls, coming_listens, List.append_nil, goes_main c hc b hb]
      have hr : coming b (.push u m :: r) = coming b r := by simp [coming]
      have hst : ∀ t p, Replica.Spec.shows (step c code ⟨w, .push u m :: r⟩).world.stores t p
          = Replica.effect t p (Replica.Spec.shows w.stores t p) (u, m) := by
        intro t p
        simp only [step, exec]
        rw [← Replica.push_map c hc, Replica.shows_push c hc]
      have hpf : pushedFor c b [.pushed w.next u m w.stores]
          = (downs b (mainCalls c w.stores u m)).map fun _ => w.next := by simp [pushedFor]
      by_cases hd : downs b (mainCalls c w.stores u m) = []
      · have hs0 : Replica.sends w.stores u m = [] := by rw [← goes_main c hc b hb]; exact goes_none b _ hd
        refine h.same [.pushed w.next u m w.stores] (.inr ⟨_, rfl⟩) rfl ?_ fun t p => ?_
        · rw [hco, hs0, hr]; rfl
        · rw [hst, ← sends_effect, hs0]; rfl
      · intro ht t p
        obtain ⟨ht', hall⟩ := (turnFor_snoc c b w.log (.pushed w.next u m w.stores)).1 ht
        have hall := hall (by rw [hpf]; simpa using hd)
        have hnil : sending b r = [] := by
          cases hcs : sending b r with
          | nil => rfl
          | cons k ks =>
            have hsr : sending b (.push u m :: r) = k :: ks := by rw [← hcs]; simp [sending]
            have hk : k ∈ sentTo b w.log := hall k ((h1.all k).2 (by
              show k ∈ sentTo b w.log ++ sending b (.push u m :: r)
              rw [hsr]; simp))
            have hno : (sentTo b w.log ++ sending b (.push u m :: r)).Nodup := h1.once
            rw [hsr, List.nodup_append] at hno
            exact absurd rfl (hno.2.2 k hk k (by simp))
        have hcr := coming_none b r hnil
        have hh := h ht' t p
        rw [hr, hcr, List.append_nil] at hh
        have hg : gotBy b (step c code ⟨w, .push u m :: r⟩).world.log = gotBy b w.log := by
          simp only [step, exec]
          rw [gotBy_append]; simp [gotBy]
        rw [hg, hco, hcr, List.append_nil, List.foldl_append, hh, hst, sends_effect]
    | submit u m =>
      exact h.same [.submitted w.next u m] (.inr ⟨_, rfl⟩) rfl (by simp [step, exec, coming, gotBy]) (fun _ _ => rfl)
    | call i src a =>
      refine h.same [.called i src a w.stores] (.inr ⟨_, rfl⟩) rfl ?_ (fun _ _ => rfl)
      simp only [step, exec]
      cases src with
      | some l => simp [coming, gotBy]
      | none =>
        cases a with
        | down d u m => by_cases hd : d = b <;> simp [coming, gotBy, hd]
        | up d u m => simp [coming, gotBy]
        | notify d u p => simp [coming, gotBy]
    | listen i l u m =>
      refine h.same [.heard i l u m w.stores] (.inr ⟨_, rfl⟩) rfl ?_ fun t p => ?_
      · simp only [step, exec]
        rw [coming_append, coming_marked, List.nil_append]
        simp [gotBy, coming]
      · have e : setStore w.stores l (w.stores l) = w.stores := by
          funext j; unfold setStore; split <;> simp_all
        simp only [step, exec, hc, mapOps]
        rw [e]

theorem follows_run (c : Config (Map P V) P V) (hc : ∀ t, c.ops t = mapOps) (code : Code A P V) (b : Nat)
    (hb : ((c.actors[b]?.map Actor.consumer).getD false) = true) (st : Nat → Map P V) :
    ∀ (n : Nat) (s : State A (Map P V) P V), Sends c b s → Follows c b st s → Follows c b st (run c code n s)
  | 0, _, _, h => h
  | n + 1, s, h1, h => follows_run c hc code b hb st n _
      (sends_step c (fun t => by rw [hc]; exact Context.mapOps_lawful) code b s h1) (follows_step c hc code b hb st s h1 h)

/-- C154, for all actors and programs of a server, as long as its `app::server` (consumer `b`) gets its messages in the
order in which they were pushed: a client that showed what the server showed, and that has pushed the messages it was
sent, shows what the server shows.  When they come in another order this may fail, see `served_violated`. -/
theorem served (c : Config (Map P V) P V) (hc : ∀ t, c.ops t = mapOps) (code : Code A P V) (b : Nat)
    (hb : ((c.actors[b]?.map Actor.consumer).getD false) = true) (st : Nat → Map P V) (a : A) (q : Prog A P V) (n : Nat)
    (hend : (run c code n (start st a q)).tasks = [])
    (hin : (sentTo b (run c code n (start st a q)).world.log).Pairwise (· < ·))
    (k : Config (Map P V) P V) (hk : ∀ t, k.ops t = mapOps) (cl : Nat → Map P V)
    (h0 : ∀ t p, Replica.Spec.shows cl t p = Replica.Spec.shows st t p) (t : Nat) (p : P) :
    Replica.Spec.shows (pushAll k cl (gotBy b (run c code n (start st a q)).world.log)).1 t p
      = Replica.Spec.shows (run c code n (start st a q)).world.stores t p := by
  have hl : ∀ t, Lawful (c.ops t) := fun t => by rw [hc]; exact Context.mapOps_lawful
  have h1 := sends_run c hl code b n _ (sends_start c b st a q)
  have hf := follows_run c hc code b hb st n (start st a q) (sends_start c b st a q)
    (fun _ t p => by simp [start, gotBy, coming])
  have ht : TurnFor c b (run c code n (start st a q)).world.log := h1.turn.2 (by
    rw [hend]; simpa [sending] using hin)
  have := hf ht t p
  rw [hend] at this
  rw [shows_pushAll k hk, h0, ← this]
  simp [coming]

/-- And it is so at any moment at which nothing is waiting to be sent, whatever else is left to do. -/
theorem served_meanwhile (c : Config (Map P V) P V) (hc : ∀ t, c.ops t = mapOps) (code : Code A P V) (b : Nat)
    (hb : ((c.actors[b]?.map Actor.consumer).getD false) = true) (st : Nat → Map P V) (a : A) (q : Prog A P V) (n : Nat)
    (hwait : ∀ i t m, Task.call i none (.down b t m) ∉ (run c code n (start st a q)).tasks)
    (hin : (sentTo b (run c code n (start st a q)).world.log).Pairwise (· < ·))
    (k : Config (Map P V) P V) (hk : ∀ t, k.ops t = mapOps) (cl : Nat → Map P V)
    (h0 : ∀ t p, Replica.Spec.shows cl t p = Replica.Spec.shows st t p) (t : Nat) (p : P) :
    Replica.Spec.shows (pushAll k cl (gotBy b (run c code n (start st a q)).world.log)).1 t p
      = Replica.Spec.shows (run c code n (start st a q)).world.stores t p := by
  have hl : ∀ t, Lawful (c.ops t) := fun t => by rw [hc]; exact Context.mapOps_lawful
  have h1 := sends_run c hl code b n _ (sends_start c b st a q)
  have hf := follows_run c hc code b hb st n (start st a q) (sends_start c b st a q)
    (fun _ t p => by simp [start, gotBy, coming])
  have hs : sending b (run c code n (start st a q)).tasks = [] := by
    refine List.filterMap_eq_nil_iff.2 fun x hx => ?_
    match x, hx with
    | .prog _, _ => rfl
    | .push _ _, _ => rfl
    | .submit _ _, _ => rfl
    | .listen _ _ _ _, _ => rfl
    | .call _ (some _) _, _ => rfl
    | .call _ none (.up _ _ _), _ => rfl
    | .call _ none (.notify _ _ _), _ => rfl
    | .call i none (.down d u m), hx =>
      by_cases hd : d = b
      · subst hd; exact absurd hx (hwait i u m)
      · simp [hd]
  have ht : TurnFor c b (run c code n (start st a q)).world.log := h1.turn.2 (by rw [hs, List.append_nil]; exact hin)
  have := hf ht t p
  rw [coming_none b _ hs, List.append_nil] at this
  rw [shows_pushAll k hk, h0, ← this]

/-- In particular, whatever the producers and the consumers after `app::server` do, if no state consumer pushes when it
is notified and no consumer before `app::server` pushes when it is sent a message. -/
theorem served_first (c : Config (Map P V) P V) (hc : ∀ t, c.ops t = mapOps) (code : Code A P V) (b : Nat)
    (hb : ((c.actors[b]?.map Actor.consumer).getD false) = true)
    (hn : ∀ d ∈ actorsWith Actor.stateConsumer c, ∀ t p, Quiet c (code (.notify d t p)))
    (hd : ∀ d ∈ actorsWith Actor.consumer c, d < b → ∀ t m, Quiet c (code (.down d t m)))
    (st : Nat → Map P V) (a : A) (q : Prog A P V) (n : Nat) (hend : (run c code n (start st a q)).tasks = [])
    (k : Config (Map P V) P V) (hk : ∀ t, k.ops t = mapOps) (cl : Nat → Map P V)
    (h0 : ∀ t p, Replica.Spec.shows cl t p = Replica.Spec.shows st t p) (t : Nat) (p : P) :
    Replica.Spec.shows (pushAll k cl (gotBy b (run c code n (start st a q)).world.log)).1 t p
      = Replica.Spec.shows (run c code n (start st a q)).world.stores t p :=
  served c hc code b hb st a q n hend
    (consumer_order_partial c (fun t => by rw [hc]; exact Context.mapOps_lawful) code b hn hd st a q n) k hk cl h0 t p

end

/-- With a consumer before `app::server` that answers a create by an update, the server ends with the value of the
update, and its clients with the value of the create. -/
theorem served_violated : ∃ (c : Config (Map Nat Nat) Nat Nat) (code : Code Nat Nat Nat) (b : Nat)
    (q : Prog Nat Nat Nat) (n : Nat), (∀ t, c.ops t = mapOps)
    ∧ ((c.actors[b]?.map Actor.consumer).getD false) = true
    ∧ (run c code n (start (fun _ => MapStore.empty) 0 q)).tasks.length = 0
    ∧ Replica.Spec.shows (run c code n (start (fun _ => MapStore.empty) 0 q)).world.stores 0 5 = some (.value 7)
    ∧ Replica.Spec.shows (pushAll c (fun _ => MapStore.empty)
        (gotBy b (run c code n (start (fun _ => MapStore.empty) 0 q)).world.log)).1 0 5 = some (.value 1) :=
  ⟨sample, sampleCode, 2, .push 0 (.downCreate 5 (.value 1)) .done, 30, fun _ => rfl, by decide +kernel⟩

/-- In `sample` with that consumer and `app::server` before it (consumer 1), all is well. -/
example : (run sample sampleCode 60 (start (fun _ => MapStore.empty) 0 sampleProg)).tasks.length = 0
    ∧ sentTo 1 (run sample sampleCode 60 (start (fun _ => MapStore.empty) 0 sampleProg)).world.log = [0, 1, 3]
    ∧ gotBy 1 (run sample sampleCode 60 (start (fun _ => MapStore.empty) 0 sampleProg)).world.log
        = [(0, .downCreate 5 (.value 1)), (0, .downUpdate 5 (.value 7)), (0, .downDelete 5)] := by decide +kernel

end Nbdl.Nested
