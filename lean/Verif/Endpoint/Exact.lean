import Verif.Endpoint.Props
/-!
# Exactly when an endpoint stalls, and exactly when it runs into undefined behaviour
-/
namespace Nbdl.Endpoint
open Spec
variable {α : Type}

/-- C59, exactly: the endpoint runs into undefined behaviour just when the write of its close frame
fails. -/
theorem ub_exact (conv : Bool) (is : List (In α)) :
    .ub ∈ trace conv is ↔ .failed .close ∈ trace conv is := by
  refine ⟨fun h => Classical.byContradiction fun hn => no_ub_partial conv is hn h, ?_⟩
  unfold trace
  suffices ∀ (is : List (In α)) (s : St α), .failed .close ∈ (exec conv s is).2 →
      .ub ∈ (exec conv s is).2 from this is _
  intro is
  induction is with
  | nil => intro s h; simp [exec] at h
  | cons i is ih =>
    intro s h
    simp only [exec, List.mem_append] at h ⊢
    rcases h with h | h
    · left
      have lu : ∀ s' : St α, .failed .close ∉ (loop s').2 := by
        intro s'; unfold loop; cases s'.pending <;> cases s'.queue <;> simp [St.write]
      have su : ∀ s' : St α, .failed .close ∉ (startSendQueue s').2 := by
        intro s'; unfold startSendQueue; split; simp; exact lu _
      have cu : ∀ (s' : St α) n, .failed .close ∉ callHandler s' n := by
        intro s' n; unfold callHandler; split <;> simp
      unfold step at h ⊢
      by_cases hb : s.broken
      · rw [if_pos hb] at h; simp at h
      rw [if_neg hb] at h ⊢
      cases i with
      | send m => simp [su] at h
      | close => simp [su] at h
      | start => simp only at h; split at h; split at h; simp [su] at h; simp at h; simp at h
      | stop => simp at h
      | wrote =>
        cases hf : s.inflight with
        | none => simp [hf] at h
        | some f =>
          cases f with
          | close =>
            simp only [hf, onWrote] at h
            split at h <;> simp [cu] at h
          | data m => simp [hf, onWrote, lu] at h
          | pong => simp [hf, onWrote] at h
      | writeFailed e =>
        cases hf : s.inflight with
        | none => simp [hf] at h
        | some f =>
          cases f with
          | close => simp [onWriteFailed]
          | data m => simp [hf, onWriteFailed, cu] at h
          | pong => simp [hf, onWriteFailed] at h
      | readClose =>
        simp only at h; split at h
        · simp only [onRead] at h; split at h <;> simp [su, cu] at h
        · simp at h
      | readMessage m => simp only at h; split at h <;> simp [onRead, cu] at h
      | readPing => simp only at h; split at h <;> simp [onRead] at h
      | readPong => simp only at h; split at h <;> simp [onRead] at h
      | readBad => simp only at h; split at h <;> simp [onRead, cu] at h
      | readError e => simp only at h; split at h <;> simp [onRead, cu] at h
    · right; exact ih _ h

/-- Before `start_messaging`: what was asked for, and nothing else. -/
def fresh (c : Bool) (q : List α) : St α := { pending := if c then .close else .none, queue := q }

/-- Messaging was started with a close pending and an empty queue. -/
def stuck (r k : Bool) : St α :=
  { pending := .close, started := true, reading := r, closeReceived := k }

open Classical in
theorem exec_fresh (conv : Bool) (is : List (In α)) (hs : .start ∉ is) (ht : .stop ∉ is) (c : Bool)
    (q : List α) : ∃ q', (exec conv (fresh c q) is).1 = fresh (c || decide (.close ∈ is)) q' ∧
      (q' = [] ↔ q = [] ∧ ∀ m, .send m ∉ is) := by
  induction is generalizing c q with
  | nil => exact ⟨q, by simp [exec], by simp⟩
  | cons i is ih =>
    simp only [exec]
    have hs' : .start ∉ is := fun h => hs (by simp [h])
    have ht' : .stop ∉ is := fun h => ht (by simp [h])
    have h1 : ∃ c1 q1, (step conv (fresh c q) i).1 = fresh c1 q1 ∧
        c1 = (c || decide (i = .close)) ∧ (q1 = [] ↔ q = [] ∧ ∀ m, i ≠ .send m) := by
      cases i with
      | start => exact absurd (by simp) hs
      | stop => exact absurd (by simp) ht
      | send m =>
        exact ⟨c, q ++ [m], by simp [step, fresh, startSendQueue], by simp, by simp⟩
      | close =>
        exact ⟨true, q, by simp [step, fresh, startSendQueue], by simp, by simp⟩
      | _ => exact ⟨c, q, by simp [step, fresh], by simp, by simp⟩
    obtain ⟨c1, q1, e1, hc, hq⟩ := h1
    rw [e1]
    obtain ⟨q', e2, h2⟩ := ih hs' ht' c1 q1
    refine ⟨q', ?_, ?_⟩
    · rw [e2, hc]
      congr 1
      by_cases hi : i = .close
      · subst hi; simp
      · have : ¬ (.close = i) := fun h => hi h.symm
        simp [hi, this]
    · rw [h2, hq]
      constructor
      · rintro ⟨⟨h3, h4⟩, h5⟩
        refine ⟨h3, fun m hm => ?_⟩
        rcases List.mem_cons.1 hm with h | h
        · exact h4 m h.symm
        · exact h5 m h
      · rintro ⟨h3, h4⟩
        exact ⟨⟨h3, fun m hm => h4 m (by simp [hm])⟩, fun m hm => h4 m (by simp [hm])⟩

theorem exec_stuck (conv : Bool) (is : List (In α)) (hf : ∀ e, .writeFailed e ∉ is)
    (ht : .stop ∉ is) (r k : Bool) :
    (.close ∉ is ∧ (∀ m, .send m ∉ is) → ∃ r' k', (exec conv (stuck r k) is).1 = stuck r' k') ∧
    (¬ (.close ∉ is ∧ ∀ m, .send m ∉ is) → Live (exec conv (stuck r k) is).1) := by
  induction is generalizing r k with
  | nil => exact ⟨fun _ => ⟨r, k, rfl⟩, fun h => absurd ⟨by simp, by simp⟩ h⟩
  | cons i is ih =>
    have hf' : ∀ e, .writeFailed e ∉ is := fun e h => hf e (by simp [h])
    have ht' : .stop ∉ is := fun h => ht (by simp [h])
    simp only [exec]
    by_cases hi : i = .close ∨ ∃ m, i = .send m
    · have hrun : Live (step conv (stuck r k) i).1 ∧ SInv (step conv (stuck r k) i).1 ∧
          (step conv (stuck r k) i).1.started = true := by
        rcases hi with rfl | ⟨m, rfl⟩
        · refine ⟨⟨?_, ?_⟩, ⟨?_, ?_, ?_, ?_⟩, ?_⟩ <;>
            simp [step, stuck, startSendQueue, loop, St.write]
        · refine ⟨⟨?_, ?_⟩, ⟨?_, ?_, ?_, ?_⟩, ?_⟩ <;>
            simp [step, stuck, startSendQueue, loop, St.write]
      refine ⟨fun h => ?_, fun _ => (live_exec conv is _ hrun.1 hrun.2.1 hf' (.inr hrun.2.2)).1⟩
      exfalso
      rcases hi with rfl | ⟨m, rfl⟩
      · exact h.1 (by simp)
      · exact h.2 m (by simp)
    · have h1 : ∃ r1 k1, (step conv (stuck r k) i).1 = stuck (α := α) r1 k1 := by
        cases i with
        | stop => exact absurd (by simp) ht
        | writeFailed e => exact absurd (by simp) (hf e)
        | send m => exact absurd (.inr ⟨m, rfl⟩) hi
        | close => exact absurd (.inl rfl) hi
        | readClose => cases r <;> exact ⟨false, _, by simp [step, stuck, onRead]; try rfl⟩
        | readBad => cases r <;> exact ⟨false, k, by simp [step, stuck, onRead]⟩
        | readError e => cases r <;> exact ⟨false, k, by simp [step, stuck, onRead]⟩
        | start => exact ⟨r, k, by simp [step, stuck]⟩
        | wrote => exact ⟨r, k, by simp [step, stuck]⟩
        | readMessage m => cases r <;> exact ⟨_, k, by simp [step, stuck, onRead]; try rfl⟩
        | readPing => cases r <;> exact ⟨_, k, by simp [step, stuck, onRead, toPong]; try rfl⟩
        | readPong => cases r <;> exact ⟨_, k, by simp [step, stuck, onRead]; try rfl⟩
      obtain ⟨r1, k1, e1⟩ := h1
      rw [e1]
      obtain ⟨i1, i2⟩ := ih hf' ht' r1 k1
      refine ⟨fun h => i1 ⟨fun hc => h.1 (by simp [hc]), fun m hm => h.2 m (by simp [hm])⟩,
        fun h => i2 fun h' => h ⟨?_, ?_⟩⟩
      · intro hc
        rcases List.mem_cons.1 hc with e | e
        · exact hi (.inl e.symm)
        · exact h'.1 e
      · intro m hm
        rcases List.mem_cons.1 hm with e | e
        · exact hi (.inr ⟨m, e.symm⟩)
        · exact h'.2 m e

theorem stopped_step (conv : Bool) (s : St α) (i : In α) (hi : i ≠ .stop) :
    (step conv s i).1.stopped = s.stopped := by
  have sf := fun s' : St α => (start_facts s').2.2.2.2.2.2
  unfold step
  by_cases hb : s.broken
  · rw [if_pos hb]
  rw [if_neg hb]
  cases i with
  | send m => simp [sf]
  | close => simp [sf]
  | start => simp only; split; split; simp [sf]; simp; simp
  | stop => exact absurd rfl hi
  | wrote =>
    cases hf : s.inflight with
    | none => simp
    | some f => cases f <;> simp [onWrote, (loop_facts _).2.2.2.2.2.2]
  | writeFailed e =>
    cases hf : s.inflight with
    | none => simp
    | some f => cases f <;> simp [onWriteFailed]
  | readClose => simp only; split; simp only [onRead]; split <;> simp [sf]; simp
  | readMessage m => simp only; split <;> simp [onRead]
  | readPing => simp only; split <;> simp [onRead]
  | readPong => simp only; split <;> simp [onRead]
  | readBad => simp only; split <;> simp [onRead]
  | readError e => simp only; split <;> simp [onRead]

theorem exec_stopped (conv : Bool) (is : List (In α)) (s : St α) (ht : .stop ∉ is) :
    (exec conv s is).1.stopped = s.stopped ∧ (s.started = true → (exec conv s is).1.started = true) := by
  induction is generalizing s with
  | nil => exact ⟨rfl, id⟩
  | cons i is ih =>
    simp only [exec]
    obtain ⟨h1, h2⟩ := ih (step conv s i).1 fun h => ht (by simp [h])
    refine ⟨h1.trans (stopped_step conv s i ?_), fun h => h2 (started_step conv s i h)⟩
    rintro rfl; exact ht (by simp)

/-- There is work to do, nothing is being written, and the close frame was not sent either. -/
def Stalled (conv : Bool) (is : List (In α)) : Prop :=
  ((exec conv {} is).1.queue ≠ [] ∨ (exec conv {} is).1.pending = .close) ∧
    inFlight none (trace conv is) = none ∧ .begin .close ∉ trace conv is

/-- C57, exactly: take any schedule in which messaging is started, no write fails, and the endpoint
is not stopped.  Work is left lying just when the close was asked for before messaging was started,
and nothing was sent, before or after, and the close was not asked for again. -/
theorem stall_exact (conv : Bool) (pre post : List (In α)) (h0 : .start ∉ pre)
    (hf : ∀ e, .writeFailed e ∉ pre ++ .start :: post) (ht : .stop ∉ pre ++ .start :: post) :
    Stalled conv (pre ++ .start :: post) ↔
      .close ∈ pre ∧ (∀ m, .send m ∉ pre ++ post) ∧ .close ∉ post := by
  classical
  have hinv := inv_trace conv (pre ++ .start :: post)
  have hf1 : ∀ e, .writeFailed e ∉ post := fun e h => hf e (by simp [h])
  have ht0 : .stop ∉ pre := fun h => ht (by simp [h])
  have ht1 : .stop ∉ post := fun h => ht (by simp [h])
  obtain ⟨q, e0, hq⟩ := exec_fresh conv pre h0 ht0 false []
  have efresh : (fresh false [] : St α) = {} := rfl
  rw [efresh] at e0
  have e1 : (exec conv {} (pre ++ .start :: post)).1
      = (exec conv (step conv (fresh (decide (.close ∈ pre)) q) .start).1 post).1 := by
    rw [exec_append, e0]; simp [exec]
  have nostall : Live (exec conv {} (pre ++ .start :: post)).1 →
      (exec conv {} (pre ++ .start :: post)).1.started = true →
      ¬ Stalled conv (pre ++ .start :: post) := by
    rintro kl hst ⟨hw, hi, hb⟩
    have hs : (exec conv {} (pre ++ .start :: post)).1.stopped = false :=
      (exec_stopped conv _ {} ht).1
    have hrun : (exec conv {} (pre ++ .start :: post)).1.running = true := by
      rcases hw with hw | hw
      · rcases kl.q hst with h | h | h
        · rw [h] at hs; cases hs
        · exact h
        · exact absurd h hw
      · rcases (kl.c hw).2 with h | h
        · rw [h] at hs; cases hs
        · exact h
    rcases hinv.busy hrun with h | h
    · rw [hinv.cur] at hi; rw [hi] at h; cases h
    · exact hb h
  by_cases hqe : q = []
  · have hns := (hq.1 hqe).2
    subst hqe
    by_cases hc : .close ∈ pre
    · have es : (step conv (fresh (decide (.close ∈ pre)) ([] : List α)) .start).1
          = stuck true false := by simp [hc, fresh, step, stuck]
      rw [es] at e1
      obtain ⟨k1, k2⟩ := exec_stuck conv post hf1 ht1 true false
      by_cases hp : .close ∉ post ∧ ∀ m, .send m ∉ post
      · obtain ⟨r', k', e2⟩ := k1 hp
        refine ⟨fun _ => ⟨hc, fun m hm => ?_, hp.1⟩, fun _ => ?_⟩
        · rcases List.mem_append.1 hm with h | h
          · exact hns m h
          · exact hp.2 m h
        · have hi := hinv.idle (by rw [e1, e2]; rfl)
          refine ⟨.inr (by rw [e1, e2]; rfl), ?_, hi.2⟩
          rw [hinv.cur]; exact hi.1
      · refine ⟨fun h => absurd h (nostall ?_ ?_), fun h => absurd ⟨h.2.2, fun m hm => h.2.1 m (by simp [hm])⟩ hp⟩
        · rw [e1]; exact k2 hp
        · rw [e1]; exact (exec_stopped conv post _ ht1).2 rfl
    · refine ⟨fun h => absurd h (nostall ?_ ?_), fun h => absurd h.1 hc⟩
      · rw [e1]
        refine (live_exec conv post _ ?_ ?_ hf1 (.inr ?_)).1
        · constructor <;> simp [hc, fresh, step]
        · constructor <;> simp [hc, fresh, step]
        · simp [hc, fresh, step]
      · rw [e1]
        exact (exec_stopped conv post _ ht1).2 (by simp [hc, fresh, step])
  · have hne : 0 < q.length := List.length_pos_iff.2 hqe
    have key : Live (step conv (fresh (decide (.close ∈ pre)) q) .start).1 ∧
        SInv (step conv (fresh (decide (.close ∈ pre)) q) .start).1 ∧
        (step conv (fresh (decide (.close ∈ pre)) q) .start).1.started = true := by
      cases q with
      | nil => exact absurd rfl hqe
      | cons x xs =>
        by_cases hc : .close ∈ pre
        · refine ⟨⟨?_, ?_⟩, ⟨?_, ?_, ?_, ?_⟩, ?_⟩ <;>
            simp [hc, fresh, step, startSendQueue, loop, St.write]
        · refine ⟨⟨?_, ?_⟩, ⟨?_, ?_, ?_, ?_⟩, ?_⟩ <;>
            simp [hc, fresh, step, startSendQueue, loop, St.write]
    refine ⟨fun h => absurd h (nostall ?_ ?_), fun h => ?_⟩
    · rw [e1]; exact (live_exec conv post _ key.1 key.2.1 hf1 (.inr key.2.2)).1
    · rw [e1]; exact (exec_stopped conv post _ ht1).2 key.2.2
    · exact absurd (hq.2 ⟨rfl, fun m hm => h.2.1 m (by simp [hm])⟩) hqe

/-- A schedule which stalls, and stays so when the peer closes too. -/
example : Stalled true ([.close, .start, .readPing, .readMessage 5, .readClose] : List (In Nat)) :=
  (stall_exact true [.close] [.readPing, .readMessage 5, .readClose] (by simp) (by simp) (by simp)).2
    (by simp)

/-- One which does not. -/
example : ¬ Stalled true ([.close, .send 3, .start, .readPing] : List (In Nat)) := fun h =>
  ((stall_exact true [.close, .send 3] [.readPing] (by simp) (by simp) (by simp)).1 h).2.1 3 (by simp)

example : .ub ∈ trace true ([.send 1, .start, .close, .wrote, .writeFailed .dropped] : List (In Nat)) :=
  by decide

end Nbdl.Endpoint
