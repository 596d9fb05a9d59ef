import Verif.Endpoint.Lemmas
import Verif.Ws.Props
/-!
Endpoint properties C10–C15, C57, C58.  Every theorem quantifies over all sequences of inputs `is`
(any interleaving of API calls, received frames, and write completions and failures).
-/
namespace Nbdl.Endpoint
open Spec
variable {α : Type}

/-- A schedule used to show that the theorems speak about non-trivial runs: two messages are sent
before messaging starts, a message arrives, the peer closes, everything is written. -/
def sample : List (In Nat) :=
  [.send 1, .start, .send 2, .readMessage 7, .wrote, .wrote, .readPing, .readClose, .wrote]

example : trace true sample =
    [.accepted 1, .begin (.data 1), .accepted 2, .received (.readMessage 7), .note (.message 7),
     .wrote (.data 1), .begin (.data 2), .wrote (.data 2), .received .readPing,
     .received .readClose, .begin .close, .wrote .close, .note .close] := by decide

/-! ## C10 -/

/-- C10: at every moment the accepted messages are those completely written, in the same order and
without duplicates, followed by those still queued; and a data message being written is always the
oldest one not yet written. -/
theorem queue_fifo_lossless (conv : Bool) (is : List (In α)) :
    accepted (trace conv is) = written (trace conv is) ++ (exec conv {} is).1.queue
    ∧ ∀ m, inFlight none (trace conv is) = some (.data m) →
        ∃ rest, accepted (trace conv is) = written (trace conv is) ++ m :: rest := by
  have h := inv_trace conv is
  refine ⟨h.fifo, fun m hm => ?_⟩
  rw [h.cur] at hm
  obtain ⟨h1, -⟩ := h.data m hm
  cases hq : (exec conv {} is).1.queue with
  | nil => rw [hq] at h1; simp at h1
  | cons x q =>
    rw [hq] at h1
    simp at h1
    exact ⟨q, by rw [h.fifo, hq, h1]⟩

example : inFlight none (trace true (sample.take 5)) = some (.data 2) := by decide

/-! ## C11 -/

/-- C11: once the endpoint has begun to send its close frame, it never begins another frame. -/
theorem nothing_after_close (conv : Bool) (is : List (In α)) (pre post : List (Obs α))
    (h : trace conv is = pre ++ .begin .close :: post) (f : Frame α) : .begin f ∉ post := by
  have hp := (inv_trace conv is).after
  rw [h] at hp
  have := (List.pairwise_cons.1 (List.pairwise_append.1 hp).2.1).1
  intro hm
  exact this _ hm rfl f rfl

example : ∃ pre post, trace true sample = pre ++ .begin .close :: post ∧ post ≠ [] :=
  ⟨(trace true sample).take 10, [.wrote .close, .note .close], by decide, by simp⟩

/-! ## C12 -/

/-- C12, partial: a close notification is preceded by a received close frame (or by a failed write,
when the peer dropped the connection), and by a close request of ours or a received close frame
(which makes us request one).  Missing: that *our* close frame was sent, and "at most once": both
are false, see below. -/
theorem close_note_causes_partial (conv : Bool) (is : List (In α)) (pre post : List (Obs α))
    (h : trace conv is = pre ++ .note .close :: post) :
    (.closeRequested ∈ pre ∨ .received .readClose ∈ pre)
    ∧ (.received .readClose ∈ pre ∨ ∃ m, .failed (.data m) ∈ pre) := by
  have hc := (cinv_exec conv is {} ([] : List (Obs α))
    ⟨by simp, by simp, by rintro p q e; cases p <;> simp at e⟩).caused
  rw [List.nil_append] at hc
  exact hc pre post h

/-- C12, partial: the user is told of the close at most three times … -/
theorem close_notes_partial [DecidableEq α] (conv : Bool) (is : List (In α)) :
    closeNotes (trace conv is) ≤ 3 := by
  have := pot_exec conv is ({} : St α) ⟨by simp, by simp, by simp, by simp⟩
  have e : pot ({} : St α) = 3 := by simp [pot, pot1, pot2, pot3]
  unfold trace
  omega

/-- … three times can happen … -/
theorem close_notes_three_violated :
    ∃ is : List (In Nat), closeNotes (trace true is) = 3 :=
  ⟨[.start, .send 1, .close, .readClose, .writeFailed .dropped, .send 2, .wrote], by decide⟩

/-- … and twice happens in the most ordinary case, without failures: both sides close at the same
time, i.e. the peer's close frame arrives while ours is being written. -/
theorem close_notes_twice_violated :
    ∃ is : List (In Nat), (∀ e, .writeFailed e ∉ is) ∧ closeNotes (trace true is) = 2 :=
  ⟨[.start, .close, .readClose, .wrote], by simp, by decide⟩

/-- C12 fails: the close is announced although our close frame was not even begun. -/
theorem close_note_early_violated :
    ∃ is : List (In Nat), .note .close ∈ trace true is ∧ .begin .close ∉ trace true is :=
  ⟨[.start, .send 1, .close, .readClose], by decide⟩

/-- C12, partial: if the user stops the endpoint when told of the close, they are told once. -/
theorem close_once_if_stopped_partial (conv : Bool) (is : List (In α)) (pre post : List (Obs α))
    (h : trace conv is = pre ++ .note .close :: .stopped :: post) : .note .close ∉ post := by
  have hp := (inv_trace conv is).quiet
  rw [h] at hp
  have := (List.pairwise_cons.1 (List.pairwise_cons.1 (List.pairwise_append.1 hp).2.1).2).1
  intro hm
  exact this _ hm rfl _ rfl

example : trace true ([.start, .close, .readClose, .stop, .wrote] : List (In Nat)) =
    [.closeRequested, .begin .close, .received .readClose] ++ .note .close :: .stopped :: [.wrote .close] := by
  decide

/-! ## C13 -/

/-- C13 (a): after `stop()` the user's handler is never called again. -/
theorem quiet_after_stop (conv : Bool) (is : List (In α)) (pre post : List (Obs α))
    (h : trace conv is = pre ++ .stopped :: post) (n : Note α) : .note n ∉ post := by
  have hp := (inv_trace conv is).quiet
  rw [h] at hp
  have := (List.pairwise_cons.1 (List.pairwise_append.1 hp).2.1).1
  intro hm
  exact this _ hm rfl n rfl

example : ∃ pre post, trace true ([.start, .stop, .readMessage 3] : List (In Nat))
    = pre ++ .stopped :: post ∧ post ≠ [] := ⟨[], [.received (.readMessage 3)], by decide, by simp⟩

/-- C13 (b) fails: after `stop()` the send loop still starts new writes. -/
theorem send_after_stop_violated :
    ∃ (is : List (In Nat)) (pre post : List (Obs Nat)),
      trace true is = pre ++ .stopped :: post ∧ ∃ f, .begin f ∈ post :=
  ⟨[.start, .send 1, .send 2, .stop, .wrote],
    [.accepted 1, .begin (.data 1), .accepted 2], [.wrote (.data 1), .begin (.data 2)],
    by decide, .data 2, by decide⟩

/-- C13 (b), partial: a write begun after `stop()` directly follows the success of an earlier one:
if no write was in flight at `stop()`, none is ever begun again. -/
theorem no_send_after_stop_partial (conv : Bool) (is js : List (In α))
    (hidle : inFlight none (trace conv is) = none) (hs : (exec conv {} is).1.stopped = true)
    (f : Frame α) : .begin f ∉ (exec conv (exec conv {} is).1 js).2 := by
  have hcur := (inv_trace conv is).cur
  rw [hidle] at hcur
  generalize (exec conv {} is).1 = s at *
  clear hidle
  induction js generalizing s with
  | nil => simp [exec]
  | cons j js ih =>
    have key : (.begin f ∉ (step conv s j).2) ∧ (step conv s j).1.stopped = true
        ∧ (step conv s j).1.inflight = none := by
      have sq : ∀ s' : St α, s'.stopped = true → startSendQueue s' = (s', []) := by
        intro s' h; unfold startSendQueue; simp [h]
      have ch : ∀ n (s' : St α), s'.stopped = true → callHandler s' n = [] := by
        intro n s' h; simp [callHandler, h]
      unfold step
      by_cases hb : s.broken
      · rw [if_pos hb]; simp [hs, ← hcur]
      rw [if_neg hb]
      cases j with
      | send m => simp [sq, hs, ← hcur]
      | close => simp [sq, hs, ← hcur]
      | start => simp [hs, ← hcur]
      | stop => simp [← hcur]
      | wrote => simp [← hcur, hs]
      | writeFailed e => simp [← hcur, hs]
      | readClose =>
        simp only
        split
        · simp only [onRead]
          split <;> simp [ch, sq, hs, ← hcur]
        · simp [hs, ← hcur]
      | readMessage m => simp only; split <;> simp [onRead, ch, hs, ← hcur]
      | readPing => simp only; split <;> simp [onRead, hs, ← hcur]
      | readPong => simp only; split <;> simp [onRead, hs, ← hcur]
      | readBad => simp only; split <;> simp [onRead, ch, hs, ← hcur]
      | readError e => simp only; split <;> simp [onRead, ch, hs, ← hcur]
    simp only [exec, List.mem_append, not_or]
    exact ⟨key.1, ih _ key.2.1 key.2.2.symm⟩

example : inFlight none (trace true ([.start, .send 1, .wrote, .stop] : List (In Nat))) = none
    ∧ (exec true {} ([.start, .send 1, .wrote, .stop] : List (In Nat))).1.stopped = true := by decide

/-! ## C14 -/

/-- C14: a write begins only when no write is in progress. -/
theorem one_write_at_a_time (conv : Bool) (is : List (In α)) : Serial (trace conv is) :=
  serial_of_from _ (inv_trace conv is).serial

/-! ## C15 -/

/-- C15 fails completely: whatever happens, no pong is ever sent. -/
theorem ping_never_answered_violated (conv : Bool) (is : List (In α)) :
    .begin .pong ∉ trace conv is := (inv_trace conv is).nopong'

/-- … although pings are received. -/
example : .received .readPing ∈ trace true sample := by decide

/-! ## C57 pending work is being worked on -/

/-- C57, partial: as long as no write fails and `send_close` is not called before
`start_messaging`, an endpoint that is started and not stopped is writing whenever there is a
queued message or a requested close, unless the close frame has already been sent (after which
nothing more is due). -/
theorem no_stall_partial (conv : Bool) (is js : List (In α))
    (hc : .close ∉ is) (hf : ∀ e, .writeFailed e ∉ is ++ .start :: js)
    (hs : (exec conv {} (is ++ .start :: js)).1.stopped = false)
    (hw : (exec conv {} (is ++ .start :: js)).1.queue ≠ []
      ∨ (exec conv {} (is ++ .start :: js)).1.pending = .close) :
    inFlight none (trace conv (is ++ .start :: js)) ≠ none
      ∨ .begin .close ∈ trace conv (is ++ .start :: js) := by
  have hinv := inv_trace conv (is ++ .start :: js)
  have key : Live (exec conv {} (is ++ .start :: js)).1
      ∧ ((exec conv {} (is ++ .start :: js)).1.stopped = true
        ∨ (exec conv {} (is ++ .start :: js)).1.broken = true
        ∨ (exec conv {} (is ++ .start :: js)).1.started = true) := by
    rw [exec_append] at hs ⊢
    obtain ⟨l1, s1⟩ := live_exec conv is ({} : St α) ⟨by simp, by simp⟩
      ⟨by simp, by simp, by simp, by simp⟩ (fun e h => hf e (by simp [h])) (.inl hc)
    generalize (exec conv {} is).1 = s at *
    simp only [exec]
    have l2 := live_step conv s l1 .start (by simp) (by simp) s1.read
    have s2 := sinv_step conv s s1 .start
    have st : (step conv s .start).1.started = true ∨ s.stopped = true ∨ s.broken = true := by
      unfold step
      by_cases hb : s.broken
      · exact .inr (.inr hb)
      rw [if_neg hb]
      simp only
      split
      · left; split
        · rw [(start_facts _).2.2.2.1]
        · rfl
      · rename_i h
        by_cases h' : s.started = true
        · exact .inl h'
        · right; left
          cases hst : s.stopped with
          | true => rfl
          | false => exact absurd ⟨h', by simp [hst]⟩ h
    have stop_mono : ∀ (js : List (In α)) (s : St α),
        (s.stopped = true → (exec conv s js).1.stopped = true)
        ∧ (s.broken = true → (exec conv s js).1.broken = true)
        ∧ (s.started = true → (exec conv s js).1.started = true) := by
      intro js
      induction js with
      | nil => intro s; simp [exec]
      | cons j js ih =>
        intro s
        simp only [exec]
        obtain ⟨i1, i2, i3⟩ := ih (step conv s j).1
        refine ⟨fun h => i1 ?_, fun h => i2 ?_, fun h => i3 (started_step conv s j h)⟩
        · have sf := fun s' : St α => (start_facts s').2.2.2.2.2.2
          unfold step
          by_cases hb : s.broken
          · rw [if_pos hb]; exact h
          rw [if_neg hb]
          cases j with
          | send m => simp [sf, h]
          | close => simp [sf, h]
          | start => simp [h]
          | stop => simp
          | wrote =>
            cases hf : s.inflight with
            | none => simp [h]
            | some f => cases f <;> simp [onWrote, h, (loop_facts _).2.2.2.2.2.2]
          | writeFailed e =>
            cases hf : s.inflight with
            | none => simp [h]
            | some f => cases f <;> simp [onWriteFailed, h]
          | readClose => simp only; split; simp only [onRead]; split <;> simp [sf, h]; simp [h]
          | readMessage m => simp only; split <;> simp [onRead, h]
          | readPing => simp only; split <;> simp [onRead, h]
          | readPong => simp only; split <;> simp [onRead, h]
          | readBad => simp only; split <;> simp [onRead, h]
          | readError e => simp only; split <;> simp [onRead, h]
        · unfold step; rw [if_pos h]; exact h
    have hjs : ∀ e, .writeFailed e ∉ js := fun e h => hf e (by simp [h])
    obtain ⟨m1, m2, m3⟩ := stop_mono js (step conv s .start).1
    obtain ⟨n1, n2, n3⟩ := stop_mono (.start :: js) s
    rcases st with st | st | st
    · exact ⟨(live_exec conv js _ l2 s2 hjs (.inr st)).1, .inr (.inr (m3 st))⟩
    · exfalso
      have := n1 st
      simp only [exec] at hs this
      rw [this] at hs; cases hs
    · refine ⟨?_, .inr (.inl (n2 st))⟩
      have fix : ∀ js, (exec conv s js).1 = s := by
        intro js
        induction js with
        | nil => rfl
        | cons j js ih => simp only [exec]; rw [show (step conv s j).1 = s by unfold step; rw [if_pos st]]; exact ih
      have e := fix (.start :: js)
      simp only [exec] at e
      rw [e]; exact l1
  obtain ⟨kl, kb⟩ := key
  -- a failure of the close frame is the only source of `broken`
  have nb : ∀ (is : List (In α)) (s : St α), (∀ e, .writeFailed e ∉ is) → s.broken = false →
      (exec conv s is).1.broken = false := by
    intro is
    induction is with
    | nil => intro s _ h; exact h
    | cons i is ih =>
      intro s hi hb
      simp only [exec]
      refine ih _ (fun e h => hi e (by simp [h])) ?_
      have lb : ∀ s' : St α, (loop s').1.broken = s'.broken := by
        intro s'; unfold loop; cases s'.pending <;> cases s'.queue <;> simp [St.write]
      have sb : ∀ s' : St α, (startSendQueue s').1.broken = s'.broken := by
        intro s'; unfold startSendQueue; split; rfl; rw [lb]
      unfold step
      rw [if_neg (by simp [hb])]
      cases i with
      | send m => simp [sb, hb]
      | close => simp [sb, hb]
      | start => simp only; split; split; simp [sb, hb]; simp [hb]; simp [hb]
      | stop => simp [hb]
      | wrote =>
        cases hf : s.inflight with
        | none => simp [hb]
        | some f => cases f <;> simp [onWrote, hb, lb]
      | writeFailed e => exact absurd (by simp) (hi e)
      | readClose => simp only; split; simp only [onRead]; split <;> simp [sb, hb]; simp [hb]
      | readMessage m => simp only; split <;> simp [onRead, hb]
      | readPing => simp only; split <;> simp [onRead, hb]
      | readPong => simp only; split <;> simp [onRead, hb]
      | readBad => simp only; split <;> simp [onRead, hb]
      | readError e => simp only; split <;> simp [onRead, hb]
  have hnb := nb (is ++ .start :: js) {} hf rfl
  have hst : (exec conv {} (is ++ .start :: js)).1.started = true := by
    rcases kb with h | h | h
    · rw [h] at hs; cases hs
    · rw [h] at hnb; cases hnb
    · exact h
  have hrun : (exec conv {} (is ++ .start :: js)).1.running = true := by
    rcases hw with hw | hw
    · rcases kl.q hst with h | h | h
      · rw [h] at hs; cases hs
      · exact h
      · exact absurd h hw
    · rcases (kl.c hw).2 with h | h
      · rw [h] at hs; cases hs
      · exact h
  rcases hinv.busy hrun with h | h
  · left; rw [hinv.cur]; intro e; rw [e] at h; cases h
  · exact .inr h

example : (exec true {} ([.send 1] ++ .start :: [.close] : List (In Nat))).1.pending = .close
    ∧ (exec true {} ([.send 1] ++ .start :: [.close] : List (In Nat))).1.stopped = false := by decide

/-- C57 fails when the close is requested before messaging starts: the close frame is never sent,
even though the endpoint was started, whatever frames (other than a close frame) arrive. -/
theorem early_close_stalls_violated (conv : Bool) (ms : List α) :
    trace conv ([.close, .start] ++ ms.map .readMessage)
      = .closeRequested :: (ms.flatMap fun m => [.received (.readMessage m), .note (.message m)]) := by
  unfold trace
  rw [exec_append]
  have e : exec conv ({} : St α) [.close, .start]
      = ({ pending := .close, started := true, reading := true }, [.closeRequested]) := rfl
  rw [e]
  simp only [List.singleton_append, List.cons.injEq, true_and]
  induction ms with
  | nil => rfl
  | cons m ms ih =>
    simp only [List.map_cons, exec, List.flatMap_cons]
    have : step conv ({ pending := .close, started := true, reading := true } : St α) (.readMessage m)
      = ({ pending := .close, started := true, reading := true },
          [.received (.readMessage m), .note (.message m)]) := rfl
    rw [this]
    simp [ih]

/-! ## C58 end to end -/

/-- If writes keep succeeding, the queue drains: from any reachable state that is writing a data
message with no close pending, after as many completions as there are queued messages every
accepted message has been written. -/
theorem queue_drains (conv : Bool) (is : List (In α))
    (hp : (exec conv {} is).1.pending ≠ .close) (hb : (exec conv {} is).1.broken = false)
    (hf : inFlight none (trace conv is) ≠ none) :
    let js := is ++ List.replicate (exec conv {} is).1.queue.length .wrote
    written (trace conv js) = accepted (trace conv js)
    ∧ accepted (trace conv js) = accepted (trace conv is) := by
  have hinv := inv_trace conv is
  have hd : ∃ m, (exec conv {} is).1.inflight = some (.data m) := by
    rw [hinv.cur] at hf
    cases h : (exec conv {} is).1.inflight with
    | none => exact absurd h hf
    | some f =>
      cases f with
      | data m => exact ⟨m, rfl⟩
      | close => exact absurd (hinv.pend (hinv.closef h)) hp
      | pong => exact absurd h hinv.nopong
  intro js
  have key : ∀ (n : Nat) (s : St α), s.queue.length = n → s.pending ≠ .close → s.broken = false →
      (n = 0 ∨ ∃ m, s.inflight = some (.data m)) →
      (exec conv s (List.replicate n .wrote)).1.queue = []
      ∧ accepted (exec conv s (List.replicate n .wrote)).2 = [] := by
    intro n
    induction n with
    | zero => intro s hq _ _ _; exact ⟨by simpa [exec] using hq, rfl⟩
    | succ n ih =>
      intro s hq hp hb hm
      obtain ⟨m, hm⟩ : ∃ m, s.inflight = some (.data m) := by
        rcases hm with h | h
        · omega
        · exact h
      simp only [List.replicate_succ, exec]
      have st : step conv s .wrote
          = ((loop { s with inflight := none, queue := s.queue.tail }).1,
             .wrote (.data m) :: (loop { s with inflight := none, queue := s.queue.tail }).2) := by
        unfold step; rw [if_neg (by simp [hb])]; simp [hm, onWrote]
      rw [st]
      have lf := loop_facts { s with inflight := none, queue := s.queue.tail }
      have lb : (loop { s with inflight := none, queue := s.queue.tail }).1.broken = false := by
        unfold loop; cases s.pending <;> cases s.queue.tail <;> simp [St.write, hb]
      have ht : s.queue.tail.length = n := by simp [hq]
      have li : n = 0 ∨ ∃ m, (loop { s with inflight := none, queue := s.queue.tail }).1.inflight
          = some (.data m) := by
        cases hq' : s.queue.tail with
        | nil => left; rw [hq'] at ht; simpa using ht.symm
        | cons x q =>
          right
          unfold loop
          cases hp' : s.pending with
          | close => exact absurd hp' hp
          | none => exact ⟨x, by simp [St.write]⟩
          | pong => exact ⟨x, by simp [St.write]⟩
      have la : accepted (loop { s with inflight := none, queue := s.queue.tail }).2 = [] := by
        unfold loop
        cases s.pending <;> cases s.queue.tail <;> simp [St.write, accepted]
      obtain ⟨i1, i2⟩ := ih _ (by rw [lf.2.2.2.2.2.1]; exact ht) (by rw [lf.2.1]; exact hp) lb li
      refine ⟨i1, ?_⟩
      rw [accepted_append]
      simp only [accepted, la, i2, List.append_nil]
  obtain ⟨k1, k2⟩ := key _ _ rfl hp hb (.inr hd)
  have hj := inv_trace conv js
  have e1 : (exec conv {} js).1.queue = [] := by
    show (exec conv {} (is ++ _)).1.queue = []
    rw [exec_append]; exact k1
  refine ⟨by rw [hj.fifo, e1, List.append_nil], ?_⟩
  show accepted (exec conv {} (is ++ _)).2 = accepted (exec conv {} is).2
  rw [exec_append]
  simp only
  rw [accepted_append, k2, List.append_nil]

example : (exec true {} ([.start, .send 1, .send 2, .send 3] : List (In Nat))).1.pending ≠ .close
    ∧ inFlight none (trace true ([.start, .send 1, .send 2, .send 3] : List (In Nat))) ≠ none := by decide

/-- C58, partial: composing the send queue with the framing of both sides.  Whatever the schedule,
the peer's reader, fed with the octets of the data messages written so far, delivers a prefix of the
messages accepted by `send_message`, in order (missing: message lengths that are positive multiples
of 125, for which C05 fails). -/
theorem end_to_end_partial (conv hw : Bool) (is : List (In (List Byte)))
    (hlen : ∀ p ∈ accepted (trace conv is), p = [] ∨ p.length % Ws.maxFrameSize ≠ 0) :
    ∃ rest, accepted (trace conv is)
        = written (trace conv is) ++ rest
      ∧ Ws.run hw [] ((written (trace conv is)).flatMap (Ws.sendMessage Ws.maxFrameSize (by decide) Ws.opText))
        = ((written (trace conv is)).map Ws.Event.message, .waiting) := by
  have h := (queue_fifo_lossless conv is).1
  refine ⟨_, h, Ws.send_receive_partial hw Ws.opText (.inl rfl) _ (fun p hp => hlen p ?_)⟩
  rw [h]; exact List.mem_append_left _ hp

/-- C58, without a condition on the lengths: what the peer's reader delivers is the messages written so
far, each one whose length is a positive multiple of 125 glued to the front of the next one. -/
theorem end_to_end_exact (conv hw : Bool) (is : List (In (List Byte))) :
    ∃ rest, accepted (trace conv is) = written (trace conv is) ++ rest
      ∧ Ws.run hw [] ((written (trace conv is)).flatMap (Ws.sendMessage Ws.maxFrameSize (by decide) Ws.opText))
        = ((Ws.glue Ws.maxFrameSize [] (written (trace conv is))).map Ws.Event.message, .waiting) :=
  ⟨_, (queue_fifo_lossless conv is).1,
    Ws.send_receive_exact hw Ws.maxFrameSize (by decide) (by decide) Ws.opText (.inl rfl) _⟩

/-- C58 fails: a message whose length is a positive multiple of 125 is accepted and written completely,
and the peer's reader does not deliver it. -/
theorem end_to_end_violated (conv hw : Bool) (p : List Byte) (h0 : p ≠ [])
    (h : p.length % Ws.maxFrameSize = 0) :
    accepted (trace conv [.start, .send p, .wrote]) = [p]
    ∧ written (trace conv [.start, .send p, .wrote]) = [p]
    ∧ inFlight none (trace conv [.start, .send p, .wrote]) = none
    ∧ Ws.run hw [] (Ws.sendMessage Ws.maxFrameSize (by decide) Ws.opText p) = ([], .waiting) :=
  ⟨rfl, rfl, rfl, Ws.send_receive_violated hw Ws.opText (.inl rfl) p h0 h⟩

/-! ## C69 nothing before messaging is started -/

/-- C69: until `start_messaging` is called nothing is written and the user's handler is not called;
what `send_message` accepted is all kept in the queue. -/
theorem nothing_before_start (conv : Bool) (is : List (In α)) (h : .start ∉ is) :
    (∀ f, .begin f ∉ trace conv is) ∧ (∀ n, .note n ∉ trace conv is)
    ∧ (exec conv {} is).1.queue = accepted (trace conv is) := by
  have key : ∀ (is : List (In α)) (s : St α), .start ∉ is → s.started = false → s.reading = false →
      s.inflight = none →
      (∀ f, .begin f ∉ (exec conv s is).2) ∧ (∀ n, .note n ∉ (exec conv s is).2)
      ∧ written (exec conv s is).2 = [] := by
    intro is
    induction is with
    | nil => intro s _ _ _ _; simp [exec, written]
    | cons i is ih =>
      intro s hn hs hr hi
      have hn' : .start ∉ is := fun hm => hn (List.mem_cons_of_mem _ hm)
      have hne : i ≠ .start := fun e => hn (by simp [e])
      have sq : ∀ s' : St α, s'.started = false → startSendQueue s' = (s', []) := by
        intro s' h'; simp [startSendQueue, h']
      have st : (step conv s i).1.started = false ∧ (step conv s i).1.reading = false
          ∧ (step conv s i).1.inflight = none
          ∧ (∀ o ∈ (step conv s i).2, (∃ m, o = .accepted m) ∨ o = .closeRequested ∨ o = .stopped) := by
        unfold step
        by_cases hb : s.broken
        · simp [hb, hs, hr, hi]
        · cases i <;> simp_all
      obtain ⟨h1, h2, h3, h4⟩ := st
      obtain ⟨a, b, c⟩ := ih _ hn' h1 h2 h3
      simp only [exec, List.mem_append]
      refine ⟨fun f hf => ?_, fun n hf => ?_, ?_⟩
      · rcases hf with hf | hf
        · rcases h4 _ hf with ⟨m, e⟩ | e | e <;> cases e
        · exact a f hf
      · rcases hf with hf | hf
        · rcases h4 _ hf with ⟨m, e⟩ | e | e <;> cases e
        · exact b n hf
      · generalize (step conv s i).2 = l at h4
        induction l with
        | nil => simpa using c
        | cons o l ihl =>
          have ho := h4 o (by simp)
          have := ihl (fun o' h' => h4 o' (by simp [h']))
          rcases ho with ⟨m, e⟩ | e | e <;> subst e <;> simpa [written] using this
  obtain ⟨a, b, c⟩ := key is {} h rfl rfl rfl
  refine ⟨a, b, ?_⟩
  have := (queue_fifo_lossless conv is).1
  unfold trace at this ⊢
  rw [this, c, List.nil_append]

example : (.start : In Nat) ∉ [In.send 1, .close, .send 2, .stop]
    ∧ accepted (trace true [In.send 1, .close, .send 2, .stop]) = [1, 2] := by decide

/-! ## C59 no undefined behaviour -/

/-- C59 fails: if writing the close frame fails, the completion handler uses the send loop's
resolver after it was deleted. -/
theorem close_failure_ub_violated (conv : Bool) (e : Err) :
    .ub ∈ trace conv ([.start, .close, .writeFailed e] : List (In α)) := by
  simp [trace, exec, step, startSendQueue, loop, St.write, onWriteFailed]

/-- C59, partial: that is the only way: without a failed close-frame write there is none. -/
theorem no_ub_partial (conv : Bool) (is : List (In α))
    (h : .failed .close ∉ trace conv is) : .ub ∉ trace conv is := by
  unfold trace at *
  have key : ∀ (is : List (In α)) (s : St α), .ub ∈ (exec conv s is).2 →
      .failed .close ∈ (exec conv s is).2 := by
    intro is
    induction is with
    | nil => intro s h; simp [exec] at h
    | cons i is ih =>
      intro s hu
      simp only [exec, List.mem_append] at hu ⊢
      rcases hu with hu | hu
      · left
        have lu : ∀ s' : St α, .ub ∉ (loop s').2 := by
          intro s'; unfold loop; cases s'.pending <;> cases s'.queue <;> simp [St.write]
        have su : ∀ s' : St α, .ub ∉ (startSendQueue s').2 := by
          intro s'; unfold startSendQueue; split; simp; exact lu _
        have cu : ∀ (s' : St α) n, .ub ∉ callHandler s' n := by
          intro s' n; unfold callHandler; split <;> simp
        unfold step at hu ⊢
        by_cases hb : s.broken
        · rw [if_pos hb] at hu; simp at hu
        rw [if_neg hb] at hu ⊢
        cases i with
        | send m => simp [su] at hu
        | close => simp [su] at hu
        | start => simp only at hu; split at hu; split at hu; simp [su] at hu; simp at hu; simp at hu
        | stop => simp at hu
        | wrote =>
          cases hf : s.inflight with
          | none => simp [hf] at hu
          | some f =>
            cases f with
            | close =>
              simp only [hf, onWrote] at hu
              split at hu <;> simp [cu] at hu
            | data m => simp [hf, onWrote, lu] at hu
            | pong => simp [hf, onWrote] at hu
        | writeFailed e =>
          cases hf : s.inflight with
          | none => simp [hf] at hu
          | some f =>
            cases f with
            | close => simp
            | data m => simp [hf, onWriteFailed, cu] at hu
            | pong => simp [hf, onWriteFailed] at hu
        | readClose =>
          simp only at hu; split at hu
          · simp only [onRead] at hu; split at hu <;> simp [su, cu] at hu
          · simp at hu
        | readMessage m => simp only at hu; split at hu <;> simp [onRead, cu] at hu
        | readPing => simp only at hu; split at hu <;> simp [onRead] at hu
        | readPong => simp only at hu; split at hu <;> simp [onRead] at hu
        | readBad => simp only at hu; split at hu <;> simp [onRead, cu] at hu
        | readError e => simp only at hu; split at hu <;> simp [onRead, cu] at hu
      · right; exact ih _ hu
  exact fun hu => h (key is _ hu)

/-! ## C59 failed writes are reported -/

theorem loop_keeps (s : St α) : (loop s).1.stopped = s.stopped ∧ (loop s).1.pending = s.pending := by
  unfold loop St.write
  split
  · simp
  · split <;> simp

theorem startSendQueue_keeps (s : St α) :
    (startSendQueue s).1.stopped = s.stopped ∧ (startSendQueue s).1.pending = s.pending := by
  unfold startSendQueue
  split
  · simp
  · exact loop_keeps _

/-- What the flags stand for. -/
def FlagsSeen (s : St α) (tr : List (Obs α)) : Prop :=
  (s.stopped = true → .stopped ∈ tr) ∧
  (s.pending = .close → .closeRequested ∈ tr ∨ .received .readClose ∈ tr)

theorem FlagsSeen.of {s s' : St α} {tr l : List (Obs α)} (h : FlagsSeen s tr) (h1 : s'.stopped = s.stopped)
    (h2 : s'.pending = s.pending) : FlagsSeen s' (tr ++ l) := by
  refine ⟨fun h' => List.mem_append_left _ (h.1 (h1 ▸ h')), fun h' => ?_⟩
  rcases h.2 (h2 ▸ h') with h | h
  · exact .inl (List.mem_append_left _ h)
  · exact .inr (List.mem_append_left _ h)

theorem flags_step (conv : Bool) (s : St α) (tr : List (Obs α)) (i : In α) (h : FlagsSeen s tr) :
    FlagsSeen (step conv s i).1 (tr ++ (step conv s i).2) := by
  unfold step
  by_cases hb : s.broken
  · rw [if_pos hb]; exact h.of rfl rfl
  rw [if_neg hb]
  cases i with
  | send m => exact h.of (startSendQueue_keeps _).1 (startSendQueue_keeps _).2
  | close =>
    refine ⟨fun h' => ?_, fun _ => .inl (by simp)⟩
    rw [(startSendQueue_keeps _).1] at h'
    exact List.mem_append_left _ (h.1 h')
  | start =>
    simp only
    split
    · split
      · exact h.of (startSendQueue_keeps _).1 (startSendQueue_keeps _).2
      · exact h.of rfl rfl
    · exact h.of rfl rfl
  | stop =>
    refine ⟨fun _ => by simp, fun h' => ?_⟩
    rcases h.2 h' with h | h
    · exact .inl (List.mem_append_left _ h)
    · exact .inr (List.mem_append_left _ h)
  | wrote =>
    simp only
    split
    · rename_i f hf
      cases f with
      | close => exact h.of rfl rfl
      | data m => exact h.of (loop_keeps _).1 (loop_keeps _).2
      | pong => exact h.of rfl rfl
    · exact h.of rfl rfl
  | writeFailed e =>
    simp only
    split
    · rename_i f hf
      cases f <;> exact h.of rfl rfl
    · exact h.of rfl rfl
  | readMessage m => simp only; split <;> exact h.of rfl rfl
  | readClose =>
    simp only
    split
    · simp only [onRead]
      split
      · exact h.of rfl rfl
      · refine ⟨fun h' => ?_, fun _ => .inr (by simp)⟩
        rw [(startSendQueue_keeps _).1] at h'
        exact List.mem_append_left _ (h.1 h')
    · exact h.of rfl rfl
  | readPing =>
    simp only
    split
    · refine ⟨fun h' => List.mem_append_left _ (h.1 h'), fun h' => ?_⟩
      have hp : s.pending = .close := by
        simp only [onRead, toPong] at h'
        split at h'
        · assumption
        · simp at h'
      rcases h.2 hp with h | h
      · exact .inl (List.mem_append_left _ h)
      · exact .inr (List.mem_append_left _ h)
    · exact h.of rfl rfl
  | readPong => simp only; split <;> exact h.of rfl rfl
  | readBad => simp only; split <;> exact h.of rfl rfl
  | readError e => simp only; split <;> exact h.of rfl rfl

theorem flags_exec (conv : Bool) : ∀ (is : List (In α)) (s : St α) (tr : List (Obs α)), FlagsSeen s tr →
    FlagsSeen (exec conv s is).1 (tr ++ (exec conv s is).2)
  | [], s, tr, h => by simpa [exec] using h
  | i :: is, s, tr, h => by
    have := flags_exec conv is _ _ (flags_step conv s tr i h)
    simpa only [exec, List.append_assoc] using this

/-- C59, partial: when the write of a message fails, the next thing that happens is that the user's handler is
called, unless the user stopped the endpoint: with the error, or, if the connection was dropped while closing, with
the end of the connection. -/
theorem failed_write_reported_partial (conv : Bool) (is : List (In α)) (e : Err) (m : α)
    (hs : .stopped ∉ trace conv is)
    (hf : .failed (.data m) ∈ (trace conv (is ++ [.writeFailed e])).drop (trace conv is).length) :
    ∃ n, trace conv (is ++ [.writeFailed e]) = trace conv is ++ [.failed (.data m), .note n] ∧
      (n = .error e ∨ n = .close ∧ e = .dropped ∧
        (.closeRequested ∈ trace conv is ∨ .received .readClose ∈ trace conv is)) := by
  have hfl := flags_exec conv is {} [] ⟨by simp, by simp⟩
  simp only [trace, exec_append, exec, List.append_nil, List.drop_append, List.drop_length, List.nil_append,
    Nat.sub_self, List.drop_zero] at *
  generalize (exec conv {} is).1 = s at *
  generalize (exec conv {} is).2 = tr at *
  unfold step at hf ⊢
  by_cases hb : s.broken
  · rw [if_pos hb] at hf; simp at hf
  rw [if_neg hb] at hf ⊢
  have hst : s.stopped = false := by
    cases h : s.stopped with
    | false => rfl
    | true => exact absurd (hfl.1 h) hs
  simp only at hf ⊢
  cases hi : s.inflight with
  | none => simp [hi] at hf
  | some f =>
    cases f with
    | close => simp [hi, onWriteFailed] at hf
    | pong => simp [hi, onWriteFailed] at hf
    | data m' =>
      simp only [hi, onWriteFailed, callHandler, hst, Bool.false_eq_true, if_false, List.mem_cons, List.not_mem_nil,
        or_false, Obs.failed.injEq, Frame.data.injEq, reduceCtorEq] at hf ⊢
      subst hf
      refine ⟨_, rfl, ?_⟩
      split
      · rename_i hc
        exact .inr ⟨rfl, hc.2.2, hfl.2 hc.2.1⟩
      · exact .inl rfl

example : trace true ([.start, .send 1, .writeFailed .other] : List (In Nat))
    = [.accepted 1, .begin (.data 1), .failed (.data 1), .note (.error .other)] := by decide
example : trace true ([.start, .send 1, .close, .writeFailed .dropped] : List (In Nat))
    = [.accepted 1, .begin (.data 1), .closeRequested, .failed (.data 1), .note .close] := by decide

/-- … and the endpoint stays usable: the message is kept and the next message or close request starts the queue
again. -/
theorem usable_after_failure (conv : Bool) (s : St α) (e : Err) (m x : α) (hb : s.broken = false)
    (hs : s.stopped = false) (hst : s.started = true) (hi : s.inflight = some (.data m)) (hp : s.pending ≠ .close)
    (hq : s.queue ≠ []) :
    (step conv (step conv s (.writeFailed e)).1 (.send x)).2 = [.accepted x, .begin (.data (s.queue.head hq))] := by
  obtain ⟨q, qs, hqq⟩ : ∃ q qs, s.queue = q :: qs := by
    cases h : s.queue with
    | nil => exact absurd h hq
    | cons q qs => exact ⟨q, qs, rfl⟩
  cases hpp : s.pending <;>
    simp_all [step, onWriteFailed, startSendQueue, loop, St.write]

example : trace true ([.start, .send 1, .writeFailed .other, .send 2] : List (In Nat))
    = [.accepted 1, .begin (.data 1), .failed (.data 1), .note (.error .other), .accepted 2, .begin (.data 1)] := by decide

end Nbdl.Endpoint
