import Verif.Endpoint.Exact
/-!
# Exactly how often the user is told of the close
-/
namespace Nbdl.Endpoint
open Spec
variable {α : Type}

/-- Something happened, and later something else. -/
def Spec.Before (a b : Obs α) (t : List (Obs α)) : Prop := ∃ pre post, t = pre ++ b :: post ∧ a ∈ pre

theorem before_append (a b : Obs α) (t u : List (Obs α)) :
    Before a b (t ++ u) ↔ Before a b t ∨ (a ∈ t ∧ b ∈ u) ∨ Before a b u := by
  constructor
  · rintro ⟨pre, post, e, ha⟩
    rcases List.append_eq_append_iff.1 e with ⟨v, h1, h2⟩ | ⟨v, h1, h2⟩
    · subst h1
      rcases List.mem_append.1 ha with h | h
      · exact .inr (.inl ⟨h, by rw [h2]; simp⟩)
      · exact .inr (.inr ⟨v, post, h2, h⟩)
    · cases v with
      | nil =>
        simp only [List.append_nil, List.nil_append] at h1 h2
        subst h1
        exact .inr (.inl ⟨ha, by rw [← h2]; simp⟩)
      | cons x v =>
        simp only [List.cons_append, List.cons.injEq] at h2
        obtain ⟨rfl, -⟩ := h2
        exact .inl ⟨pre, v, h1, ha⟩
  · rintro (⟨pre, post, rfl, ha⟩ | ⟨ha, hb⟩ | ⟨pre, post, rfl, ha⟩)
    · exact ⟨pre, post ++ u, by simp, ha⟩
    · obtain ⟨p, q, rfl⟩ := List.append_of_mem hb
      exact ⟨t ++ p, q, by simp, by simp [ha]⟩
    · exact ⟨t ++ pre, post, by simp, by simp [ha]⟩

/-- Nothing of interest happens. -/
def Dull (u : List (Obs α)) : Prop :=
  .note .close ∉ u ∧ .closeRequested ∉ u ∧ .received .readClose ∉ u ∧ .wrote .close ∉ u

theorem before_dull (a b : Obs α) (t u : List (Obs α)) (hb : b ∉ u) :
    Before a b (t ++ u) ↔ Before a b t := by
  rw [before_append]
  constructor
  · rintro (h | h | ⟨pre, post, rfl, -⟩)
    · exact h
    · exact absurd h.2 hb
    · exact absurd (by simp) hb
  · exact .inl

structure ToldInv [DecidableEq α] (s : St α) (t : List (Obs α)) : Prop where
  pend : s.pending = .close ↔ .closeRequested ∈ t ∨ .received .readClose ∈ t
  recv : s.closeReceived = true ↔ .received .readClose ∈ t
  once : .received .readClose ∈ t → s.reading = false ∧ s.started = true
  done : .wrote .close ∈ t → s.inflight = none ∧ s.running = true
  live : s.stopped = false
  count : ∃ x y, closeNotes t = x + y ∧
    ((Before .closeRequested (.received .readClose) t ∧ x = 1) ∨
      (¬ Before .closeRequested (.received .readClose) t ∧ x = 0)) ∧
    ((Before (.received .readClose) (.wrote .close) t ∧ y = 1) ∨
      (¬ Before (.received .readClose) (.wrote .close) t ∧ y = 0))

theorem count_dull [DecidableEq α] (t u : List (Obs α)) (h : .note .close ∉ u) :
    closeNotes (t ++ u) = closeNotes t := by
  simp [closeNotes, List.count_append, List.count_eq_zero.2 h]

/-- A step at which nothing of interest happens. -/
theorem told_dull [DecidableEq α] (s s' : St α) (t u : List (Obs α)) (h : ToldInv s t) (hu : Dull u)
    (hp : s'.pending = .close ↔ s.pending = .close) (hc : s'.closeReceived = s.closeReceived)
    (hr : .received .readClose ∈ t → s'.reading = s.reading)
    (hst : s.started = true → s'.started = true)
    (hd : .wrote .close ∈ t → s'.inflight = s.inflight ∧ s'.running = s.running)
    (hs : s'.stopped = s.stopped) : ToldInv s' (t ++ u) := by
  obtain ⟨u1, u2, u3, u4⟩ := hu
  constructor
  · rw [hp, h.pend]; simp [u2, u3]
  · rw [hc, h.recv]; simp [u3]
  · intro hm
    have hm' : .received .readClose ∈ t := by simpa [u3] using hm
    exact ⟨(hr hm').trans (h.once hm').1, hst (h.once hm').2⟩
  · intro hm
    have hm' : .wrote .close ∈ t := by simpa [u4] using hm
    exact ⟨(hd hm').1.trans (h.done hm').1, (hd hm').2.trans (h.done hm').2⟩
  · exact hs.trans h.live
  · obtain ⟨x, y, e, hx, hy⟩ := h.count
    refine ⟨x, y, ?_, ?_, ?_⟩
    · rw [count_dull t u u1]; exact e
    · rwa [before_dull _ _ t u u3]
    · rwa [before_dull _ _ t u u4]

theorem loop_dull (s : St α) : Dull (loop s).2 := by
  unfold loop Dull
  cases s.pending <;> cases s.queue <;> simp [St.write]

theorem start_dull (s : St α) : Dull (startSendQueue s).2 := by
  unfold startSendQueue
  split
  · simp [Dull]
  · exact loop_dull _

theorem start_running (s : St α) (h : s.running = true) : (startSendQueue s).1 = s := by
  unfold startSendQueue; simp [h]

theorem told_close [DecidableEq α] (s s' : St α) (t u : List (Obs α)) (h : ToldInv s t)
    (hu : Dull u) (hp : s'.pending = .close) (hc : s'.closeReceived = s.closeReceived)
    (hr : s'.reading = s.reading) (hst : s'.started = s.started)
    (hd : .wrote .close ∈ t → s'.inflight = s.inflight ∧ s'.running = s.running)
    (hs : s'.stopped = s.stopped) : ToldInv s' (t ++ .closeRequested :: u) := by
  obtain ⟨u1, u2, u3, u4⟩ := hu
  constructor
  · simp [hp]
  · rw [hc, h.recv]; simp [u3]
  · intro hm
    have hm' : .received .readClose ∈ t := by simpa [u3] using hm
    exact ⟨hr.trans (h.once hm').1, hst.trans (h.once hm').2⟩
  · intro hm
    have hm' : .wrote .close ∈ t := by simpa [u4] using hm
    exact ⟨(hd hm').1.trans (h.done hm').1, (hd hm').2.trans (h.done hm').2⟩
  · exact hs.trans h.live
  · obtain ⟨x, y, e, hx, hy⟩ := h.count
    refine ⟨x, y, ?_, ?_, ?_⟩
    · rw [count_dull t _ (by simp [u1])]; exact e
    · rwa [before_dull _ _ t _ (by simp [u3])]
    · rwa [before_dull _ _ t _ (by simp [u4])]

theorem start_dull_state (s : St α) (t : List (Obs α)) (P : Prop)
    (h : P → s.inflight = none ∧ s.running = true) :
    P → (startSendQueue s).1.inflight = s.inflight ∧ (startSendQueue s).1.running = s.running := by
  intro hp
  rw [start_running s (h hp).2]
  exact ⟨rfl, rfl⟩

theorem loop_run (s : St α) (h : s.started = true) :
    (loop s).1.running = true → (loop s).1.started = true := fun _ => by
  rw [(loop_facts s).2.2.2.1]; exact h

theorem start_run (s : St α) (h : s.running = true → s.started = true) :
    (startSendQueue s).1.running = true → (startSendQueue s).1.started = true := by
  unfold startSendQueue
  split
  · exact h
  · rename_i hc
    refine loop_run _ ?_
    simp at hc
    exact hc.2.2

theorem run_step (conv : Bool) (s : St α) (h : s.running = true → s.started = true)
    (hS : SInv s) (i : In α) :
    (step conv s i).1.running = true → (step conv s i).1.started = true := by
  unfold step
  by_cases hb : s.broken
  · rw [if_pos hb]; exact h
  rw [if_neg hb]
  cases i with
  | send m => exact start_run _ h
  | close => exact start_run _ h
  | start =>
    simp only
    split
    · split
      · exact start_run _ fun _ => rfl
      · exact fun _ => rfl
    · exact h
  | stop => exact h
  | wrote =>
    cases hf : s.inflight with
    | none => exact h
    | some f =>
      have hr : s.running = true := by
        cases hr : s.running with
        | true => rfl
        | false => have := hS.idle hr; rw [hf] at this; cases this
      cases f with
      | data m => exact loop_run _ (h hr)
      | close => exact h
      | pong => exact h
  | writeFailed e =>
    cases hf : s.inflight with
    | none => exact h
    | some f =>
      cases f with
      | data m => intro hx; cases hx
      | close => exact h
      | pong => exact h
  | readClose =>
    simp only; split
    · simp only [onRead]; split
      · exact h
      · exact start_run _ h
    · exact h
  | readMessage m => simp only; split <;> exact h
  | readPing => simp only; split <;> exact h
  | readPong => simp only; split <;> exact h
  | readBad => simp only; split <;> exact h
  | readError e => simp only; split <;> exact h

theorem told_step [DecidableEq α] (conv : Bool) (s : St α) (t : List (Obs α)) (h : ToldInv s t)
    (hi : Inv s t) (hR : s.running = true → s.started = true) (hS : SInv s) (i : In α) (hf : ∀ e, i ≠ .writeFailed e) (ht : i ≠ .stop) :
    ToldInv (step conv s i).1 (t ++ (step conv s i).2) := by
  have note_ne : ∀ n, n ≠ .close → Dull (callHandler s n) := by
    intro n hn
    unfold callHandler
    split
    · simp [Dull]
    · simp [Dull]; exact fun e => hn e.symm
  unfold step
  by_cases hb : s.broken
  · rw [if_pos hb]; simpa using h
  rw [if_neg hb]
  cases i with
  | stop => exact absurd rfl ht
  | writeFailed e => exact absurd rfl (hf e)
  | send m =>
    obtain ⟨f1, f2, f3, f4, f5, f6, f7⟩ := start_facts { s with queue := s.queue ++ [m] }
    obtain ⟨d1, d2, d3, d4⟩ := start_dull { s with queue := s.queue ++ [m] }
    refine told_dull s _ t _ h ⟨by simp [d1], by simp [d2], by simp [d3], by simp [d4]⟩ ?_ f1
      (fun _ => f5) (fun hs => f4.trans hs) ?_ f7
    · rw [f2]
    · exact start_dull_state { s with queue := s.queue ++ [m] } t _ h.done
  | close =>
    obtain ⟨f1, f2, f3, f4, f5, f6, f7⟩ := start_facts { s with pending := .close }
    exact told_close s _ t _ h (start_dull _) f2 f1 f5 f4
      (start_dull_state { s with pending := .close } t _ h.done) f7
  | start =>
    by_cases hc : ¬ s.started ∧ ¬ s.stopped
    · have hns : .received .readClose ∉ t := fun hm => hc.1 (h.once hm).2
      have hnw : .wrote .close ∉ t := fun hm => hc.1 (hR (h.done hm).2)
      rw [if_pos hc]
      by_cases hq : ({ s with started := true, reading := true } : St α).queue.length > 0
      · simp only [hq, if_true]
        obtain ⟨f1, f2, f3, f4, f5, f6, f7⟩ :=
          start_facts { s with started := true, reading := true }
        exact told_dull s _ t _ h (start_dull _) (by rw [f2]) f1 (fun hm => absurd hm hns)
          (fun _ => f4) (fun hm => absurd hm hnw) f7
      · simp only [hq, if_false]
        exact told_dull s _ t _ h (by simp [Dull]) Iff.rfl rfl (fun hm => absurd hm hns)
          (fun _ => rfl) (fun _ => ⟨rfl, rfl⟩) rfl
    · rw [if_neg hc]; simpa using h
  | wrote =>
    cases hfl : s.inflight with
    | none => simpa [hfl] using h
    | some f =>
      have hnw : .wrote .close ∉ t := fun hm => by
        have := (h.done hm).1; rw [hfl] at this; cases this
      cases f with
      | data m =>
        simp only [onWrote]
        obtain ⟨f1, f2, f3, f4, f5, f6, f7⟩ :=
          loop_facts { s with inflight := none, queue := s.queue.tail }
        obtain ⟨d1, d2, d3, d4⟩ := loop_dull { s with inflight := none, queue := s.queue.tail }
        exact told_dull s _ t _ h ⟨by simp [d1], by simp [d2], by simp [d3], by simp [d4]⟩
          (by rw [f2]) f1 (fun _ => f5) (fun hs => f4.trans hs) (fun hm => absurd hm hnw) f7
      | pong => exact absurd hfl hi.nopong
      | close =>
        simp only [onWrote]
        have hl := h.live
        obtain ⟨x, y, e, hx, hy⟩ := h.count
        have hny : ¬ Before (.received .readClose) (.wrote .close) t := by
          rintro ⟨pre, post, rfl, -⟩; exact hnw (by simp)
        have hy0 : y = 0 := by
          rcases hy with hy | hy
          · exact absurd hy.1 hny
          · exact hy.2
        have hrun : s.running = true := by
          cases hr : s.running with
          | true => rfl
          | false => have := (hi.idle hr).1; rw [hfl] at this; cases this
        by_cases hcr : s.closeReceived = true
        · have hm := h.recv.1 hcr
          have hnote : callHandler { s with inflight := none } .close = [.note .close] := by
            simp [callHandler, hl]
          rw [if_pos hcr, hnote]
          constructor
          · simp [h.pend]
          · simp [h.recv]
          · intro hm'; exact h.once (by simpa using hm')
          · intro _; exact ⟨rfl, hrun⟩
          · exact hl
          · refine ⟨x, 1, ?_, ?_, .inl ⟨?_, rfl⟩⟩
            · simp only [closeNotes, List.count_append] at e ⊢
              rw [e, hy0]; simp
            · rwa [before_dull _ _ t _ (by simp)]
            · exact ⟨t, [.note .close], rfl, hm⟩
        · have hm : .received .readClose ∉ t := fun hm => hcr (h.recv.2 hm)
          rw [if_neg hcr]
          constructor
          · simp [h.pend]
          · simp [h.recv]
          · intro hm'; exact h.once (by simpa using hm')
          · intro _; exact ⟨rfl, hrun⟩
          · exact hl
          · refine ⟨x, 0, ?_, ?_, .inr ⟨?_, rfl⟩⟩
            · rw [count_dull t _ (by simp), e, hy0]
            · rwa [before_dull _ _ t _ (by simp)]
            · rw [before_append]
              rintro (hx | hx | ⟨pre, post, hx, hx2⟩)
              · exact hny hx
              · exact hm hx.1
              · cases pre with
                | nil => cases hx2
                | cons p pre => simp at hx
  | readClose =>
    by_cases hr : s.reading
    · have hnr : .received .readClose ∉ t := fun hm => by
        have := (h.once hm).1; rw [hr] at this; cases this
      simp only [hr, if_true, onRead]
      obtain ⟨x, y, e, hx, hy⟩ := h.count
      have hnx : ¬ Before .closeRequested (.received .readClose) t := by
        rintro ⟨pre, post, rfl, -⟩; exact hnr (by simp)
      have hx0 : x = 0 := by
        rcases hx with hx | hx
        · exact absurd hx.1 hnx
        · exact hx.2
      have hl := h.live
      have hstart : s.started = true := hS.read hr
      by_cases hp : s.pending = .close
      · have hreq : .closeRequested ∈ t := (h.pend.1 hp).resolve_right hnr
        have hnote : callHandler { s with closeReceived := true, reading := false, pending := .close }
            .close = [.note .close] := by simp [callHandler, hl]
        simp only [hp, if_true]
        rw [hnote]
        constructor
        · simp
        · simp
        · intro _; exact ⟨rfl, hstart⟩
        · intro hm; exact h.done (by simpa using hm)
        · exact hl
        · refine ⟨1, y, ?_, .inl ⟨⟨t, _, rfl, hreq⟩, rfl⟩, ?_⟩
          · simp only [closeNotes, List.count_append] at e ⊢
            rw [e, hx0]; simp; omega
          · rwa [before_dull _ _ t _ (by simp)]
      · have hreq : .closeRequested ∉ t := fun hm => hp (h.pend.2 (.inl hm))
        simp only [hp, if_false]
        obtain ⟨f1, f2, f3, f4, f5, f6, f7⟩ :=
          start_facts { s with closeReceived := true, reading := false, pending := .close }
        obtain ⟨d1, d2, d3, d4⟩ :=
          start_dull { s with closeReceived := true, reading := false, pending := .close }
        constructor
        · rw [f2]; simp
        · rw [f1]; simp
        · intro _; exact ⟨f5, f4.trans hstart⟩
        · intro hm
          have hm' : .wrote .close ∈ t := by simpa [d4] using hm
          rw [start_running { s with closeReceived := true, reading := false, pending := .close }
            (h.done hm').2]
          exact h.done hm'
        · rw [f7]; exact hl
        · refine ⟨0, y, ?_, .inr ⟨?_, rfl⟩, ?_⟩
          · rw [count_dull t _ (by simp [d1]), e, hx0]
          · rw [before_append]
            rintro (hx | hx | ⟨pre, post, hx, hx2⟩)
            · exact hnx hx
            · exact hreq hx.1
            · cases pre with
              | nil => cases hx2
              | cons p pre =>
                simp only [List.cons_append, List.cons.injEq] at hx
                exact d3 (by rw [hx.2]; simp)
          · rwa [before_dull _ _ t _ (by simp [d4])]
    · simp only [hr, if_false]; simpa using h
  | readMessage m =>
    by_cases hr : s.reading
    · simp only [hr, if_true, onRead]
      obtain ⟨d1, d2, d3, d4⟩ := note_ne (.message m) (by simp)
      exact told_dull s _ t _ h ⟨by simp [d1], by simp [d2], by simp [d3], by simp [d4]⟩ Iff.rfl rfl
        (fun _ => rfl) id (fun _ => ⟨rfl, rfl⟩) rfl
    · simp only [hr, if_false]; simpa using h
  | readPing =>
    by_cases hr : s.reading
    · simp only [hr, if_true, onRead]
      exact told_dull s _ t _ h (by simp [Dull]) (by cases s.pending <;> simp [toPong]) rfl
        (fun _ => hr.symm) id (fun _ => ⟨rfl, rfl⟩) rfl
    · simp only [hr, if_false]; simpa using h
  | readPong =>
    by_cases hr : s.reading
    · simp only [hr, if_true, onRead]
      exact told_dull s _ t _ h (by simp [Dull]) Iff.rfl rfl
        (fun _ => rfl) id (fun _ => ⟨rfl, rfl⟩) rfl
    · simp only [hr, if_false]; simpa using h
  | readBad =>
    by_cases hr : s.reading
    · have hnr : .received .readClose ∉ t := fun hm => by
        have := (h.once hm).1; rw [hr] at this; cases this
      simp only [hr, if_true, onRead]
      obtain ⟨d1, d2, d3, d4⟩ := note_ne .badRequest (by simp)
      exact told_dull s _ t _ h ⟨by simp [d1], by simp [d2], by simp [d3], by simp [d4]⟩ Iff.rfl rfl
        (fun hm => absurd hm hnr) id (fun _ => ⟨rfl, rfl⟩) rfl
    · simp only [hr, if_false]; simpa using h
  | readError e =>
    by_cases hr : s.reading
    · have hnr : .received .readClose ∉ t := fun hm => by
        have := (h.once hm).1; rw [hr] at this; cases this
      simp only [hr, if_true, onRead]
      obtain ⟨d1, d2, d3, d4⟩ := note_ne (.error e) (by simp)
      exact told_dull s _ t _ h ⟨by simp [d1], by simp [d2], by simp [d3], by simp [d4]⟩ Iff.rfl rfl
        (fun hm => absurd hm hnr) id (fun _ => ⟨rfl, rfl⟩) rfl
    · simp only [hr, if_false]; simpa using h

theorem told_exec [DecidableEq α] (conv : Bool) (is : List (In α)) (s : St α) (t : List (Obs α))
    (h : ToldInv s t) (hi : Inv s t) (hR : s.running = true → s.started = true) (hS : SInv s)
    (hf : ∀ e, .writeFailed e ∉ is) (ht : .stop ∉ is) :
    ToldInv (exec conv s is).1 (t ++ (exec conv s is).2) := by
  induction is generalizing s t with
  | nil => simpa [exec] using h
  | cons i is ih =>
    simp only [exec]
    have h1 := told_step conv s t h hi hR hS i (fun e he => hf e (by simp [he]))
      (fun he => ht (by simp [he]))
    have := ih _ _ h1 (inv_step conv s t hi i) (run_step conv s hR hS i) (sinv_step conv s hS i)
      (fun e he => hf e (by simp [he])) (fun he => ht (by simp [he]))
    simpa using this

theorem not_before_nil (a b : Obs α) : ¬ Before a b [] := by
  rintro ⟨pre, post, h, -⟩; simp at h

/-- C12, exactly, for schedules in which no write fails and the endpoint is not stopped: the user is
told of the close once for receiving the peer's close frame after having asked for the close, and once
for our close frame having been written after the peer's was received; and never else. -/
theorem close_told_exact [DecidableEq α] (conv : Bool) (is : List (In α))
    (hf : ∀ e, .writeFailed e ∉ is) (ht : .stop ∉ is) :
    (closeNotes (trace conv is) = 2 ↔
      Before .closeRequested (.received .readClose) (trace conv is) ∧
      Before (.received .readClose) (.wrote .close) (trace conv is)) ∧
    (closeNotes (trace conv is) = 0 ↔
      ¬ Before .closeRequested (.received .readClose) (trace conv is) ∧
      ¬ Before (.received .readClose) (.wrote .close) (trace conv is)) ∧
    closeNotes (trace conv is) ≤ 2 := by
  have h := told_exec conv is {} [] ⟨by simp, by simp, by simp, by simp, rfl,
    ⟨0, 0, by simp [closeNotes], .inr ⟨not_before_nil _ _, rfl⟩, .inr ⟨not_before_nil _ _, rfl⟩⟩⟩
    inv_init (by simp) ⟨by simp, by simp, by simp, by simp⟩ hf ht
  have hc := h.count
  simp only [List.nil_append] at hc
  change ∃ x y, closeNotes (trace conv is) = x + y ∧
    ((Before .closeRequested (.received .readClose) (trace conv is) ∧ x = 1) ∨
      (¬ Before .closeRequested (.received .readClose) (trace conv is) ∧ x = 0)) ∧
    ((Before (.received .readClose) (.wrote .close) (trace conv is) ∧ y = 1) ∨
      (¬ Before (.received .readClose) (.wrote .close) (trace conv is) ∧ y = 0)) at hc
  obtain ⟨x, y, e, hx, hy⟩ := hc
  rw [e]
  rcases hx with ⟨hx, rfl⟩ | ⟨hx, rfl⟩ <;> rcases hy with ⟨hy, rfl⟩ | ⟨hy, rfl⟩ <;> simp [hx, hy]

/-- We ask for the close, the peer's arrives meanwhile, and then ours is written: told twice. -/
example : closeNotes (trace true ([.start, .send 1, .close, .readClose, .wrote, .wrote] : List (In Nat)))
    = 2 := by decide
example : (∀ e, .writeFailed e ∉ ([.start, .send 1, .close, .readClose, .wrote, .wrote] : List (In Nat)))
    ∧ .stop ∉ ([.start, .send 1, .close, .readClose, .wrote, .wrote] : List (In Nat)) := by simp
/-- The peer asks for it: told once. -/
example : closeNotes (trace true ([.start, .send 1, .readClose, .wrote, .wrote] : List (In Nat)))
    = 1 := by decide

end Nbdl.Endpoint
