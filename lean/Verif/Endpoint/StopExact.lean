import Verif.Endpoint.Props
/-!
# Exactly when a write is begun after `stop`

C13.
-/
namespace Nbdl.Endpoint
variable {α : Type}
open Spec

/-- Something to be sent besides the message that is being written: a close frame, because the user asked for it or the peer
sent one, or another message. -/
def Spec.MoreToSend (t : List (Obs α)) : Prop :=
  .closeRequested ∈ t ∨ .received .readClose ∈ t ∨ (written t).length + 1 < (accepted t).length

/-- The completion of a write. -/
def Spec.Completes : In α → Prop
  | .wrote => True
  | .writeFailed _ => True
  | _ => False

private theorem sq {s : St α} (h : s.stopped = true) : startSendQueue s = (s, []) := by
  rw [startSendQueue, if_pos (by simp [h])]

private theorem ch {s : St α} (n : Note α) (h : s.stopped = true) : callHandler s n = [] := by
  rw [callHandler, if_pos h]

/-- A stopped endpoint does nothing between the completions of writes. -/
private theorem quiet_step (conv : Bool) (s : St α) (hs : s.stopped = true) (j : In α) (hj : ¬ Completes j) :
    (∀ f, .begin f ∉ (step conv s j).2) ∧ (step conv s j).1.stopped = true ∧
      (step conv s j).1.inflight = s.inflight ∧ (step conv s j).1.broken = s.broken := by
  unfold step
  by_cases hb : s.broken
  · rw [if_pos hb]; simp [hs]
  rw [if_neg hb]
  cases j with
  | send m => simp [sq, hs]
  | close => simp [sq, hs]
  | start => simp [hs]
  | stop => simp
  | wrote => exact absurd trivial hj
  | writeFailed e => exact absurd trivial hj
  | readClose =>
    simp only
    split
    · simp only [onRead]
      split <;> simp [ch, sq, hs]
    · simp [hs]
  | readMessage m => simp only; split <;> simp [onRead, ch, hs]
  | readPing => simp only; split <;> simp [onRead, hs]
  | readPong => simp only; split <;> simp [onRead, hs]
  | readBad => simp only; split <;> simp [onRead, ch, hs]
  | readError e => simp only; split <;> simp [onRead, ch, hs]

/-- With nothing in flight, nothing is begun any more. -/
private theorem idle_exec (conv : Bool) (js : List (In α)) (s : St α) (hs : s.stopped = true) (hi : s.inflight = none)
    (f : Frame α) : .begin f ∉ (exec conv s js).2 := by
  induction js generalizing s with
  | nil => simp [exec]
  | cons j js ih =>
    have e : (exec conv s (j :: js)).2 = (step conv s j).2 ++ (exec conv (step conv s j).1 js).2 := rfl
    rw [e, List.mem_append, not_or]
    by_cases hj : Completes j
    · have he : step conv s j = (s, []) := by
        unfold step
        by_cases hb : s.broken
        · rw [if_pos hb]
        rw [if_neg hb]
        cases j with
        | wrote => simp only [hi]
        | writeFailed _ => simp only [hi]
        | _ => exact absurd hj (by simp [Completes])
      rw [he]
      exact ⟨by simp, ih s hs hi⟩
    · have q := quiet_step conv s hs j hj
      exact ⟨q.1 f, ih _ q.2.1 (q.2.2.1.trans hi)⟩

/-- A run of events without completions. -/
private theorem quiet_exec (conv : Bool) (js : List (In α)) (s : St α) (hs : s.stopped = true)
    (hj : ∀ j ∈ js, ¬ Completes j) :
    (∀ f, .begin f ∉ (exec conv s js).2) ∧ (exec conv s js).1.stopped = true ∧
      (exec conv s js).1.inflight = s.inflight ∧ (exec conv s js).1.broken = s.broken := by
  induction js generalizing s with
  | nil => simp [exec, hs]
  | cons j js ih =>
    have q := quiet_step conv s hs j (hj j (List.mem_cons_self ..))
    have r := ih _ q.2.1 fun k hk => hj k (List.mem_cons_of_mem _ hk)
    refine ⟨fun f => ?_, r.2.1, r.2.2.1.trans q.2.2.1, r.2.2.2.trans q.2.2.2⟩
    have e : (exec conv s (j :: js)).2 = (step conv s j).2 ++ (exec conv (step conv s j).1 js).2 := rfl
    rw [e, List.mem_append, not_or]
    exact ⟨q.1 f, r.1 f⟩

/-- Once the close frame is asked for, it is. -/
private theorem pend_step (conv : Bool) (s : St α) (j : In α) :
    (s.pending = .close → (step conv s j).1.pending = .close) ∧
      (.closeRequested ∈ (step conv s j).2 ∨ .received .readClose ∈ (step conv s j).2 →
        (step conv s j).1.pending = .close) := by
  have lk : ∀ s' : St α, .closeRequested ∉ (loop s').2 ∧ .received .readClose ∉ (loop s').2 := by
    intro s'; unfold loop; cases s'.pending <;> cases s'.queue <;> simp [St.write]
  have sk : ∀ s' : St α, .closeRequested ∉ (startSendQueue s').2 ∧ .received .readClose ∉ (startSendQueue s').2 := by
    intro s'; unfold startSendQueue; split; simp; exact lk _
  have ck : ∀ (s' : St α) n, .closeRequested ∉ callHandler s' n ∧ .received .readClose ∉ callHandler s' n := by
    intro s' n; unfold callHandler; split <;> simp
  unfold step
  by_cases hb : s.broken
  · rw [if_pos hb]; simp
  rw [if_neg hb]
  cases j with
  | send m => simp [startSendQueue_keeps, sk]
  | close => simp [startSendQueue_keeps]
  | start =>
    simp only
    split
    · split
      · simp [startSendQueue_keeps, sk]
      · simp
    · simp
  | stop => simp
  | wrote =>
    cases hf : s.inflight with
    | none => simp
    | some f =>
      cases f with
      | close => simp only [onWrote]; split <;> simp [ck]
      | data m => simp [onWrote, loop_keeps, lk]
      | pong => simp [onWrote]
  | writeFailed e =>
    cases hf : s.inflight with
    | none => simp
    | some f => cases f <;> simp [onWriteFailed, ck]
  | readClose =>
    simp only
    split
    · simp only [onRead]
      split
      · simp_all
      · simp [startSendQueue_keeps]
    · simp
  | readMessage m => simp only; split <;> simp [onRead, ck]
  | readPing =>
    simp only; split
    · simp only [onRead, List.mem_cons]
      refine ⟨fun h => by rw [h]; rfl, by simp⟩
    · simp
  | readPong => simp only; split <;> simp [onRead]
  | readBad => simp only; split <;> simp [onRead, ck]
  | readError e => simp only; split <;> simp [onRead, ck]

private theorem pend_exec (conv : Bool) (js : List (In α)) (s : St α)
    (h : s.pending = .close ∨ .closeRequested ∈ (exec conv s js).2 ∨ .received .readClose ∈ (exec conv s js).2) :
    (exec conv s js).1.pending = .close := by
  induction js generalizing s with
  | nil => simpa [exec] using h
  | cons j js ih =>
    have p := pend_step conv s j
    have e1 : (exec conv s (j :: js)).1 = (exec conv (step conv s j).1 js).1 := rfl
    have e : (exec conv s (j :: js)).2 = (step conv s j).2 ++ (exec conv (step conv s j).1 js).2 := rfl
    rw [e, List.mem_append, List.mem_append] at h
    rw [e1]
    refine ih _ ?_
    rcases h with h | (h | h) | (h | h)
    · exact .inl (p.1 h)
    · exact .inl (p.2 (.inl h))
    · exact .inr (.inl h)
    · exact .inl (p.2 (.inr h))
    · exact .inr (.inr h)

/-- In what was seen: the send loop goes on after the message that is being written, just when there is more to send. -/
private theorem more_iff (conv : Bool) (is : List (In α)) (m : α)
    (hi : (exec conv {} is).1.inflight = some (.data m)) :
    MoreToSend (trace conv is) ↔ (exec conv {} is).1.pending = .close ∨ (exec conv {} is).1.queue.tail ≠ [] := by
  have iv := inv_trace conv is
  have hq : (written (trace conv is)).length + 1 < (accepted (trace conv is)).length ↔
      (exec conv {} is).1.queue.tail ≠ [] := by
    rw [iv.fifo, List.length_append]
    have := (iv.data m hi).1
    cases hq : (exec conv {} is).1.queue with
    | nil => rw [hq] at this; cases this
    | cons x r =>
      cases r with
      | nil => simp
      | cons y r => simp
  have hp : .closeRequested ∈ trace conv is ∨ .received .readClose ∈ trace conv is ↔
      (exec conv {} is).1.pending = .close := by
    constructor
    · intro h; exact pend_exec conv is {} (.inr h)
    · intro h
      have := (flags_exec conv is {} [] (show FlagsSeen {} [] from ⟨fun h => (by cases h), fun h => (by cases h)⟩)).2 h
      rw [List.nil_append] at this
      exact this
  rw [MoreToSend, ← or_assoc, hp, hq]

/-- No undefined behaviour while a write is in flight. -/
private theorem broken_idle (conv : Bool) (is : List (In α)) (s : St α) (h : s.broken = true → s.inflight = none) :
    (exec conv s is).1.broken = true → (exec conv s is).1.inflight = none := by
  induction is generalizing s with
  | nil => simpa [exec] using h
  | cons j js ih =>
    have e1 : (exec conv s (j :: js)).1 = (exec conv (step conv s j).1 js).1 := rfl
    rw [e1]
    refine ih _ ?_
    have lb : ∀ s' : St α, (loop s').1.broken = s'.broken := by
      intro s'; unfold loop; cases s'.pending <;> cases s'.queue <;> simp [St.write]
    have sb : ∀ s' : St α, (startSendQueue s').1.broken = s'.broken := by
      intro s'; unfold startSendQueue; split; rfl; exact lb _
    unfold step
    by_cases hb : s.broken
    · rw [if_pos hb]; exact h
    rw [if_neg hb]
    cases j with
    | send m => simp [sb, hb]
    | close => simp [sb, hb]
    | start =>
      simp only
      split
      · split
        · simp [sb, hb]
        · simp [hb]
      · simp [hb]
    | stop => simp [hb]
    | wrote =>
      cases hf : s.inflight with
      | none => simp [hb]
      | some f => cases f <;> simp [onWrote, lb, hb]
    | writeFailed e =>
      cases hf : s.inflight with
      | none => simp [hb]
      | some f => cases f <;> simp [onWriteFailed, hb]
    | readClose =>
      simp only
      split
      · simp only [onRead]; split <;> simp [sb, hb]
      · simp [hb]
    | readMessage m => simp only; split <;> simp [onRead, hb]
    | readPing => simp only; split <;> simp [onRead, hb]
    | readPong => simp only; split <;> simp [onRead, hb]
    | readBad => simp only; split <;> simp [onRead, hb]
    | readError e => simp only; split <;> simp [onRead, hb]

private theorem split_first (P : In α → Prop) : ∀ js : List (In α), (∀ j ∈ js, ¬ P j) ∨
    ∃ a c b, js = a ++ c :: b ∧ (∀ j ∈ a, ¬ P j) ∧ P c
  | [] => .inl (by simp)
  | j :: js => by
    by_cases h : P j
    · exact .inr ⟨[], j, js, rfl, by simp, h⟩
    · rcases split_first P js with h' | ⟨a, c, b, e, ha, hc⟩
      · exact .inl fun k hk => by rcases List.mem_cons.mp hk with rfl | hk; exact h; exact h' k hk
      · exact .inr ⟨j :: a, c, b, by rw [e]; rfl, fun k hk => by
          rcases List.mem_cons.mp hk with rfl | hk; exact h; exact ha k hk, hc⟩

private theorem split_unique : ∀ (a a' : List (In α)) (c : In α) (b b' : List (In α)), (∀ j ∈ a, ¬ Completes j) →
    Completes c → (∀ j ∈ a', ¬ Completes j) → a ++ c :: b = a' ++ .wrote :: b' → a = a' ∧ c = .wrote
  | [], [], _, _, _, _, _, _, e => ⟨rfl, (List.cons.inj e).1⟩
  | [], x :: _, c, _, _, _, hc, h1, e => absurd hc ((List.cons.inj e).1 ▸ h1 x (List.mem_cons_self ..))
  | y :: _, [], _, _, _, ha, _, _, e =>
    absurd trivial ((List.cons.inj e).1 ▸ ha y (List.mem_cons_self ..) : ¬ Completes (.wrote : In α))
  | y :: a, x :: a', c, b, b', ha, hc, h1, e => by
    have h := List.cons.inj e
    have := split_unique a a' c b b' (fun j hj => ha j (List.mem_cons_of_mem _ hj)) hc
      (fun j hj => h1 j (List.mem_cons_of_mem _ hj)) h.2
    exact ⟨by rw [h.1, this.1], this.2⟩

/-- C13 (b), exactly: after `stop()` another write is begun if and only if a message was being written then, this write
succeeds, and by that time there is more to send. -/
theorem send_after_stop_exact (conv : Bool) (is js : List (In α)) (hs : .stopped ∈ trace conv is) :
    (∃ f, .begin f ∈ (exec conv (exec conv {} is).1 js).2) ↔
      ∃ m a b, inFlight none (trace conv is) = some (.data m) ∧ js = a ++ .wrote :: b ∧ (∀ j ∈ a, ¬ Completes j) ∧
        MoreToSend (trace conv (is ++ a)) := by
  have iv := inv_trace conv is
  have hst := iv.stop hs
  rw [iv.cur]
  have hbi := broken_idle conv is {} (fun h => by cases h)
  have app : ∀ a, (exec conv {} (is ++ a)).1 = (exec conv (exec conv {} is).1 a).1 := fun a => by
    rw [exec_append]
  rcases split_first Completes js with hj | ⟨a, c, b, rfl, ha, hc⟩
  · have q := quiet_exec conv js _ hst hj
    constructor
    · rintro ⟨f, hf⟩; exact absurd hf (q.1 f)
    · rintro ⟨m, a, b, _, rfl, _⟩
      exact absurd trivial (hj .wrote (by simp))
  · have q := quiet_exec conv a _ hst ha
    have e : (exec conv (exec conv {} is).1 (a ++ c :: b)).2 = (exec conv (exec conv {} is).1 a).2 ++
        ((step conv (exec conv (exec conv {} is).1 a).1 c).2 ++
          (exec conv (step conv (exec conv (exec conv {} is).1 a).1 c).1 b).2) := by
      rw [exec_append]; rfl
    have first : (∃ f, .begin f ∈ (exec conv (exec conv {} is).1 (a ++ c :: b)).2) ↔
        ∃ f, .begin f ∈ (step conv (exec conv (exec conv {} is).1 a).1 c).2 ++
          (exec conv (step conv (exec conv (exec conv {} is).1 a).1 c).1 b).2 := by
      rw [e]
      constructor
      · rintro ⟨f, hf⟩; exact ⟨f, (List.mem_append.mp hf).resolve_left (q.1 f)⟩
      · rintro ⟨f, hf⟩; exact ⟨f, List.mem_append_right _ hf⟩
    rw [first]
    have hmore := more_iff conv (is ++ a)
    rw [app] at hmore
    generalize exec conv (exec conv {} is).1 a = r at *
    obtain ⟨s, o⟩ := r
    simp only at *
    -- the other completions do not matter
    have only : ∀ (m : α), (∃ a' b', a ++ c :: b = a' ++ .wrote :: b' ∧ (∀ j ∈ a', ¬ Completes j) ∧
        MoreToSend (trace conv (is ++ a'))) ↔ c = .wrote ∧ MoreToSend (trace conv (is ++ a)) := by
      intro m
      constructor
      · rintro ⟨a', b', e', h1, h2⟩
        have := split_unique a a' c b b' ha hc h1 e'
        exact ⟨this.2, this.1 ▸ h2⟩
      · rintro ⟨rfl, h⟩; exact ⟨a, b, rfl, ha, h⟩
    have rhs : (∃ m a' b', (exec conv {} is).1.inflight = some (.data m) ∧ a ++ c :: b = a' ++ .wrote :: b' ∧
        (∀ j ∈ a', ¬ Completes j) ∧ MoreToSend (trace conv (is ++ a'))) ↔
        ∃ m, s.inflight = some (.data m) ∧ c = .wrote ∧ MoreToSend (trace conv (is ++ a)) := by
      constructor
      · rintro ⟨m, a', b', h1, h2⟩
        exact ⟨m, q.2.2.1.trans h1, (only m).mp ⟨a', b', h2⟩⟩
      · rintro ⟨m, h1, h2⟩
        obtain ⟨a', b', h3⟩ := (only m).mpr h2
        exact ⟨m, a', b', q.2.2.1.symm.trans h1, h3⟩
    rw [rhs]
    cases hf : s.inflight with
    | none =>
      constructor
      · rintro ⟨f, h⟩
        exact absurd (List.mem_append.mpr (List.mem_append.mp h)) (by
          have := idle_exec conv (c :: b) s q.2.1 hf f
          exact this)
      · rintro ⟨m, h, _⟩; cases h
    | some g =>
      have hnb : s.broken = false := by
        cases hb : s.broken with
        | false => rfl
        | true =>
          have := hbi (q.2.2.2.symm.trans hb)
          rw [← q.2.2.1, hf] at this; cases this
      have estep : step conv s .wrote = ((onWrote { s with inflight := none } g).1,
          .wrote g :: (onWrote { s with inflight := none } g).2) := by
        rw [step, if_neg (by simp [hnb])]; simp only [hf]
      cases c with
      | wrote =>
        rw [estep]
        cases g with
        | data m =>
          have hm := hmore m hf
          constructor
          · rintro ⟨f, h⟩
            refine ⟨m, rfl, rfl, hm.mpr (Classical.byContradiction fun hn => ?_)⟩
            rw [not_or, Classical.not_not] at hn
            have el : onWrote { s with inflight := none } (.data m) =
                ({ s with inflight := none, queue := [], running := false }, []) := by
              rw [onWrote, loop]
              simp only [hn.2]
              cases hp : s.pending with
              | close => exact absurd hp hn.1
              | none => rfl
              | pong => rfl
            rw [el] at h
            rcases List.mem_append.mp h with h | h
            · simp at h
            · exact idle_exec conv b { s with inflight := none, queue := [], running := false } q.2.1 rfl f h
          · rintro ⟨_, _, _, h⟩
            have : ∃ f, .begin f ∈ (onWrote { s with inflight := none } (.data m)).2 := by
              rw [onWrote, loop]
              rcases hm.mp h with h | h
              · simp only [h]; exact ⟨.close, by simp [St.write]⟩
              · cases hq : s.queue.tail with
                | nil => exact absurd hq h
                | cons x l =>
                  cases hp : s.pending with
                  | close => exact ⟨.close, by simp [St.write]⟩
                  | none => exact ⟨.data x, by simp [St.write]⟩
                  | pong => exact ⟨.data x, by simp [St.write]⟩
            obtain ⟨f, h⟩ := this
            exact ⟨f, List.mem_append_left _ (List.mem_cons_of_mem _ h)⟩
        | close =>
          constructor
          · rintro ⟨f, h⟩
            rcases List.mem_append.mp h with h | h
            · simp only [onWrote] at h
              split at h <;> simp [ch, q.2.1] at h
            · exact absurd h (idle_exec conv b { s with inflight := none } q.2.1 rfl f)
          · rintro ⟨_, h, _⟩; cases h
        | pong =>
          constructor
          · rintro ⟨f, h⟩
            rcases List.mem_append.mp h with h | h
            · simp [onWrote] at h
            · exact absurd h (idle_exec conv b { s with inflight := none } q.2.1 rfl f)
          · rintro ⟨_, h, _⟩; cases h
      | writeFailed er =>
        constructor
        · rintro ⟨f, h⟩
          have ef : step conv s (.writeFailed er) = ((onWriteFailed conv { s with inflight := none } er g).1,
              .failed g :: (onWriteFailed conv { s with inflight := none } er g).2) := by
            rw [step, if_neg (by simp [hnb])]; simp only [hf]
          rw [ef] at h
          rcases List.mem_append.mp h with h | h
          · cases g <;> simp [onWriteFailed, ch, q.2.1] at h
          · exact absurd h (idle_exec conv b _ (by cases g <;> exact q.2.1) (by cases g <;> rfl) f)
        · rintro ⟨_, _, h, _⟩; cases h
      | _ => exact absurd hc (by simp [Completes])

/-- Two messages, stopped while the first is written. -/
example : .stopped ∈ trace true ([.start, .send 1, .send 2, .stop] : List (In Nat)) ∧
    (∃ f, .begin f ∈ (exec true (exec true {} ([.start, .send 1, .send 2, .stop] : List (In Nat))).1 [.wrote]).2) :=
  ⟨by decide, .data 2, by decide⟩

example : ¬ MoreToSend (trace true ([.start, .send 1, .stop, .readPing] : List (In Nat))) := by
  unfold MoreToSend; decide

end Nbdl.Endpoint
