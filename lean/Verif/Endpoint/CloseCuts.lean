import Verif.Endpoint.Props
/-!
# What is still sent after `send_close` (C110)
-/
namespace Nbdl.Endpoint.Spec
variable {α : Type}

/-- The message that is being written. -/
def flying : Option (Frame α) → List α
  | some (.data m) => [m]
  | _ => []

/-- The messages that were written, and the one that is being written. -/
def onWire (t : List (Obs α)) : List α := written t ++ flying (inFlight none t)

end Nbdl.Endpoint.Spec

namespace Nbdl.Endpoint
open Spec
variable {α : Type}

theorem start_closing (s : St α) (hp : s.pending = .close) (hi : s.running = false → s.inflight = none) :
    (startSendQueue s).1.pending = .close ∧ (∀ m, .begin (.data m) ∉ (startSendQueue s).2)
    ∧ written (startSendQueue s).2 = [] ∧ flying (startSendQueue s).1.inflight = flying s.inflight := by
  rw [startSendQueue]
  split
  · exact ⟨hp, by simp, rfl, rfl⟩
  · rename_i h
    have hr : s.running = false := by
      cases e : s.running with
      | false => rfl
      | true => exact absurd (Or.inl e) h
    have hl : loop { s with running := true } = St.write { s with running := true } .close := by
      rw [loop]; simp [hp]
    rw [hl, hi hr]
    exact ⟨hp, by simp [St.write], rfl, rfl⟩

theorem handler_closing (s : St α) (n : Note α) :
    (∀ m, .begin (.data m) ∉ callHandler s n) ∧ written (callHandler s n) = [] := by
  rw [callHandler]
  split <;> simp [written]

/-- Once a close is asked for, no further message is written. -/
theorem closing_step (conv : Bool) (s : St α) (hS : SInv s) (hp : s.pending = .close) (i : In α) :
    (step conv s i).1.pending = .close ∧ (∀ m, .begin (.data m) ∉ (step conv s i).2)
    ∧ ((∀ e, i ≠ .writeFailed e) →
      written (step conv s i).2 ++ flying (step conv s i).1.inflight = flying s.inflight) := by
  unfold step
  by_cases hb : s.broken
  · rw [if_pos hb]; exact ⟨hp, by simp, fun _ => rfl⟩
  rw [if_neg hb]
  cases i with
  | send m =>
    obtain ⟨h1, h2, h3, h4⟩ := start_closing { s with queue := s.queue ++ [m] } hp hS.idle
    exact ⟨h1, by simpa using h2, fun _ => by simp only [written, h3, h4]; rfl⟩
  | close =>
    obtain ⟨h1, h2, h3, h4⟩ := start_closing { s with pending := .close } rfl hS.idle
    exact ⟨h1, by simpa using h2, fun _ => by simp only [written, h3, h4]; rfl⟩
  | start =>
    dsimp only
    split
    · split
      · obtain ⟨h1, h2, h3, h4⟩ := start_closing { s with started := true, reading := true } hp hS.idle
        exact ⟨h1, h2, fun _ => by rw [h3, h4]; rfl⟩
      · exact ⟨hp, by simp, fun _ => rfl⟩
    · exact ⟨hp, by simp, fun _ => rfl⟩
  | stop => exact ⟨hp, by simp, fun _ => rfl⟩
  | wrote =>
    dsimp only
    cases hi : s.inflight with
    | none => exact ⟨hp, by simp, fun _ => by simp [written, hi]⟩
    | some f =>
      cases f with
      | close =>
        obtain ⟨h1, h2⟩ := handler_closing { s with inflight := none } Note.close
        refine ⟨hp, ?_, fun _ => ?_⟩
        · intro m hm
          simp only [onWrote, List.mem_cons] at hm
          rcases hm with hm | hm
          · cases hm
          · split at hm
            · exact h1 m hm
            · cases hm
        · simp only [onWrote, written]
          split
          · rw [h2]; rfl
          · rfl
      | data m =>
        have hl : onWrote { s with inflight := none } (.data m)
            = St.write { s with inflight := none, queue := s.queue.tail } .close := by
          rw [onWrote, loop]; simp [hp]
        simp only [hl]
        exact ⟨hp, by simp [St.write], fun _ => rfl⟩
      | pong => exact absurd hi hS.pong
  | writeFailed e =>
    dsimp only
    refine ⟨?_, ?_, fun h => absurd rfl (h e)⟩
    · cases hi : s.inflight with
      | none => exact hp
      | some f => cases f <;> exact hp
    · cases hi : s.inflight with
      | none => simp
      | some f =>
        cases f with
        | close => simp [onWriteFailed]
        | pong => simp [onWriteFailed]
        | data m =>
          intro k hk
          simp only [onWriteFailed, List.mem_cons] at hk
          rcases hk with hk | hk
          · cases hk
          · exact (handler_closing _ _).1 k hk
  | readMessage m =>
    dsimp only
    split
    · refine ⟨hp, ?_, fun _ => ?_⟩
      · intro k hk
        simp only [onRead, List.mem_cons] at hk
        rcases hk with hk | hk
        · cases hk
        · exact (handler_closing _ _).1 k hk
      · simp only [onRead, written, (handler_closing _ _).2]; rfl
    · exact ⟨hp, by simp, fun _ => rfl⟩
  | readClose =>
    dsimp only
    split
    · refine ⟨?_, ?_, fun _ => ?_⟩
      · simp [onRead, hp]
      · intro k hk
        simp only [onRead, hp, if_true, List.mem_cons] at hk
        rcases hk with hk | hk
        · cases hk
        · exact (handler_closing _ _).1 k hk
      · simp only [onRead, hp, if_true, written, (handler_closing _ _).2]; rfl
    · exact ⟨hp, by simp, fun _ => rfl⟩
  | readPing =>
    dsimp only
    split
    · exact ⟨by simp [onRead, hp, toPong], by simp [onRead], fun _ => rfl⟩
    · exact ⟨hp, by simp, fun _ => rfl⟩
  | readPong =>
    dsimp only
    split
    · exact ⟨by simp [onRead, hp], by simp [onRead], fun _ => rfl⟩
    · exact ⟨hp, by simp, fun _ => rfl⟩
  | readBad =>
    dsimp only
    split
    · refine ⟨hp, ?_, fun _ => ?_⟩
      · intro k hk
        simp only [onRead, List.mem_cons] at hk
        rcases hk with hk | hk
        · cases hk
        · exact (handler_closing _ _).1 k hk
      · simp only [onRead, written, (handler_closing _ _).2]; rfl
    · exact ⟨hp, by simp, fun _ => rfl⟩
  | readError e =>
    dsimp only
    split
    · refine ⟨hp, ?_, fun _ => ?_⟩
      · intro k hk
        simp only [onRead, List.mem_cons] at hk
        rcases hk with hk | hk
        · cases hk
        · exact (handler_closing _ _).1 k hk
      · simp only [onRead, written, (handler_closing _ _).2]; rfl
    · exact ⟨hp, by simp, fun _ => rfl⟩

theorem closing_exec (conv : Bool) : ∀ (js : List (In α)) (s : St α), SInv s → s.pending = .close →
    (exec conv s js).1.pending = .close ∧ (∀ m, .begin (.data m) ∉ (exec conv s js).2)
    ∧ ((∀ e, .writeFailed e ∉ js) →
      written (exec conv s js).2 ++ flying (exec conv s js).1.inflight = flying s.inflight)
  | [], s, _, hp => ⟨hp, by simp [exec], fun _ => rfl⟩
  | i :: js, s, hS, hp => by
    obtain ⟨h1, h2, h3⟩ := closing_step conv s hS hp i
    obtain ⟨k1, k2, k3⟩ := closing_exec conv js _ (sinv_step conv s hS i) h1
    refine ⟨k1, ?_, fun hf => ?_⟩
    · intro m hm
      rcases List.mem_append.1 (show _ ∈ (step conv s i).2 ++ (exec conv (step conv s i).1 js).2 from hm) with hm | hm
      · exact h2 m hm
      · exact k2 m hm
    · show written ((step conv s i).2 ++ (exec conv (step conv s i).1 js).2)
        ++ flying (exec conv (step conv s i).1 js).1.inflight = _
      rw [written_append, List.append_assoc, k3 (fun e he => hf e (List.mem_cons_of_mem _ he)),
        h3 (fun e he => hf e (by rw [he]; exact .head _))]

theorem sinv_exec (conv : Bool) : ∀ (is : List (In α)) (s : St α), SInv s → SInv (exec conv s is).1
  | [], _, h => h
  | i :: is, s, h => sinv_exec conv is _ (sinv_step conv s h i)

theorem exec_broken (conv : Bool) (s : St α) (hb : s.broken = true) : ∀ js : List (In α), exec conv s js = (s, [])
  | [] => rfl
  | i :: js => by
    have h : step conv s i = (s, []) := by
      unfold step
      rw [if_pos hb]
    show ((exec conv (step conv s i).1 js).1, (step conv s i).2 ++ (exec conv (step conv s i).1 js).2) = _
    rw [h, exec_broken conv s hb js]
    rfl

theorem close_exec (conv : Bool) (js : List (In α)) (s : St α) (hS : SInv s) :
    (∀ m, .begin (.data m) ∉ (exec conv s (.close :: js)).2)
    ∧ ((∀ e, .writeFailed e ∉ js) →
      written (exec conv s (.close :: js)).2 ++ flying (exec conv s (.close :: js)).1.inflight = flying s.inflight) := by
  by_cases hb : s.broken = true
  · rw [exec_broken conv s hb]
    exact ⟨by simp, fun _ => rfl⟩
  · have he : step conv s .close = ((startSendQueue { s with pending := .close }).1,
        .closeRequested :: (startSendQueue { s with pending := .close }).2) := by
      unfold step
      rw [if_neg hb]
    have hc : exec conv s (.close :: js) = ((exec conv (step conv s .close).1 js).1,
        (step conv s .close).2 ++ (exec conv (step conv s .close).1 js).2) := rfl
    obtain ⟨h1, h2, h3, h4⟩ := start_closing { s with pending := .close } rfl hS.idle
    have hS' := sinv_step conv s hS .close
    obtain ⟨k1, k2, k3⟩ := closing_exec conv js (step conv s .close).1 hS' (by rw [he]; exact h1)
    rw [hc]
    refine ⟨?_, fun hf => ?_⟩
    · intro m hm
      rcases List.mem_append.1 hm with hm | hm
      · rw [he] at hm
        rcases List.mem_cons.1 hm with hm | hm
        · cases hm
        · exact h2 m hm
      · exact k2 m hm
    · show written ((step conv s .close).2 ++ (exec conv (step conv s .close).1 js).2)
        ++ flying (exec conv (step conv s .close).1 js).1.inflight = _
      rw [written_append, List.append_assoc, k3 hf, he]
      simp only [written, h3, h4]
      rfl

/-- C110: after the user called `send_close`, whatever happens, no further message is begun. -/
theorem nothing_new_after_close (conv : Bool) (is js : List (In α)) (m : α) :
    ∃ t, trace conv (is ++ .close :: js) = trace conv is ++ t ∧ .begin (.data m) ∉ t := by
  have hS := sinv_exec conv is ({} : St α) ⟨by simp, by simp, by simp, by simp⟩
  refine ⟨_, ?_, (close_exec conv js _ hS).1 m⟩
  simp only [trace, exec_append]

/-- C110, exactly: of all messages, those are written after a call of `send_close` which were written or being written
when it was called, whatever is called afterwards, if no write fails. -/
theorem written_after_close_exact (conv : Bool) (is js : List (In α)) (hf : ∀ e, .writeFailed e ∉ js) :
    onWire (trace conv (is ++ .close :: js)) = onWire (trace conv is) := by
  have hS := sinv_exec conv is ({} : St α) ⟨by simp, by simp, by simp, by simp⟩
  have h := (close_exec conv js _ hS).2 hf
  have c1 : inFlight none (trace conv is) = (exec conv {} is).1.inflight := (inv_exec conv is {} [] inv_init).cur
  have c2 : inFlight none (trace conv (is ++ .close :: js)) = (exec conv {} (is ++ .close :: js)).1.inflight :=
    (inv_exec conv (is ++ .close :: js) {} [] inv_init).cur
  rw [onWire, onWire, c1, c2]
  simp only [trace, exec_append]
  rw [written_append, List.append_assoc, h]

/-- Two messages are sent, the first is being written when the close is asked for: only the first is written. -/
example : written (trace true [.start, .send 1, .send 2, .close, .send 3, .wrote, .wrote, .readClose]) = [1]
    ∧ onWire (trace true [.start, .send 1, .send 2]) = [1]
    ∧ accepted (trace true [.start, .send 1, .send 2]) = [1, 2] := by decide

end Nbdl.Endpoint
