import Verif.Link.Farewell

/-!
# What a user is told when nothing fails

First the messages, then of the close, at most twice.
-/

namespace Nbdl.Link
open Nbdl.Endpoint (St In Obs Frame Err Note exec trace)

theorem notes_append : ∀ t u : List (Obs Msg), notes (t ++ u) = notes t ++ notes u
  | [], _ => rfl
  | o :: t, u => by
    cases o <;> simp [notes, notes_append t u]

theorem notes_told : ∀ t : List (Obs Msg),
    (notes t).filterMap (fun | .message m => some m | _ => none) = told t
  | [] => rfl
  | o :: t => by
    have ih := notes_told t
    cases o with
    | note k => cases k <;> simp [notes, told, ih]
    | _ => simp [notes, told, ih]

/-- Where the endpoint is when its user was told of the close `c` times. -/
structure Closing (s : St Msg) (c : Nat) : Prop where
  reading : s.reading = true → c = 0
  received : s.closeReceived = true → s.reading = false
  fresh : s.started = false → s.closeReceived = false ∧ c = 0 ∧ s.inflight = none
  most : c ≤ 2
  done : c = 2 → s.running = true ∧ s.inflight = none
  flight : s.inflight = some .close → s.running = true

theorem closing_loop {s : St Msg} {c : Nat} (h : Closing s c) (hi : s.inflight = none) (hs : s.started = true)
    (hc : c ≠ 2) (hr : s.running = true) :
    Closing (Endpoint.loop s).1 c ∧ notes (Endpoint.loop s).2 = [] := by
  have h1 := h.reading
  have h2 := h.received
  have h4 := h.most
  unfold Endpoint.loop
  cases s.pending <;> cases s.queue <;> simp only [St.write] <;>
    exact ⟨⟨h1, h2, by simp [hs], h4, fun e => absurd e hc, by simp [hr, hi]⟩, rfl⟩

theorem closing_queue {s : St Msg} {c : Nat} (h : Closing s c) (hi : s.running = false → s.inflight = none) :
    Closing (Endpoint.startSendQueue s).1 c ∧ notes (Endpoint.startSendQueue s).2 = [] := by
  unfold Endpoint.startSendQueue
  split
  · exact ⟨h, rfl⟩
  · rename_i hn
    simp only [not_or, Bool.not_eq_true, Bool.not_eq_false] at hn
    obtain ⟨r, -, st⟩ := hn
    have hin := hi r
    refine closing_loop ⟨h.reading, h.received, h.fresh, h.most, fun e => ⟨rfl, hin⟩, fun _ => rfl⟩ hin ?_ ?_ rfl
    · simpa using st
    · intro e
      have := (h.done e).1
      rw [r] at this; cases this

/-- An input that tells of no failure. -/
def Harmless : In Msg → Prop
  | .writeFailed _ | .readError _ => False
  | _ => True

theorem closing_step (conv : Bool) (s : St Msg) (c : Nat) (h : Closing s c)
    (hv : Endpoint.SInv s) (i : In Msg) (hh : Harmless i) (hbad : .note .badRequest ∉ (Endpoint.step conv s i).2) :
    ∃ c', Closing (Endpoint.step conv s i).1 (c + c')
      ∧ (notes (Endpoint.step conv s i).2 = List.replicate c' .close
        ∨ (c = 0 ∧ c' = 0 ∧ ∃ m, notes (Endpoint.step conv s i).2 = [.message m])) := by
  have hi := hv.idle
  revert hbad
  unfold Endpoint.step
  by_cases hb : s.broken = true
  · rw [if_pos hb]; intro _; exact ⟨0, h, .inl rfl⟩
  rw [if_neg hb]
  intro hbad
  cases i with
  | send m =>
    obtain ⟨a, b⟩ := closing_queue (s := { s with queue := s.queue ++ [m] }) (c := c)
      ⟨h.reading, h.received, h.fresh, h.most, h.done, h.flight⟩ hi
    exact ⟨0, a, .inl (by simp only [notes, b]; rfl)⟩
  | close =>
    obtain ⟨a, b⟩ := closing_queue (s := { s with pending := .close }) (c := c)
      ⟨h.reading, h.received, h.fresh, h.most, h.done, h.flight⟩ hi
    exact ⟨0, a, .inl (by simp only [notes, b]; rfl)⟩
  | start =>
    simp only
    split
    · rename_i hs
      obtain ⟨f1, f2, f3⟩ := h.fresh (by simpa using hs.1)
      have hc : Closing { s with started := true, reading := true } c :=
        ⟨fun _ => f2, fun e => (Bool.false_ne_true (f1.symm.trans e)).elim, by simp, h.most, h.done, h.flight⟩
      split
      · obtain ⟨a, b⟩ := closing_queue hc hi
        exact ⟨0, a, .inl b⟩
      · exact ⟨0, hc, .inl rfl⟩
    · exact ⟨0, h, .inl rfl⟩
  | stop => exact ⟨0, ⟨h.reading, h.received, h.fresh, h.most, h.done, h.flight⟩, .inl rfl⟩
  | wrote =>
    cases hf : s.inflight with
    | none => exact ⟨0, h, .inl rfl⟩
    | some f =>
      have hc2 : c ≠ 2 := fun e => by
        have := (h.done e).2
        rw [hf] at this; cases this
      have hst : s.started = true := by
        cases hs : s.started with
        | true => rfl
        | false =>
          have := (h.fresh hs).2.2
          rw [hf] at this; cases this
      have hrun : s.running = true := by
        cases hs : s.running with
        | true => rfl
        | false =>
          have := hi hs
          rw [hf] at this; cases this
      have hm := h.most
      have h0 : Closing { s with inflight := none } c :=
        ⟨h.reading, h.received, by simp [hst], h.most, fun e => absurd e hc2, by simp⟩
      cases f with
      | close =>
        simp only [Endpoint.onWrote]
        by_cases hr : s.closeReceived = true ∧ s.stopped = false
        · refine ⟨1, ⟨?_, h.received, by simp [hst], by omega, fun _ => ⟨hrun, rfl⟩, by simp⟩, .inl ?_⟩
          · intro e
            have := h.received hr.1
            have e : s.reading = true := e
            rw [this] at e; cases e
          · simp [Endpoint.callHandler, hr.1, hr.2, notes]
        · refine ⟨0, h0, .inl ?_⟩
          by_cases h1 : s.closeReceived = true
          · have h2 : s.stopped = true := by
              cases h2 : s.stopped
              · exact absurd ⟨h1, h2⟩ hr
              · rfl
            simp [Endpoint.callHandler, h1, h2, notes]
          · simp [h1, notes]
      | data m =>
        obtain ⟨a, b⟩ := closing_loop (s := { s with inflight := none, queue := s.queue.tail }) (c := c)
          ⟨h.reading, h.received, by simp [hst], h.most, fun e => absurd e hc2, by simp⟩ rfl hst hc2 hrun
        exact ⟨0, a, .inl (by simp only [Endpoint.onWrote, notes, b]; rfl)⟩
      | pong => exact ⟨0, h0, .inl rfl⟩
  | writeFailed e => exact hh.elim
  | readError e => exact hh.elim
  | readBad =>
    simp only at hbad ⊢
    split
    · rename_i hr
      rw [if_pos hr] at hbad
      cases hs : s.stopped with
      | false => exact absurd (by simp [Endpoint.onRead, Endpoint.callHandler, hs]) hbad
      | true =>
        refine ⟨0, ⟨by simp [Endpoint.onRead], fun _ => rfl, h.fresh, h.most, h.done, h.flight⟩, .inl ?_⟩
        simp [Endpoint.onRead, Endpoint.callHandler, hs, notes]
    · exact ⟨0, h, .inl rfl⟩
  | readMessage m =>
    simp only
    split
    · rename_i hr
      refine ⟨0, h, ?_⟩
      cases hs : s.stopped
      · exact .inr ⟨h.reading hr, rfl, m, by simp [Endpoint.onRead, Endpoint.callHandler, hs, notes]⟩
      · exact .inl (by simp [Endpoint.onRead, Endpoint.callHandler, hs, notes])
    · exact ⟨0, h, .inl rfl⟩
  | readPing =>
    simp only
    split
    · exact ⟨0, ⟨h.reading, h.received, h.fresh, h.most, h.done, h.flight⟩, .inl rfl⟩
    · exact ⟨0, h, .inl rfl⟩
  | readPong =>
    simp only
    split
    · exact ⟨0, h, .inl rfl⟩
    · exact ⟨0, h, .inl rfl⟩
  | readClose =>
    simp only
    split
    · rename_i hr
      have hc := h.reading hr
      have hst : s.started = true := by
        cases hs : s.started with
        | true => rfl
        | false => exact hs.symm.trans (hv.read hr)
      subst hc
      simp only [Endpoint.onRead]
      split
      · cases hs : s.stopped
        · exact ⟨1, ⟨by simp, by simp, by simp [hst], by omega, by omega, h.flight⟩,
            .inl (by simp [Endpoint.callHandler, hs, notes])⟩
        · exact ⟨0, ⟨by simp, by simp, by simp [hst], by omega, by omega, h.flight⟩,
            .inl (by simp [Endpoint.callHandler, hs, notes])⟩
      · obtain ⟨a, b⟩ := closing_queue (s := { s with closeReceived := true, reading := false, pending := .close })
          (c := 0) ⟨by simp, by simp, by simp [hst], by omega, by omega, h.flight⟩ hi
        exact ⟨0, a, .inl (by simp only [notes, b]; rfl)⟩
    · exact ⟨0, h, .inl rfl⟩

theorem closing_exec (conv : Bool) (ins : List (In Msg)) (hh : ∀ i ∈ ins, Harmless i)
    (hbad : .note .badRequest ∉ trace conv ins) :
    ∃ (l : List Msg) (c : Nat), Closing (exec conv {} ins).1 c ∧ notes (trace conv ins) = l.map .message ++ List.replicate c .close := by
  refine exec_induct conv (fun ins s t => (∀ i ∈ ins, Harmless i) → .note .badRequest ∉ t →
    ∃ (l : List Msg) (c : Nat), Closing s c ∧ notes t = l.map .message ++ List.replicate c .close) ?_ ?_ ins hh hbad
  · exact fun _ _ => ⟨[], 0, ⟨by simp, by simp, by simp, by simp, by simp, by simp⟩, rfl⟩
  · intro ins s t i hs ih hh hb
    rw [List.mem_append, not_or] at hb
    obtain ⟨l, c, hc, e⟩ := ih (fun j hj => hh j (by simp [hj])) hb.1
    obtain ⟨c', hc', e'⟩ := closing_step conv s c hc hs.sinv i (hh i (by simp)) hb.2
    rw [notes_append, e]
    rcases e' with e' | ⟨rfl, rfl, m, e'⟩
    · refine ⟨l, c + c', hc', ?_⟩
      rw [e', List.append_assoc, List.replicate_append_replicate]
    · refine ⟨l ++ [m], 0, hc', ?_⟩
      rw [e']; simp

/-- C12, C110: when no write fails, the connection is not lost and nothing bad is read, a user is told of all
the messages first, and then, at most twice, of the close. -/
theorem notes_in_order_partial (c : Conf) (s : Side) (hf : ∀ e, In.writeFailed e ∉ s.ins)
    (hl : ∀ e, In.readError e ∉ s.ins) (hb : .note .badRequest ∉ s.seen c) :
    ∃ n, n ≤ 2 ∧ notes (s.seen c) = (handedTo c s).map .message ++ List.replicate n .close := by
  obtain ⟨l, n, hc, e⟩ := closing_exec c.conv s.ins (fun i hi => by
    cases i <;> first | trivial | exact hf _ hi | exact hl _ hi) hb
  have : handedTo c s = l := by
    rw [handedTo, ← notes_told]
    have e : notes (s.seen c) = _ := e
    rw [e, List.filterMap_append, List.filterMap_map]
    have h1 : ∀ l : List Msg, List.filterMap ((fun | .message m => some m | _ => none) ∘ Note.message) l = l := by
      intro l
      induction l with
      | nil => rfl
      | cons m l ih => simp [ih]
    have h2 : List.filterMap (fun | .message m => some m | _ => none) (List.replicate n (Note.close : Note Msg)) = [] := by
      induction n with
      | zero => rfl
      | succ n _ => simp [List.filterMap_eq_nil_iff]
    rw [h1, h2, List.append_nil]
  exact ⟨n, hc.most, by rw [this]; exact e⟩

end Nbdl.Link
