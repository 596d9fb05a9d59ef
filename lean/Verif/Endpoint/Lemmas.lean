import Verif.Endpoint.Spec
/-! Invariants of the endpoint. -/
namespace Nbdl.Endpoint
open Spec
variable {α : Type}

theorem accepted_append (t u : List (Obs α)) : accepted (t ++ u) = accepted t ++ accepted u := by
  induction t with
  | nil => rfl
  | cons o t ih => cases o <;> simp [accepted, ih]

theorem written_append (t u : List (Obs α)) : written (t ++ u) = written t ++ written u := by
  induction t with
  | nil => rfl
  | cons o t ih =>
    cases o with
    | wrote f => cases f <;> simp [written, ih]
    | _ => simp [written, ih]

theorem inFlight_append (c : Option (Frame α)) (t u : List (Obs α)) :
    inFlight c (t ++ u) = inFlight (inFlight c t) u := by
  induction t generalizing c with
  | nil => rfl
  | cons o t ih => cases o <;> simp [inFlight, ih]

/-- Recursive form of `Serial`. -/
def SerialFrom (c : Option (Frame α)) : List (Obs α) → Prop
  | [] => True
  | .begin f :: t => c = none ∧ SerialFrom (some f) t
  | .wrote _ :: t => SerialFrom none t
  | .failed _ :: t => SerialFrom none t
  | _ :: t => SerialFrom c t

theorem serialFrom_append (c : Option (Frame α)) (t u : List (Obs α)) :
    SerialFrom c (t ++ u) ↔ SerialFrom c t ∧ SerialFrom (inFlight c t) u := by
  induction t generalizing c with
  | nil => simp [SerialFrom, inFlight]
  | cons o t ih => cases o <;> simp [SerialFrom, inFlight, ih, and_assoc]

theorem serial_of_from (t : List (Obs α)) (h : SerialFrom none t) : Serial t := by
  rintro pre f post rfl
  exact ((serialFrom_append _ _ _).1 h).2.1

/-- No write begins after the close frame. -/
abbrev NoneAfterClose (t : List (Obs α)) : Prop :=
  t.Pairwise (fun a b => a = .begin .close → ∀ f, b ≠ .begin f)

/-- No handler call after stop. -/
abbrev QuietAfterStop (t : List (Obs α)) : Prop :=
  t.Pairwise (fun a b => a = .stopped → ∀ n, b ≠ .note n)

structure Inv (s : St α) (t : List (Obs α)) : Prop where
  fifo : accepted t = written t ++ s.queue
  cur : inFlight none t = s.inflight
  serial : SerialFrom none t
  data : ∀ m, s.inflight = some (.data m) → s.queue.head? = some m ∧ .begin .close ∉ t
  closef : s.inflight = some .close → .begin .close ∈ t
  nopong : s.inflight ≠ some .pong
  nopong' : .begin .pong ∉ t
  idle : s.running = false → s.inflight = none ∧ .begin .close ∉ t
  busy : s.running = true → s.inflight.isSome ∨ .begin .close ∈ t
  pend : .begin .close ∈ t → s.pending = .close
  after : NoneAfterClose t
  stop : .stopped ∈ t → s.stopped = true
  quiet : QuietAfterStop t

theorem inv_init : Inv ({} : St α) [] := by
  constructor <;> simp [accepted, written, inFlight, SerialFrom]

theorem inv_loop (s : St α) (t : List (Obs α)) (h : Inv { s with running := false } t) :
    Inv (loop { s with running := true }).1 (t ++ (loop { s with running := true }).2) := by
  obtain ⟨h1, h2, h3, h4, h5, h6, h7, h8, h9, h10, h11, h12, h13⟩ := h
  obtain ⟨hi, hc⟩ := h8 rfl
  simp only at *
  have wr : ∀ f, f ≠ .pong → (f = .close → s.pending = .close) →
      (∀ m, f = .data m → s.queue.head? = some m) →
      Inv { s with running := true, inflight := some f } (t ++ [.begin f]) := by
    intro f hp hcl hd
    have np := (List.pairwise_append (R := fun a b : Obs α => a = .begin .close → ∀ f, b ≠ .begin f)).2
        ⟨h11, List.pairwise_singleton _ (.begin f), fun a ha b _ e => absurd (e ▸ ha) hc⟩
    have nq := (List.pairwise_append (R := fun a b : Obs α => a = .stopped → ∀ n, b ≠ .note n)).2
        ⟨h13, List.pairwise_singleton _ (.begin f), fun a ha b hb e n => by
          simp only [List.mem_singleton] at hb; rw [hb]; simp⟩
    constructor
    · rw [accepted_append, written_append]; simp [accepted, written, h1]
    · rw [inFlight_append]; simp [inFlight]
    · rw [serialFrom_append]; exact ⟨h3, by rw [h2]; exact hi, trivial⟩
    · intro m e
      injection e with e
      refine ⟨hd m e, ?_⟩
      simp [hc, e]
    · intro e; injection e with e; simp [e]
    · simpa using hp
    · simp only [List.mem_append, List.mem_singleton, not_or]
      exact ⟨h7, by intro e; injection e with e; exact hp e.symm⟩
    · simp
    · simp
    · intro e
      simp only [List.mem_append, List.mem_singleton, hc, false_or] at e
      injection e with e; exact hcl e.symm
    · exact np
    · intro e
      simp at e
      exact h12 e
    · exact nq
  unfold loop
  cases hp : s.pending with
  | close => simpa [hp, St.write] using wr .close (by simp) (fun _ => hp) (by simp)
  | none =>
    cases hq : s.queue with
    | nil =>
      simp only [List.append_nil]
      constructor <;> simp_all
    | cons m q =>
      simpa [hp, hq, St.write] using wr (.data m) (by simp) (by simp) (by simp [hq])
  | pong =>
    cases hq : s.queue with
    | nil =>
      simp only [List.append_nil]
      constructor <;> simp_all
    | cons m q =>
      simpa [hp, hq, St.write] using wr (.data m) (by simp) (by simp) (by simp [hq])

theorem inv_start (s : St α) (t : List (Obs α)) (h : Inv s t) :
    Inv (startSendQueue s).1 (t ++ (startSendQueue s).2) := by
  unfold startSendQueue
  split
  · simpa using h
  · rename_i hn
    simp only [not_or] at hn
    have : s.running = false := by simpa using hn.1
    refine inv_loop s t ?_
    have e : ({ s with running := false } : St α) = s := by cases s; simp_all
    rw [e]; exact h

/-- Appending an observation that is not a write event. -/
def Plain : Obs α → Prop
  | .begin _ => False
  | .wrote _ => False
  | .failed _ => False
  | .note _ => False
  | .accepted _ => False
  | _ => True

theorem inv_note (s : St α) (t : List (Obs α)) (h : Inv s t) (n : Note α) :
    Inv s (t ++ callHandler s n) := by
  unfold callHandler
  split
  · simpa using h
  · rename_i hs
    obtain ⟨h1, h2, h3, h4, h5, h6, h7, h8, h9, h10, h11, h12, h13⟩ := h
    have nq := (List.pairwise_append (R := fun a b : Obs α => a = .stopped → ∀ n, b ≠ .note n)).2
        ⟨h13, List.pairwise_singleton _ (.note n), fun a ha b hb e => absurd (h12 (e ▸ ha)) hs⟩
    have np := (List.pairwise_append (R := fun a b : Obs α => a = .begin .close → ∀ f, b ≠ .begin f)).2
        ⟨h11, List.pairwise_singleton _ (.note n), fun a ha b hb e f => by
          simp only [List.mem_singleton] at hb; rw [hb]; simp⟩
    constructor
    · rw [accepted_append, written_append]; simp [accepted, written, h1]
    · rw [inFlight_append]; simp [inFlight, h2]
    · rw [serialFrom_append]; exact ⟨h3, trivial⟩
    · simpa using h4
    · simpa using h5
    · simpa using h6
    · simpa using h7
    · simpa using h8
    · simpa using h9
    · simpa using h10
    · exact np
    · simpa using h12
    · exact nq

/-- Appending a plain observation while changing components that keep the invariant. -/
theorem inv_plain (s s' : St α) (t : List (Obs α)) (h : Inv s t) (o : Obs α) (ho : Plain o)
    (hq : s'.queue = s.queue) (hi : s'.inflight = s.inflight) (hr : s'.running = s.running)
    (hp : s.pending = .close → s'.pending = .close)
    (hs : s.stopped = true ∨ o = .stopped → s'.stopped = true) :
    Inv s' (t ++ [o]) := by
  obtain ⟨h1, h2, h3, h4, h5, h6, h7, h8, h9, h10, h11, h12, h13⟩ := h
  have hb : ∀ f, o ≠ .begin f := by rintro f rfl; exact ho
  have hn : ∀ n, o ≠ .note n := by rintro f rfl; exact ho
  have nq := (List.pairwise_append (R := fun a b : Obs α => a = .stopped → ∀ n, b ≠ .note n)).2
      ⟨h13, List.pairwise_singleton _ o, fun a ha b hb e n => by
        simp only [List.mem_singleton] at hb; rw [hb]; exact hn n⟩
  have np := (List.pairwise_append (R := fun a b : Obs α => a = .begin .close → ∀ f, b ≠ .begin f)).2
      ⟨h11, List.pairwise_singleton _ o, fun a ha b hb' e f => by
        simp only [List.mem_singleton] at hb'; rw [hb']; exact hb f⟩
  have e1 : accepted [o] = [] := by cases o <;> first | rfl | exact ho.elim
  have e2 : written [o] = [] := by cases o <;> first | rfl | exact ho.elim
  have e3 : ∀ c, inFlight c [o] = c := by intro c; cases o <;> first | rfl | exact ho.elim
  have e4 : ∀ c, SerialFrom c [o] := by intro c; cases o <;> first | trivial | exact ho.elim
  have e5 : ∀ f, (Obs.begin f ∈ t ++ [o]) ↔ Obs.begin f ∈ t := by
    intro f
    simp only [List.mem_append, List.mem_singleton, or_iff_left_iff_imp]
    intro e; exact absurd e.symm (hb f)
  constructor
  · rw [accepted_append, written_append, e1, e2, hq]; simpa using h1
  · rw [inFlight_append, e3, hi]; exact h2
  · rw [serialFrom_append]; exact ⟨h3, e4 _⟩
  · rw [hi, hq, e5]; exact h4
  · rw [hi, e5]; exact h5
  · rw [hi]; exact h6
  · rw [e5]; exact h7
  · rw [hi, hr, e5]; exact h8
  · rw [hi, hr, e5]; exact h9
  · rw [e5]; exact fun e => hp (h10 e)
  · exact np
  · intro e
    simp only [List.mem_append, List.mem_singleton] at e
    rcases e with e | e
    · exact hs (.inl (h12 e))
    · exact hs (.inr e.symm)
  · exact nq

/-- Changing components the invariant does not mention. -/
theorem inv_congr (s s' : St α) (t : List (Obs α)) (h : Inv s t)
    (hq : s'.queue = s.queue) (hi : s'.inflight = s.inflight) (hr : s'.running = s.running)
    (hp : s.pending = .close → s'.pending = .close) (hs : s'.stopped = s.stopped) : Inv s' t := by
  obtain ⟨h1, h2, h3, h4, h5, h6, h7, h8, h9, h10, h11, h12, h13⟩ := h
  constructor <;> simp_all

theorem inv_send (s : St α) (t : List (Obs α)) (h : Inv s t) (m : α) :
    Inv { s with queue := s.queue ++ [m] } (t ++ [.accepted m]) := by
  obtain ⟨h1, h2, h3, h4, h5, h6, h7, h8, h9, h10, h11, h12, h13⟩ := h
  have nq := (List.pairwise_append (R := fun a b : Obs α => a = .stopped → ∀ n, b ≠ .note n)).2
      ⟨h13, List.pairwise_singleton _ (.accepted m), fun a ha b hb e n => by
        simp only [List.mem_singleton] at hb; rw [hb]; simp⟩
  have np := (List.pairwise_append (R := fun a b : Obs α => a = .begin .close → ∀ f, b ≠ .begin f)).2
      ⟨h11, List.pairwise_singleton _ (.accepted m), fun a ha b hb' e f => by
        simp only [List.mem_singleton] at hb'; rw [hb']; simp⟩
  constructor
  · rw [accepted_append, written_append]; simp [accepted, written, h1]
  · rw [inFlight_append]; simpa [inFlight] using h2
  · rw [serialFrom_append]; exact ⟨h3, trivial⟩
  · intro k e
    obtain ⟨a, b⟩ := h4 k e
    refine ⟨?_, by simpa using b⟩
    cases hq : s.queue with
    | nil => rw [hq] at a; simp at a
    | cons x q => rw [hq] at a; simpa using a
  · simpa using h5
  · simpa using h6
  · simpa using h7
  · simpa using h8
  · simpa using h9
  · simpa using h10
  · exact np
  · simpa using h12
  · exact nq

theorem inv_step (conv : Bool) (s : St α) (t : List (Obs α)) (h : Inv s t) (i : In α) :
    Inv (step conv s i).1 (t ++ (step conv s i).2) := by
  unfold step
  by_cases hb : s.broken
  · rw [if_pos hb]; simpa using h
  rw [if_neg hb]
  have rd : ∀ k, Inv s (t ++ [.received k]) := fun k =>
    inv_plain s s t h _ trivial rfl rfl rfl id (by rintro (h | h); exact h; cases h)
  have app : ∀ (r : St α × List (Obs α)) o, Inv r.1 ((t ++ [o]) ++ r.2) → Inv r.1 (t ++ (o :: r.2)) := by
    intro r o h; simpa using h
  cases i with
  | send m => exact app _ _ (inv_start _ _ (inv_send s t h m))
  | close =>
    refine app _ _ (inv_start _ _ ?_)
    exact inv_plain s _ t h _ trivial rfl rfl rfl (fun _ => rfl) (by rintro (h | h); exact h; cases h)
  | start =>
    simp only
    split
    · split
      · exact inv_start _ _ (inv_congr s _ t h rfl rfl rfl id rfl)
      · rw [List.append_nil]; exact inv_congr s _ t h rfl rfl rfl id rfl
    · simpa using h
  | stop =>
    exact inv_plain s _ t h _ trivial rfl rfl rfl id (fun _ => rfl)
  | wrote =>
    simp only
    cases hf : s.inflight with
    | none => simpa using h
    | some f =>
      simp only
      refine app _ _ ?_
      obtain ⟨h1, h2, h3, h4, h5, h6, h7, h8, h9, h10, h11, h12, h13⟩ := h
      have nq := (List.pairwise_append (R := fun a b : Obs α => a = .stopped → ∀ n, b ≠ .note n)).2
          ⟨h13, List.pairwise_singleton _ (.wrote f), fun a ha b hb e n => by
            simp only [List.mem_singleton] at hb; rw [hb]; simp⟩
      have np := (List.pairwise_append (R := fun a b : Obs α => a = .begin .close → ∀ f, b ≠ .begin f)).2
          ⟨h11, List.pairwise_singleton _ (.wrote f), fun a ha b hb' e f => by
            simp only [List.mem_singleton] at hb'; rw [hb']; simp⟩
      cases f with
      | pong => exact absurd hf h6
      | close =>
        have hb := h5 hf
        have hr : s.running = true := by
          cases hr : s.running with
          | true => rfl
          | false => exact absurd hb (h8 hr).2
        have base : Inv { s with inflight := none } (t ++ [.wrote .close]) := by
          constructor
          · rw [accepted_append, written_append]; simp [accepted, written, h1]
          · rw [inFlight_append]; simp [inFlight]
          · rw [serialFrom_append]; exact ⟨h3, trivial⟩
          · simp
          · simp
          · simp
          · simpa using h7
          · simp [hr]
          · intro _; right; simp [hb]
          · intro _; exact h10 hb
          · exact np
          · simpa using h12
          · exact nq
        simp only [onWrote]
        split
        · exact inv_note _ _ base _
        · simpa using base
      | data m =>
        obtain ⟨hh, hc⟩ := h4 m hf
        have hr : s.running = true := by
          cases hr : s.running with
          | true => rfl
          | false => have := (h8 hr).1; rw [hf] at this; cases this
        simp only [onWrote]
        have e : ({ s with inflight := none, queue := s.queue.tail } : St α)
            = { { s with inflight := none, queue := s.queue.tail } with running := true } := by
          simp [hr]
        rw [e]
        refine inv_loop _ _ ?_
        constructor
        · rw [accepted_append, written_append]
          simp only [accepted, written, List.append_nil, h1]
          cases hq : s.queue with
          | nil => rw [hq] at hh; simp at hh
          | cons x q =>
            rw [hq] at hh
            simp at hh
            simp [hh]
        · rw [inFlight_append]; simp [inFlight]
        · rw [serialFrom_append]; exact ⟨h3, trivial⟩
        · simp
        · simp
        · simp
        · simpa using h7
        · simpa using hc
        · simp
        · intro e; exact absurd e (by simpa using hc)
        · exact np
        · simpa using h12
        · exact nq
  | writeFailed e =>
    simp only
    cases hf : s.inflight with
    | none => simpa using h
    | some f =>
      simp only
      refine app _ _ ?_
      obtain ⟨h1, h2, h3, h4, h5, h6, h7, h8, h9, h10, h11, h12, h13⟩ := h
      have nq := (List.pairwise_append (R := fun a b : Obs α => a = .stopped → ∀ n, b ≠ .note n)).2
          ⟨h13, List.pairwise_singleton _ (.failed f), fun a ha b hb e n => by
            simp only [List.mem_singleton] at hb; rw [hb]; simp⟩
      have np := (List.pairwise_append (R := fun a b : Obs α => a = .begin .close → ∀ f, b ≠ .begin f)).2
          ⟨h11, List.pairwise_singleton _ (.failed f), fun a ha b hb' e f => by
            simp only [List.mem_singleton] at hb'; rw [hb']; simp⟩
      cases f with
      | pong => exact absurd hf h6
      | close =>
        have hb := h5 hf
        have hr : s.running = true := by
          cases hr : s.running with
          | true => rfl
          | false => exact absurd hb (h8 hr).2
        have base : Inv { s with inflight := none } (t ++ [.failed .close]) := by
          constructor
          · rw [accepted_append, written_append]; simp [accepted, written, h1]
          · rw [inFlight_append]; simp [inFlight]
          · rw [serialFrom_append]; exact ⟨h3, trivial⟩
          · simp
          · simp
          · simp
          · simpa using h7
          · simp [hr]
          · intro _; right; simp [hb]
          · intro _; exact h10 hb
          · exact np
          · simpa using h12
          · exact nq
        exact inv_plain _ _ _ base _ trivial rfl rfl rfl id (by rintro (h | h); exact h; cases h)
      | data m =>
        obtain ⟨hh, hc⟩ := h4 m hf
        have base : Inv { s with inflight := none, running := false } (t ++ [.failed (.data m)]) := by
          constructor
          · rw [accepted_append, written_append]; simp [accepted, written, h1]
          · rw [inFlight_append]; simp [inFlight]
          · rw [serialFrom_append]; exact ⟨h3, trivial⟩
          · simp
          · simp
          · simp
          · simpa using h7
          · simpa using hc
          · simp
          · intro e; exact absurd e (by simpa using hc)
          · exact np
          · simpa using h12
          · exact nq
        exact inv_note _ _ base _
  | readMessage m =>
    simp only
    split
    · exact app (onRead s (.readMessage m)) _ (inv_note _ _ (rd _) _)
    · simpa using h
  | readClose =>
    simp only
    split
    · refine app (onRead s (.readClose)) _ ?_
      simp only [onRead]
      split
      · refine inv_note _ _ ?_ _
        exact inv_congr s _ _ (rd _) rfl rfl rfl id rfl
      · exact inv_start _ _ (inv_congr s _ _ (rd _) rfl rfl rfl (fun _ => rfl) rfl)
    · simpa using h
  | readPing =>
    simp only
    split
    · refine app (onRead s (.readPing)) _ ?_
      simp only [onRead, List.append_nil]
      exact inv_congr s _ _ (rd _) rfl rfl rfl (fun h => by simp [h, toPong]) rfl
    · simpa using h
  | readPong =>
    simp only
    split
    · exact app (onRead s .readPong) _ (by simpa [onRead] using rd .readPong)
    · simpa using h
  | readBad =>
    simp only
    split
    · refine app (onRead s (.readBad)) _ ?_
      have hc : ∀ n, callHandler s n = callHandler { s with reading := false } n := fun _ => rfl
      simp only [onRead, hc]
      refine inv_note _ _ ?_ _
      exact inv_congr s _ _ (rd _) rfl rfl rfl id rfl
    · simpa using h
  | readError e =>
    simp only
    split
    · refine app (onRead s (.readError e)) _ ?_
      have hc : ∀ n, callHandler s n = callHandler { s with reading := false } n := fun _ => rfl
      simp only [onRead, hc]
      refine inv_note _ _ ?_ _
      exact inv_congr s _ _ (rd _) rfl rfl rfl id rfl
    · simpa using h

theorem inv_exec (conv : Bool) (is : List (In α)) (s : St α) (t : List (Obs α)) (h : Inv s t) :
    Inv (exec conv s is).1 (t ++ (exec conv s is).2) := by
  induction is generalizing s t with
  | nil => simpa [exec] using h
  | cons i is ih =>
    simp only [exec]
    rw [← List.append_assoc]
    exact ih _ _ (inv_step conv s t h i)

theorem inv_trace (conv : Bool) (is : List (In α)) :
    Inv (exec conv {} is).1 (trace conv is) := by
  simpa [trace] using inv_exec conv is {} [] inv_init

end Nbdl.Endpoint

namespace Nbdl.Endpoint
open Spec
variable {α : Type}

/-! ### Close notifications: causes and number -/

/-- What must have been observed before a close notification. -/
def ClosePre (pre : List (Obs α)) : Prop :=
  (.closeRequested ∈ pre ∨ .received .readClose ∈ pre)
  ∧ (.received .readClose ∈ pre ∨ ∃ m, .failed (.data m) ∈ pre)

def Caused (t : List (Obs α)) : Prop :=
  ∀ pre post, t = pre ++ .note .close :: post → ClosePre pre

structure CInv (s : St α) (t : List (Obs α)) : Prop where
  recv : s.closeReceived = true → .received .readClose ∈ t
  pend : s.pending = .close → .closeRequested ∈ t ∨ .received .readClose ∈ t
  caused : Caused t

theorem caused_append (t u : List (Obs α)) (h : Caused t)
    (hu : ∀ pre post, u = pre ++ .note .close :: post → ClosePre (t ++ pre)) : Caused (t ++ u) := by
  intro pre post e
  rcases List.append_eq_append_iff.1 e with ⟨v, h1, h2⟩ | ⟨v, h1, h2⟩
  · subst h1; exact hu v post h2
  · cases v with
    | nil =>
      simp at h1
      have := hu [] post (by simpa using h2.symm)
      subst h1; simpa using this
    | cons o v =>
      simp at h2
      obtain ⟨rfl, rfl⟩ := h2
      exact h pre v h1

theorem split_single (o : Obs α) (pre post : List (Obs α)) (x : Obs α)
    (h : [o] = pre ++ x :: post) : pre = [] ∧ o = x := by
  cases pre with
  | nil => simp at h; exact ⟨rfl, h.1⟩
  | cons a p => simp at h

/-- Appending something without a close notification. -/
theorem caused_plain (t u : List (Obs α)) (h : Caused t) (hu : .note .close ∉ u) : Caused (t ++ u) :=
  caused_append t u h (fun pre post e => absurd (by rw [e]; simp) hu)

theorem loop_facts (s : St α) :
    (loop s).1.closeReceived = s.closeReceived ∧ (loop s).1.pending = s.pending
    ∧ (∀ n, .note n ∉ (loop s).2) ∧ (loop s).1.started = s.started
    ∧ (loop s).1.reading = s.reading ∧ (loop s).1.queue = s.queue
    ∧ (loop s).1.stopped = s.stopped := by
  unfold loop
  cases hp : s.pending <;> cases hq : s.queue <;> simp [St.write, hq, hp]

theorem start_facts (s : St α) :
    (startSendQueue s).1.closeReceived = s.closeReceived ∧ (startSendQueue s).1.pending = s.pending
    ∧ (∀ n, .note n ∉ (startSendQueue s).2) ∧ (startSendQueue s).1.started = s.started
    ∧ (startSendQueue s).1.reading = s.reading ∧ (startSendQueue s).1.queue = s.queue
    ∧ (startSendQueue s).1.stopped = s.stopped := by
  unfold startSendQueue
  split
  · simp
  · exact loop_facts _

theorem cinv_step (conv : Bool) (s : St α) (t : List (Obs α)) (h : CInv s t) (i : In α) :
    CInv (step conv s i).1 (t ++ (step conv s i).2) := by
  obtain ⟨h1, h2, h3⟩ := h
  unfold step
  by_cases hb : s.broken
  · rw [if_pos hb]; simp only [List.append_nil]; exact ⟨h1, h2, h3⟩
  rw [if_neg hb]
  have id' : CInv s (t ++ []) := by simpa using ⟨h1, h2, h3⟩
  have m1 : ∀ u, CInv s (t ++ u) ↔ Caused (t ++ u) := by
    intro u
    refine ⟨fun h => h.3, fun h => ⟨fun e => by simp [h1 e], fun e => ?_, h⟩⟩
    rcases h2 e with h | h
    · left; simp [h]
    · right; simp [h]
  cases i with
  | send m =>
    obtain ⟨f1, f2, f3, -⟩ := start_facts { s with queue := s.queue ++ [m] }
    refine ⟨fun e => ?_, fun e => ?_, caused_plain _ _ h3 (by simp [f3])⟩
    · simp only [f1] at e; simp [h1 e]
    · simp only [f2] at e
      rcases h2 e with h | h
      · left; simp [h]
      · right; simp [h]
  | close =>
    obtain ⟨f1, f2, f3, -⟩ := start_facts { s with pending := Kind.close }
    refine ⟨fun e => ?_, fun e => ?_, caused_plain _ _ h3 (by simp [f3])⟩
    · simp only [f1] at e; simp [h1 e]
    · left; simp
  | start =>
    simp only
    split
    · split
      · obtain ⟨f1, f2, f3, -⟩ := start_facts { s with started := true, reading := true }
        refine ⟨fun e => ?_, fun e => ?_, caused_plain _ _ h3 (by simp [f3])⟩
        · simp only [f1] at e; simp [h1 e]
        · simp only [f2] at e
          rcases h2 e with h | h
          · left; simp [h]
          · right; simp [h]
      · exact ⟨id'.1, id'.2, id'.3⟩
    · exact id'
  | stop => exact ⟨fun e => by simp [h1 e], fun e => by simpa using h2 e, caused_plain _ _ h3 (by simp)⟩
  | wrote =>
    simp only
    cases hf : s.inflight with
    | none => exact id'
    | some f =>
      simp only
      cases f with
      | pong => exact ⟨fun e => by simp [onWrote, h1 e], fun e => by simpa [onWrote] using h2 e, caused_plain _ _ h3 (by simp [onWrote])⟩
      | data m =>
        simp only [onWrote]
        obtain ⟨f1, f2, f3, -⟩ := loop_facts { s with inflight := none, queue := s.queue.tail }
        refine ⟨fun e => ?_, fun e => ?_, caused_plain _ _ h3 (by simp [f3])⟩
        · simp only [f1] at e; simp [h1 e]
        · simp only [f2] at e
          rcases h2 e with h | h
          · left; simp [h]
          · right; simp [h]
      | close =>
        simp only [onWrote]
        refine ⟨fun e => ?_, fun e => ?_, ?_⟩
        · simp only at e; simp [h1 e]
        · simp only at e
          rcases h2 e with h | h
          · left; simp [h]
          · right; simp [h]
        · split
          · rename_i hc
            refine caused_append _ _ h3 (fun pre post e => ?_)
            exact ⟨.inr (by simp [h1 hc]), .inl (by simp [h1 hc])⟩
          · exact caused_plain _ _ h3 (by simp)
  | writeFailed e =>
    simp only
    cases hf : s.inflight with
    | none => exact id'
    | some f =>
      simp only
      cases f with
      | pong => exact ⟨fun e => by simp [onWriteFailed, h1 e], fun e => by simpa [onWriteFailed] using h2 e, caused_plain _ _ h3 (by simp [onWriteFailed])⟩
      | close => exact ⟨fun e => by simp [onWriteFailed, h1 e], fun e => by simpa [onWriteFailed] using h2 e, caused_plain _ _ h3 (by simp [onWriteFailed])⟩
      | data m =>
        simp only [onWriteFailed]
        refine ⟨fun e => ?_, fun e => ?_, ?_⟩
        · simp only at e; simp [h1 e]
        · simp only at e
          rcases h2 e with h | h
          · left; simp [h]
          · right; simp [h]
        · by_cases hc : conv = true ∧ s.pending = .close ∧ e = .dropped
          · rw [if_pos hc]
            refine caused_append _ _ h3 (fun pre post e => ?_)
            have hp : .failed (.data m) ∈ pre := by
              cases pre with
              | nil => simp at e
              | cons a p => simp at e; simp [e.1]
            refine ⟨?_, .inr ⟨m, by simp [hp]⟩⟩
            rcases h2 hc.2.1 with h | h
            · left; simp [h]
            · right; simp [h]
          · rw [if_neg hc]
            refine caused_plain _ _ h3 ?_
            simp only [callHandler]
            split <;> simp
  | readMessage m =>
    simp only
    split
    · refine (m1 _).2 (caused_plain _ _ h3 ?_)
      simp only [onRead, callHandler]
      split <;> simp
    · exact id'
  | readClose =>
    simp only
    split
    · simp only [onRead]
      split
      · rename_i hp
        refine ⟨fun e => by simp, fun e => by right; simp, caused_append _ _ h3 (fun pre post e => ?_)⟩
        have hp : .received .readClose ∈ pre := by
          cases pre with
          | nil => simp at e
          | cons a p => simp at e; simp [e.1]
        exact ⟨.inr (by simp [hp]), .inl (by simp [hp])⟩
      · obtain ⟨f1, f2, f3, -⟩ := start_facts { s with closeReceived := true, reading := false, pending := Kind.close }
        exact ⟨fun e => by simp, fun e => by right; simp, caused_plain _ _ h3 (by simp [f3])⟩
    · exact id'
  | readPing =>
    simp only
    split
    · refine ⟨fun e => ?_, fun e => ?_, caused_plain _ _ h3 (by simp [onRead])⟩
      · simp only [onRead] at e; simp [h1 e]
      · have : s.pending = .close := by
          simp only [onRead] at e
          cases hp : s.pending <;> simp [hp, toPong] at e ⊢
        rcases h2 this with h | h
        · left; simp [h]
        · right; simp [h]
    · exact id'
  | readPong =>
    simp only
    split
    · exact (m1 _).2 (caused_plain _ _ h3 (by simp [onRead]))
    · exact id'
  | readBad =>
    simp only
    split
    · have := (m1 (.received .readBad :: callHandler s .badRequest)).2 (caused_plain _ _ h3 (by
        simp only [callHandler]; split <;> simp))
      exact ⟨this.1, this.2, this.3⟩
    · exact id'
  | readError e =>
    simp only
    split
    · have := (m1 (.received (.readError e) :: callHandler s (.error e))).2 (caused_plain _ _ h3 (by
        simp only [callHandler]; split <;> simp))
      exact ⟨this.1, this.2, this.3⟩
    · exact id'

theorem cinv_exec (conv : Bool) (is : List (In α)) (s : St α) (t : List (Obs α)) (h : CInv s t) :
    CInv (exec conv s is).1 (t ++ (exec conv s is).2) := by
  induction is generalizing s t with
  | nil => simpa [exec] using h
  | cons i is ih =>
    simp only [exec]
    rw [← List.append_assoc]
    exact ih _ _ (cinv_step conv s t h i)

/-! ### Number of close notifications -/

def pot1 (s : St α) : Nat := if s.reading ∨ ¬ s.started then 1 else 0
def pot2 (s : St α) : Nat := if s.running ∧ s.inflight = none then 0 else 1
def isData : Option (Frame α) → Bool
  | some (.data _) => true
  | _ => false
def pot3 (s : St α) : Nat :=
  if s.pending = .close ∧ isData s.inflight = false then 0 else 1
def pot (s : St α) : Nat := pot1 s + pot2 s + pot3 s

/-- Simple state facts needed for counting. -/
structure SInv (s : St α) : Prop where
  read : s.reading = true → s.started = true
  idle : s.running = false → s.inflight = none
  cl : s.inflight = some .close → s.running = true
  pong : s.inflight ≠ some .pong

theorem pot_loop (s : St α) (hi : s.inflight = none) :
    pot (loop { s with running := true }).1 ≤ pot1 s + 1 + (if s.pending = .close then 0 else 1)
    ∧ SInv (loop { s with running := true }).1 ∨ (s.reading = true ∧ s.started = false) := by
  by_cases hr : s.reading = true ∧ s.started = false
  · exact .inr hr
  left
  have hr' : s.reading = true → s.started = true := by
    intro h; cases hs : s.started with
    | true => rfl
    | false => exact absurd ⟨h, hs⟩ hr
  unfold loop
  cases hp : s.pending with
  | close => exact ⟨by simp [St.write, pot, pot1, pot2, pot3, isData, hp], ⟨hr', by simp [St.write], by simp [St.write], by simp [St.write]⟩⟩
  | none =>
    cases hq : s.queue with
    | nil => exact ⟨by simp [pot, pot1, pot2, pot3, isData, hp], ⟨hr', by simp [hi], by simp [hi], by simp [hi]⟩⟩
    | cons m q => exact ⟨by simp [St.write, pot, pot1, pot2, pot3, isData, hp], ⟨hr', by simp [St.write], by simp [St.write], by simp [St.write]⟩⟩
  | pong =>
    cases hq : s.queue with
    | nil => exact ⟨by simp [pot, pot1, pot2, pot3, isData, hp], ⟨hr', by simp [hi], by simp [hi], by simp [hi]⟩⟩
    | cons m q => exact ⟨by simp [St.write, pot, pot1, pot2, pot3, isData, hp], ⟨hr', by simp [St.write], by simp [St.write], by simp [St.write]⟩⟩

theorem pot_start (s : St α) (h : SInv s) :
    pot (startSendQueue s).1 ≤ pot s ∧ SInv (startSendQueue s).1 := by
  unfold startSendQueue
  split
  · exact ⟨Nat.le_refl _, h⟩
  · rename_i hn
    simp only [not_or] at hn
    have hr : s.running = false := by simpa using hn.1
    have hi := h.idle hr
    rcases pot_loop s hi with ⟨h1, h2⟩ | h'
    · refine ⟨Nat.le_trans h1 ?_, h2⟩
      simp [pot, pot2, pot3, isData, hr, hi]
    · have := h.read h'.1; rw [h'.2] at this; cases this

variable [DecidableEq α]

theorem count_of_notMem (u : List (Obs α)) (h : ∀ n, .note n ∉ u) : closeNotes u = 0 :=
  List.count_eq_zero.2 (h .close)

theorem count_handler (s : St α) (n : Note α) :
    closeNotes (callHandler s n) ≤ if n = .close then 1 else 0 := by
  unfold callHandler
  split
  · simp [closeNotes]
  · unfold closeNotes
    by_cases h : n = .close
    · rw [if_pos h, h]; simp
    · rw [if_neg h, List.count_eq_zero.2 (by simpa using Ne.symm h)]; omega

theorem closeNotes_cons (o : Obs α) (u : List (Obs α)) (h : o ≠ .note .close) :
    closeNotes (o :: u) = closeNotes u := by
  unfold closeNotes; rw [List.count_cons_of_ne h]

theorem pot_step (conv : Bool) (s : St α) (h : SInv s) (i : In α) :
    closeNotes (step conv s i).2 + pot (step conv s i).1 ≤ pot s ∧ SInv (step conv s i).1 := by
  unfold step
  by_cases hb : s.broken
  · rw [if_pos hb]; exact ⟨by simp [closeNotes], h⟩
  rw [if_neg hb]
  have id' : closeNotes ([] : List (Obs α)) + pot s ≤ pot s ∧ SInv s := ⟨by simp [closeNotes], h⟩
  cases i with
  | send m =>
    have hs : SInv { s with queue := s.queue ++ [m] } := ⟨h.1, h.2, h.3, h.4⟩
    obtain ⟨f1, f2⟩ := pot_start _ hs
    have f3 := (start_facts { s with queue := s.queue ++ [m] }).2.2.1
    refine ⟨?_, f2⟩
    simp only
    rw [closeNotes_cons _ _ (by simp), count_of_notMem _ f3]
    have : pot { s with queue := s.queue ++ [m] } = pot s := rfl
    omega
  | close =>
    have hs : SInv { s with pending := .close } := ⟨h.1, h.2, h.3, h.4⟩
    obtain ⟨f1, f2⟩ := pot_start _ hs
    have f3 := (start_facts { s with pending := Kind.close }).2.2.1
    refine ⟨?_, f2⟩
    simp only
    rw [closeNotes_cons _ _ (by simp), count_of_notMem _ f3]
    have : pot { s with pending := Kind.close } ≤ pot s := by
      simp only [pot, pot1, pot2, pot3, true_and]
      have : (if isData s.inflight = false then 0 else 1)
        ≤ (if s.pending = .close ∧ isData s.inflight = false then 0 else 1) := by
        split <;> split <;> simp_all
      omega
    omega
  | start =>
    simp only
    split
    · rename_i hn
      have hst : s.started = false := by simpa using hn.1
      have hs : SInv { s with started := true, reading := true } := ⟨by simp, h.2, h.3, h.4⟩
      have hp : pot { s with started := true, reading := true } = pot s := by
        simp [pot, pot1, pot2, pot3, isData, hst]
      split
      · obtain ⟨f1, f2⟩ := pot_start _ hs
        have f3 := (start_facts { s with started := true, reading := true }).2.2.1
        refine ⟨?_, f2⟩
        rw [count_of_notMem _ f3]; omega
      · exact ⟨by simp [closeNotes, hp], hs⟩
    · exact id'
  | stop => exact ⟨by rw [closeNotes_cons _ _ (by simp)]; exact id'.1, ⟨h.1, h.2, h.3, h.4⟩⟩
  | wrote =>
    simp only
    cases hf : s.inflight with
    | none => exact id'
    | some f =>
      cases f with
      | pong => exact absurd hf h.pong
      | close =>
        simp only [onWrote]
        have hr := h.cl hf
        refine ⟨?_, ⟨h.1, by simp, by simp, by simp⟩⟩
        rw [closeNotes_cons _ _ (by simp)]
        have h1 : closeNotes (if s.closeReceived = true then callHandler { s with inflight := none } .close else []) ≤ 1 := by
          split
          · have := count_handler { s with inflight := none } (.close : Note α)
            simpa using this
          · simp [closeNotes]
        have h2 : pot { s with inflight := none } + 1 = pot s := by
          simp only [pot, pot1, pot2, pot3, isData, hr, hf]
          simp
          omega
        omega
      | data m =>
        simp only [onWrote]
        have hr : s.running = true := by
          cases hr : s.running with
          | true => rfl
          | false => have := h.idle hr; rw [hf] at this; cases this
        have f3 := (loop_facts { s with inflight := none, queue := s.queue.tail }).2.2.1
        rw [closeNotes_cons _ _ (by simp), count_of_notMem _ f3]
        have e : ({ s with inflight := none, queue := s.queue.tail } : St α)
            = { { s with inflight := none, queue := s.queue.tail } with running := true } := by
          simp [hr]
        rw [e]
        rcases pot_loop { s with inflight := none, queue := s.queue.tail } rfl with ⟨g1, g2⟩ | h'
        · refine ⟨?_, g2⟩
          have : pot s = pot1 s + 1 + 1 := by simp [pot, pot2, pot3, isData, hf]
          have e1 : pot1 ({ s with inflight := none, queue := s.queue.tail } : St α) = pot1 s := rfl
          rw [e1] at g1
          have : (if s.pending = .close then 0 else 1) ≤ 1 := by split <;> omega
          refine Nat.le_trans (Nat.le_of_eq (Nat.zero_add _)) (Nat.le_trans g1 ?_)
          simp only
          omega
        · have := h.read h'.1; rw [h'.2] at this; cases this
  | writeFailed e =>
    simp only
    cases hf : s.inflight with
    | none => exact id'
    | some f =>
      cases f with
      | pong => exact absurd hf h.pong
      | close =>
        simp only [onWriteFailed]
        have hr := h.cl hf
        refine ⟨?_, ⟨h.1, by simp, by simp, by simp⟩⟩
        have : closeNotes ([.failed .close, .ub] : List (Obs α)) = 0 := by simp [closeNotes]
        rw [this]
        simp [pot, pot1, pot2, pot3, isData, hr, hf]
      | data m =>
        simp only [onWriteFailed]
        refine ⟨?_, ⟨h.1, by simp, by simp, by simp⟩⟩
        rw [closeNotes_cons _ _ (by simp)]
        have h1 := count_handler { s with inflight := none, running := false }
          (if conv = true ∧ s.pending = .close ∧ e = .dropped then .close else .error e)
        by_cases hc : conv = true ∧ s.pending = .close ∧ e = .dropped
        · rw [if_pos hc] at h1 ⊢
          have e1 : pot s = pot1 s + 2 := by simp [pot, pot2, pot3, isData, hf]
          have e2 : pot { s with inflight := none, running := false } = pot1 s + 1 := by
            simp [pot, pot1, pot2, pot3, isData, hc.2.1]
          simp at h1
          omega
        · rw [if_neg hc] at h1 ⊢
          have e1 : pot s = pot1 s + 2 := by simp [pot, pot2, pot3, isData, hf]
          have e2 : pot { s with inflight := none, running := false } ≤ pot1 s + 2 := by
            simp only [pot, pot1, pot2, pot3, isData]; split <;> split <;> split <;> simp
          simp at h1
          omega
  | readMessage m =>
    simp only
    split
    · refine ⟨?_, h⟩
      simp only [onRead]
      rw [closeNotes_cons _ _ (by simp)]
      have := count_handler s (.message m)
      simp at this
      omega
    · exact id'
  | readClose =>
    simp only
    split
    · rename_i hrd
      have hst := h.read hrd
      simp only [onRead]
      split
      · rename_i hp
        refine ⟨?_, ⟨by simp, h.2, h.3, h.4⟩⟩
        rw [closeNotes_cons _ _ (by simp)]
        have := count_handler { s with closeReceived := true, reading := false } (.close : Note α)
        simp at this
        have e1 : pot { s with closeReceived := true, reading := false } + 1 = pot s := by
          simp [pot, pot1, pot2, pot3, isData, hrd, hst]; omega
        simp only
        omega
      · have hs : SInv { s with closeReceived := true, reading := false, pending := .close } :=
          ⟨by simp, h.2, h.3, h.4⟩
        obtain ⟨f1, f2⟩ := pot_start _ hs
        have f3 := (start_facts { s with closeReceived := true, reading := false, pending := Kind.close }).2.2.1
        refine ⟨?_, f2⟩
        rw [closeNotes_cons _ _ (by simp), count_of_notMem _ f3]
        have : pot { s with closeReceived := true, reading := false, pending := Kind.close } ≤ pot s := by
          simp only [pot, pot1, pot2, pot3, true_and, hrd, hst]
          have : (if isData s.inflight = false then 0 else 1)
            ≤ (if s.pending = .close ∧ isData s.inflight = false then 0 else 1) := by
            split <;> split <;> simp_all
          simp
          omega
        omega
    · exact id'
  | readPing =>
    simp only
    split
    · simp only [onRead]
      refine ⟨?_, ⟨h.1, h.2, h.3, h.4⟩⟩
      rw [closeNotes_cons _ _ (by simp)]
      have : pot { s with pending := toPong s.pending } = pot s := by
        simp only [pot, pot1, pot2, pot3, isData]
        cases s.pending <;> simp [toPong]
      rw [this]; exact id'.1
    · exact id'
  | readPong =>
    simp only
    split
    · simp only [onRead]
      refine ⟨?_, h⟩
      rw [closeNotes_cons _ _ (by simp)]
      exact id'.1
    · exact id'
  | readBad =>
    simp only
    split
    · simp only [onRead]
      refine ⟨?_, ⟨by simp, h.2, h.3, h.4⟩⟩
      rw [closeNotes_cons _ _ (by simp)]
      have := count_handler s (.badRequest : Note α)
      simp at this
      have e1 : pot { s with reading := false } ≤ pot s := by
        simp only [pot, pot1, pot2, pot3, isData]
        have : (if (false = true ∨ ¬ s.started = true) then 1 else 0) ≤ (if (s.reading = true ∨ ¬ s.started = true) then 1 else 0) := by
          split <;> split <;> simp_all
        simp only [Bool.false_eq_true] at this ⊢
        omega
      omega
    · exact id'
  | readError e =>
    simp only
    split
    · simp only [onRead]
      refine ⟨?_, ⟨by simp, h.2, h.3, h.4⟩⟩
      rw [closeNotes_cons _ _ (by simp)]
      have := count_handler s (.error e)
      simp at this
      have e1 : pot { s with reading := false } ≤ pot s := by
        simp only [pot, pot1, pot2, pot3, isData]
        have : (if (false = true ∨ ¬ s.started = true) then 1 else 0) ≤ (if (s.reading = true ∨ ¬ s.started = true) then 1 else 0) := by
          split <;> split <;> simp_all
        simp only [Bool.false_eq_true] at this ⊢
        omega
      omega
    · exact id'

theorem pot_exec (conv : Bool) (is : List (In α)) (s : St α) (h : SInv s) :
    closeNotes (exec conv s is).2 + pot (exec conv s is).1 ≤ pot s := by
  induction is generalizing s with
  | nil => simp [exec, closeNotes]
  | cons i is ih =>
    obtain ⟨h1, h2⟩ := pot_step conv s h i
    have := ih _ h2
    simp only [exec, closeNotes, List.count_append] at *
    omega

end Nbdl.Endpoint

namespace Nbdl.Endpoint
open Spec
variable {α : Type}

/-! ### Progress -/

/-- Started and alive: there is a queued message only while the send loop runs. -/
structure Live (s : St α) : Prop where
  q : s.started = true → s.stopped = true ∨ s.running = true ∨ s.queue = []
  c : s.pending = .close → s.started = true ∧ (s.stopped = true ∨ s.running = true)

theorem live_loop (s : St α) (hs : s.started = true) : Live (loop { s with running := true }).1 := by
  unfold loop
  cases hp : s.pending <;> cases hq : s.queue <;>
    constructor <;> simp [St.write, hp, hq, hs]

theorem live_start (s : St α)
    (h : s.running = true ∨ s.stopped = true → Live s)
    (h' : s.started = false → s.pending ≠ .close) :
    Live (startSendQueue s).1 := by
  unfold startSendQueue
  by_cases hc : s.running ∨ s.stopped ∨ ¬ s.started
  · rw [if_pos hc]
    by_cases hc' : s.running = true ∨ s.stopped = true
    · exact h hc'
    · rcases hc with hc | hc | hc
      · exact absurd (.inl hc) hc'
      · exact absurd (.inr hc) hc'
      · have : s.started = false := by simpa using hc
        exact ⟨by simp [this], fun e => absurd e (h' this)⟩
  · rw [if_neg hc]
    simp only [not_or, Decidable.not_not] at hc
    exact live_loop s hc.2.2

theorem live_step (conv : Bool) (s : St α) (h : Live s) (i : In α)
    (hi : ∀ e, i ≠ .writeFailed e) (hc : i = .close → s.started = true)
    (hrs : s.reading = true → s.started = true) : Live (step conv s i).1 := by
  unfold step
  by_cases hb : s.broken
  · rw [if_pos hb]; exact h
  rw [if_neg hb]
  cases i with
  | send m =>
    simp only
    refine live_start _ (fun hh => ⟨fun hs => ?_, h.c⟩) (fun hs hp => ?_)
    · rcases hh with hh | hh
      · exact .inr (.inl hh)
      · exact .inl hh
    · have := (h.c hp).1; simp only at hs; rw [this] at hs; cases hs
  | close =>
    simp only
    have hs := hc rfl
    refine live_start _ (fun hh => ⟨fun _ => ?_, fun _ => ⟨hs, hh.symm⟩⟩) (fun hs' => ?_)
    · rcases hh with hh | hh
      · exact .inr (.inl hh)
      · exact .inl hh
    · simp only at hs'; rw [hs] at hs'; cases hs'
  | start =>
    simp only
    split
    · rename_i hn
      have hp : s.pending ≠ .close := by
        intro e
        have := (h.c e).1
        rw [this] at hn; simp at hn
      split
      · refine live_start _ (fun hh => ⟨fun _ => ?_, fun e => absurd e hp⟩) (by simp)
        rcases hh with hh | hh
        · exact .inr (.inl hh)
        · exact .inl hh
      · rename_i hq
        refine ⟨fun _ => .inr (.inr ?_), fun e => absurd e hp⟩
        simpa using hq
    · exact h
  | stop => exact ⟨fun _ => .inl rfl, fun e => ⟨(h.c e).1, .inl rfl⟩⟩
  | wrote =>
    simp only
    cases hf : s.inflight with
    | none => exact h
    | some f =>
      cases f with
      | pong => exact ⟨h.q, h.c⟩
      | close => exact ⟨h.q, h.c⟩
      | data m =>
        simp only [onWrote]
        unfold loop
        cases hp : s.pending with
        | close =>
          have := h.c hp
          refine ⟨fun hs => ?_, fun _ => this⟩
          rcases this.2 with h | h
          · exact .inl h
          · exact .inr (.inl h)
        | none =>
          cases hq : s.queue.tail with
          | nil => constructor <;> simp [hp, hq]
          | cons x q =>
            refine ⟨fun hs => ?_, by simp [St.write, hp]⟩
            rcases h.q hs with h | h | h
            · exact .inl h
            · exact .inr (.inl h)
            · rw [h] at hq; simp at hq
        | pong =>
          cases hq : s.queue.tail with
          | nil => constructor <;> simp [hp, hq]
          | cons x q =>
            refine ⟨fun hs => ?_, by simp [St.write, hp]⟩
            rcases h.q hs with h | h | h
            · exact .inl h
            · exact .inr (.inl h)
            · rw [h] at hq; simp at hq
  | writeFailed e => exact absurd rfl (hi e)
  | readClose =>
    simp only
    split
    · rename_i hr
      simp only [onRead]
      split
      · exact ⟨h.q, h.c⟩
      · have hs := hrs hr
        refine live_start _ (fun hh => ⟨fun _ => ?_, fun _ => ⟨hs, hh.symm⟩⟩) (fun hs' => ?_)
        · rcases hh with hh | hh
          · exact .inr (.inl hh)
          · exact .inl hh
        · simp only at hs'; rw [hs] at hs'; cases hs'
    · exact h
  | readPing =>
    simp only
    split
    · refine ⟨h.q, fun e => h.c ?_⟩
      simp only [onRead] at e
      cases hp : s.pending <;> simp [hp, toPong] at e ⊢
    · exact h
  | readMessage m => simp only; split; exact h; exact h
  | readPong => simp only; split; exact h; exact h
  | readBad => simp only; split; exact ⟨h.q, h.c⟩; exact h
  | readError e => simp only; split; exact ⟨h.q, h.c⟩; exact h

theorem started_step (conv : Bool) (s : St α) (i : In α) (h : s.started = true) :
    (step conv s i).1.started = true := by
  unfold step
  by_cases hb : s.broken
  · rw [if_pos hb]; exact h
  rw [if_neg hb]
  have sf := fun s' : St α => (start_facts s').2.2.2.1
  cases i with
  | send m => simp [sf, h]
  | close => simp [sf, h]
  | start => simp [h]
  | stop => simp [h]
  | wrote =>
    cases hf : s.inflight with
    | none => simp [h]
    | some f => cases f <;> simp [onWrote, h, (loop_facts _).2.2.2.1]
  | writeFailed e =>
    cases hf : s.inflight with
    | none => simp [h]
    | some f => cases f <;> simp [onWriteFailed, h]
  | readClose => simp only; split; simp only [onRead]; split <;> simp [sf, h]; simp [h]
  | readMessage m => simp only; split <;> simp [onRead, h]
  | readPing => simp only; split <;> simp [onRead, h]
  | readPong => simp only; split <;> simp [onRead, h]
  | readBad => simp only; split <;> simp [onRead, h]
  | readError e => simp only; split <;> simp [onRead, h]

theorem sinv_step (conv : Bool) (s : St α) (h : SInv s) (i : In α) : SInv (step conv s i).1 := by
  classical
  exact (pot_step conv s h i).2

theorem live_exec (conv : Bool) (is : List (In α)) (s : St α) (h : Live s) (hs : SInv s)
    (hi : ∀ e, .writeFailed e ∉ is) (hc : .close ∉ is ∨ s.started = true) :
    Live (exec conv s is).1 ∧ SInv (exec conv s is).1 := by
  induction is generalizing s with
  | nil => exact ⟨h, hs⟩
  | cons i is ih =>
    simp only [exec]
    refine ih _ (live_step conv s h i (fun e he => hi e (by simp [he])) (fun e => ?_) hs.read)
      (sinv_step conv s hs i) (fun e he => hi e (by simp [he])) ?_
    · rcases hc with hc | hc
      · exact absurd (by simp [e]) hc
      · exact hc
    · rcases hc with hc | hc
      · exact .inl (fun h => hc (by simp [h]))
      · exact .inr (started_step conv s i hc)

theorem exec_append (conv : Bool) (s : St α) (is js : List (In α)) :
    exec conv s (is ++ js)
      = ((exec conv (exec conv s is).1 js).1, (exec conv s is).2 ++ (exec conv (exec conv s is).1 js).2) := by
  induction is generalizing s with
  | nil => simp [exec]
  | cons i is ih => simp [exec, ih]

end Nbdl.Endpoint
