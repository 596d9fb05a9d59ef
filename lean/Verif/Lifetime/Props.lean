import Verif.Lifetime.Spec
import Verif.Endpoint.Lemmas
/-! The lifetime of an endpoint: property C127. -/
namespace Nbdl.Lifetime
open Endpoint (In Frame Err Note Obs Kind)
open Spec
variable {α : Type}

/-! ## Destroyed exactly when nobody owns it -/

/-- Nothing that was destroyed has an owner. -/
def Sound (s : St α) : Prop := s.gone = true → s.owned = false

theorem release_gone (s : St α) (h : Sound s) : s.release.gone = !s.release.owned := by
  unfold St.release
  cases ho : s.owned
  · simp only [Bool.false_eq_true, if_false]
    show true = !St.owned { s with gone := true }
    have : St.owned { s with gone := true } = s.owned := rfl
    rw [this, ho]; rfl
  · simp only [if_true, ho]
    cases hg : s.gone
    · rfl
    · rw [h hg] at ho; cases ho

theorem call_gone (conv : Bool) (s : St α) (a : Api α) : (s.call conv a).gone = s.gone := by
  unfold St.call; split <;> rfl

theorem calls_sound (conv kept : Bool) (as : List (Api α)) : ∀ s : St α, Sound s → Sound (s.calls conv kept as) := by
  induction as with
  | nil => exact fun _ h => h
  | cons a as ih =>
    intro s h
    unfold St.calls
    cases hg : s.gone
    · simp only [Bool.false_eq_true, if_false]
      apply ih
      have hc : Sound (s.call conv a) := by
        intro hcg; rw [call_gone, hg] at hcg; cases hcg
      cases kept
      · simp only [Bool.false_eq_true, if_false]
        intro hr
        have := release_gone _ hc
        rw [hr] at this
        cases ho : (s.call conv a).release.owned
        · rfl
        · rw [ho] at this; cases this
      · exact hc
    · simp only [if_true]
      exact fun _ => h hg

theorem step_gone (conv : Bool) (s : St α) (e : Event α) (h : s.gone = !s.owned) :
    (step conv s e).gone = !(step conv s e).owned := by
  have hs : Sound s := fun hg => by
    cases ho : s.owned
    · rfl
    · rw [hg, ho] at h; cases h
  cases e with
  | user a =>
    simp only [step]
    split
    · exact h
    · rename_i hn
      apply release_gone
      intro hcg
      rw [call_gone] at hcg
      rw [hcg] at hn; exact absurd rfl hn
  | shaken calls =>
    simp only [step]
    split
    · exact h
    · split
      · exact h
      · rename_i hn
        exact release_gone _ (calls_sound _ _ _ _ fun hg => absurd hg hn)
  | net i calls =>
    simp only [step]
    split
    · exact h
    · split
      · split
        · exact h
        · exact h
      · rename_i hn
        split
        · exact release_gone _ (calls_sound _ _ _ _ fun hg => absurd hg hn)
        · exact release_gone _ fun hg => absurd hg hn

theorem run_gone (conv : Bool) (es : List (Event α)) : ∀ s : St α, s.gone = (!s.owned) →
    (run conv s es).gone = !(run conv s es).owned := by
  induction es with
  | nil => exact fun _ h => h
  | cons e es ih => exact fun s h => ih _ (step_gone conv s e h)

/-- C127: at all times the endpoint has been destroyed exactly if the user has let go of it, messages are not
being read and no message is being written: it lives on for messages that are on their way, and nothing leaks. -/
theorem destroyed_iff (conv : Bool) (es : List (Event α)) :
    (run conv ({} : St α) es).gone = true ↔ (run conv ({} : St α) es).held = false
      ∧ (run conv ({} : St α) es).ep.reading = false
      ∧ ∀ m, (run conv ({} : St α) es).ep.inflight ≠ some (.data m) := by
  rw [run_gone conv es {} rfl]
  generalize run conv ({} : St α) es = s
  simp only [St.owned, Bool.not_eq_true', Bool.or_eq_false_iff, and_assoc]
  refine and_congr_right fun _ => and_congr_right fun _ => ?_
  unfold sending
  constructor
  · intro h m hm; rw [hm] at h; cases h
  · intro h
    split
    · rename_i m hm; exact absurd hm (h m)
    · rfl

/-! ## The endpoint is the one of `Verif.Endpoint` -/

theorem call_ep (conv : Bool) (s : St α) (a : Api α) : ∃ is, (s.call conv a).ep = (Endpoint.exec conv s.ep is).1 := by
  unfold St.call
  split
  · rename_i i _; exact ⟨[i], rfl⟩
  · exact ⟨[], rfl⟩

theorem release_ep (s : St α) : s.release.ep = s.ep := by unfold St.release; split <;> rfl

theorem calls_ep (conv kept : Bool) (as : List (Api α)) : ∀ s : St α,
    ∃ is, (s.calls conv kept as).ep = (Endpoint.exec conv s.ep is).1 := by
  induction as with
  | nil => exact fun _ => ⟨[], rfl⟩
  | cons a as ih =>
    intro s
    unfold St.calls
    split
    · exact ⟨[], rfl⟩
    · obtain ⟨is, h1⟩ := call_ep conv s a
      obtain ⟨js, h2⟩ := ih (if kept then s.call conv a else (s.call conv a).release)
      refine ⟨is ++ js, ?_⟩
      rw [h2, Endpoint.exec_append]
      have : (if kept then s.call conv a else (s.call conv a).release).ep = (s.call conv a).ep := by
        split
        · rfl
        · exact release_ep _
      rw [this, h1]

theorem step_ep (conv : Bool) (s : St α) (e : Event α) : ∃ is, (step conv s e).ep = (Endpoint.exec conv s.ep is).1 := by
  cases e with
  | user a =>
    simp only [step]
    split
    · exact ⟨[], rfl⟩
    · rw [release_ep]; exact call_ep conv s a
  | shaken calls =>
    simp only [step]
    split
    · exact ⟨[], rfl⟩
    · split
      · exact ⟨[], rfl⟩
      · rw [release_ep]; exact calls_ep conv false calls _
  | net i calls =>
    simp only [step]
    split
    · exact ⟨[], rfl⟩
    · split
      · split <;> exact ⟨[], rfl⟩
      · split
        · rw [release_ep]
          obtain ⟨js, h⟩ := calls_ep conv (keeps s.ep i) calls { s with ep := (Endpoint.step conv s.ep i).1 }
          refine ⟨i :: js, ?_⟩
          rw [h]; rfl
        · rw [release_ep]; exact ⟨[i], rfl⟩

/-- C127: what C10 to C15 and C57 say about endpoints holds with lifetimes, too: the endpoint goes through what
it goes through for some sequence of inputs. -/
theorem refines (conv : Bool) (es : List (Event α)) : ∀ s : St α,
    ∃ is, (run conv s es).ep = (Endpoint.exec conv s.ep is).1 := by
  induction es with
  | nil => exact fun _ => ⟨[], rfl⟩
  | cons e es ih =>
    intro s
    obtain ⟨is, h1⟩ := step_ep conv s e
    obtain ⟨js, h2⟩ := ih (step conv s e)
    refine ⟨is ++ js, ?_⟩
    rw [run, h2, Endpoint.exec_append, h1]

/-! ## While the user holds the pointer -/

/-- The user holds the pointer, and all is well. -/
structure Fine (s : St α) : Prop where
  held : s.held = true
  gone : s.gone = false
  bad : s.bad = false

theorem fine_release (s : St α) (h : Fine s) : s.release = s := by
  unfold St.release St.owned
  rw [h.held]; rfl

theorem fine_call (conv : Bool) (s : St α) (a : Api α) (ha : a ≠ .letGo) (h : Fine s) : Fine (s.call conv a) := by
  unfold St.call
  cases a with
  | letGo => exact absurd rfl ha
  | _ => exact ⟨h.held, h.gone, h.bad⟩

theorem fine_calls (conv kept : Bool) (as : List (Api α)) : ∀ s : St α, .letGo ∉ as → Fine s → Fine (s.calls conv kept as) := by
  induction as with
  | nil => exact fun _ _ h => h
  | cons a as ih =>
    intro s ha h
    have hc := fine_call conv s a (fun e => ha (by simp [e])) h
    unfold St.calls
    rw [h.gone, fine_release _ hc, ite_self]
    exact ih _ (fun e => ha (List.mem_cons_of_mem _ e)) hc

theorem fine_released (s : St α) (h : Fine s) : Fine s.release := by rw [fine_release s h]; exact h

theorem fine_step (conv : Bool) (s : St α) (e : Event α) (he : .letGo ∉ doneBy e) (h : Fine s) : Fine (step conv s e) := by
  have hg : ¬ s.gone = true := by rw [h.gone]; exact Bool.false_ne_true
  cases e with
  | user a =>
    simp only [step]
    split
    · exact h
    · exact fine_released _ (fine_call conv s a (fun e => he (by simp [doneBy, e])) h)
  | shaken calls =>
    simp only [step]
    split
    · exact h
    · exact fine_released _ (fine_calls conv false calls { s with shaking := false } he ⟨h.held, h.gone, h.bad⟩)
  | net i calls =>
    simp only [step]
    split
    · exact h
    · have h1 : Fine { s with ep := (Endpoint.step conv s.ep i).1 } := ⟨h.held, h.gone, h.bad⟩
      split
      · exact fine_released _ (fine_calls conv (keeps s.ep i) calls _ he h1)
      · exact fine_released _ h1

theorem fine_run (conv : Bool) (es : List (Event α)) : ∀ s : St α, Keeps es → Fine s → Fine (run conv s es) := by
  induction es with
  | nil => exact fun _ _ h => h
  | cons e es ih =>
    exact fun s hk hf => ih _ (fun e' he' => hk e' (List.mem_cons_of_mem _ he')) (fine_step conv s e (hk e List.mem_cons_self) hf)

/-- C127, if the user keeps the pointer: the endpoint is not destroyed and not used after that. -/
theorem kept_partial (conv : Bool) (es : List (Event α)) (h : Keeps es) :
    (run conv ({} : St α) es).gone = false ∧ (run conv ({} : St α) es).bad = false := by
  have := fine_run conv es {} h ⟨rfl, rfl, rfl⟩
  exact ⟨this.gone, this.bad⟩

/-! ## When it is let go of -/

/-- The endpoint of a connection that nobody closes. -/
structure Open (s : Endpoint.St α) : Prop where
  pending : s.pending ≠ .close
  writing : ∀ f, s.inflight = some f → ∃ m, f = .data m

theorem open_loop (s : Endpoint.St α) (h : s.pending ≠ .close) (hi : ∀ f, s.inflight = some f → ∃ m, f = .data m) :
    Open (Endpoint.loop s).1 := by
  unfold Endpoint.loop
  split
  · rename_i hp; exact absurd hp h
  · split
    · rename_i m _ _
      exact ⟨h, fun f hf => ⟨m, by injection hf with hf; exact hf.symm⟩⟩
    · exact ⟨h, hi⟩

theorem open_start (s : Endpoint.St α) (h : Open s) : Open (Endpoint.startSendQueue s).1 := by
  unfold Endpoint.startSendQueue
  split
  · exact h
  · exact open_loop _ h.pending h.writing

theorem open_step (conv : Bool) (s : Endpoint.St α) (i : In α) (h : Open s) (h1 : i ≠ .close) (h2 : i ≠ .readClose) :
    Open (Endpoint.step conv s i).1 := by
  unfold Endpoint.step
  split
  · exact h
  · cases i with
    | close => exact absurd rfl h1
    | readClose => exact absurd rfl h2
    | send m => exact open_start _ ⟨h.pending, h.writing⟩
    | start =>
      dsimp only
      split
      · split
        · exact open_start _ ⟨h.pending, h.writing⟩
        · exact ⟨h.pending, h.writing⟩
      · exact h
    | stop => exact ⟨h.pending, h.writing⟩
    | wrote =>
      dsimp only
      split
      · rename_i f hf
        obtain ⟨m, rfl⟩ := h.writing f hf
        exact open_loop _ h.pending (fun _ hn => by cases hn)
      · exact h
    | writeFailed e =>
      dsimp only
      split
      · rename_i f hf
        obtain ⟨m, rfl⟩ := h.writing f hf
        exact ⟨h.pending, fun _ hn => by cases hn⟩
      · exact h
    | readPing =>
      dsimp only
      split
      · refine ⟨?_, h.writing⟩
        show Endpoint.toPong s.pending ≠ .close
        have := h.pending
        cases hp : s.pending <;> simp_all [Endpoint.toPong]
      · exact h
    | readMessage m => dsimp only; split <;> exact ⟨h.pending, h.writing⟩
    | readPong => dsimp only; split <;> exact ⟨h.pending, h.writing⟩
    | readBad => dsimp only; split <;> exact ⟨h.pending, h.writing⟩
    | readError e => dsimp only; split <;> exact ⟨h.pending, h.writing⟩

theorem open_call (conv : Bool) (s : St α) (a : Api α) (ha : a ≠ .close) (h : Open s.ep) : Open (s.call conv a).ep := by
  unfold St.call
  cases a with
  | close => exact absurd rfl ha
  | letGo => exact h
  | send m => exact open_step conv _ _ h nofun nofun
  | start => exact open_step conv _ _ h nofun nofun
  | stop => exact open_step conv _ _ h nofun nofun

/-- The calls of a handler whose caller owns the endpoint. -/
theorem open_calls (conv : Bool) (as : List (Api α)) : ∀ s : St α, .close ∉ as → Open s.ep → s.gone = false →
    Open (s.calls conv true as).ep ∧ (s.calls conv true as).gone = false
      ∧ (s.calls conv true as).bad = s.bad ∧ (s.calls conv true as).shaking = s.shaking := by
  induction as with
  | nil => exact fun _ _ h hg => ⟨h, hg, rfl, rfl⟩
  | cons a as ih =>
    intro s ha h hg
    have hc := open_call conv s a (fun e => ha (by simp [e])) h
    unfold St.calls
    rw [hg]
    simp only [Bool.false_eq_true, if_false, if_true]
    obtain ⟨h1, h2, h3, h4⟩ := ih (s.call conv a) (fun e => ha (List.mem_cons_of_mem _ e)) hc (by rw [call_gone, hg])
    refine ⟨h1, h2, h3.trans ?_, h4.trans ?_⟩ <;> (unfold St.call; split <;> rfl)

/-- A connection that nobody closes, after the handshake. -/
structure Well (s : St α) : Prop where
  shaken : s.shaking = false
  ep : Open s.ep
  gone : s.gone = !s.owned
  bad : s.bad = false

theorem well_release (s : St α) (h1 : s.shaking = false) (h2 : Open s.ep) (h3 : s.bad = false) :
    s.release.shaking = false ∧ Open s.release.ep ∧ s.release.bad = false := by
  unfold St.release
  split <;> exact ⟨h1, h2, h3⟩

theorem well_step (conv : Bool) (s : St α) (e : Event α) (h : Well s) (h1 : .close ∉ doneBy e)
    (h2 : ∀ calls, e ≠ .net .readClose calls) : Well (step conv s e) := by
  have hgone := step_gone conv s e h.gone
  suffices hh : (step conv s e).shaking = false ∧ Open (step conv s e).ep ∧ (step conv s e).bad = false from
    ⟨hh.1, hh.2.1, hgone, hh.2.2⟩
  clear hgone
  cases e with
  | user a =>
    simp only [step]
    split
    · exact ⟨h.shaken, h.ep, h.bad⟩
    · refine well_release _ ?_ (open_call conv s a (fun e => h1 (by simp [doneBy, e])) h.ep) ?_
      · rw [← h.shaken]; unfold St.call; split <;> rfl
      · rw [← h.bad]; unfold St.call; split <;> rfl
  | shaken calls =>
    simp only [step, h.shaken]
    exact ⟨h.shaken, h.ep, h.bad⟩
  | net i calls =>
    simp only [step]
    split
    · exact ⟨h.shaken, h.ep, h.bad⟩
    · rename_i hnet
      split
      · rename_i hg
        split
        · rename_i hc
          exfalso
          have ho := h.gone
          rw [hg] at ho
          simp only [Bool.and_eq_true] at hc
          obtain ⟨f, hf⟩ := Option.isSome_iff_exists.mp hc.2
          obtain ⟨m, rfl⟩ := h.ep.writing f hf
          simp only [St.owned, sending, hf, Bool.or_true] at ho
          cases ho
        · exact ⟨h.shaken, h.ep, h.bad⟩
      · rename_i hg
        have hg : s.gone = false := by cases hh : s.gone; rfl; exact absurd hh hg
        have hi1 : i ≠ .close := by rintro rfl; exact hnet rfl
        have hi2 : i ≠ .readClose := by rintro rfl; exact h2 calls rfl
        have hep := open_step conv s.ep i h.ep hi1 hi2
        split
        · rename_i ht
          have hk : keeps s.ep i = true := by
            unfold keeps
            cases hc : completes i
            · rfl
            · cases hinf : s.ep.inflight with
              | some f =>
                obtain ⟨m, rfl⟩ := h.ep.writing f hinf
                simp only [sending, hinf]; rfl
              | none =>
                exfalso
                cases i with
                | wrote =>
                  simp only [Endpoint.step, hinf] at ht
                  split at ht <;> simp [told] at ht
                | writeFailed e =>
                  simp only [Endpoint.step, hinf] at ht
                  split at ht <;> simp [told] at ht
                | _ => cases hc
          rw [hk]
          obtain ⟨c1, _, c3, c4⟩ := open_calls conv calls { s with ep := (Endpoint.step conv s.ep i).1 } h1 hep hg
          exact well_release _ (c4.trans h.shaken) c1 (c3.trans h.bad)
        · exact well_release _ h.shaken hep h.bad

theorem well_run (conv : Bool) (es : List (Event α)) : ∀ s : St α, Well s → NobodyCloses es → Well (run conv s es) := by
  induction es with
  | nil => exact fun _ h _ => h
  | cons e es ih =>
    exact fun s h hn => ih _ (well_step conv s e h (hn e List.mem_cons_self).1 (hn e List.mem_cons_self).2)
      fun e' he' => hn e' (List.mem_cons_of_mem _ he')

/-- C127, for connections that are not closed by frames: after the handshake the user may let go of the pointer
at any time, in a handler or elsewhere.  The endpoint is never used after it was destroyed, and when it is
destroyed nothing is being read or written. -/
theorem let_go_partial (conv : Bool) (es : List (Event α)) (h : NobodyCloses es) :
    (run conv (connected : St α) es).bad = false
    ∧ ((run conv (connected : St α) es).gone = true →
        (run conv (connected : St α) es).ep.reading = false ∧ (run conv (connected : St α) es).ep.inflight = none) := by
  have hw : Well (run conv (connected : St α) es) :=
    well_run conv es _ ⟨rfl, ⟨by simp [connected], by simp [connected]⟩, rfl, rfl⟩ h
  refine ⟨hw.bad, fun hg => ?_⟩
  have ho := hw.gone
  rw [hg] at ho
  generalize run conv (connected : St α) es = s at hw hg ho
  cases hr : s.ep.reading
  · refine ⟨rfl, ?_⟩
    cases hi : s.ep.inflight with
    | none => rfl
    | some f =>
      obtain ⟨m, rfl⟩ := hw.ep.writing f hi
      simp only [St.owned, sending, hi, Bool.or_true] at ho
      cases ho
  · simp only [St.owned, hr, Bool.or_true, Bool.true_or] at ho
    cases ho

theorem gone_step (conv : Bool) (s : St α) (e : Event α) (hg : s.gone = true) (hs : s.shaking = false)
    (hi : s.ep.inflight = none) : step conv s e = s := by
  cases e with
  | user a => simp only [step, hg, Bool.true_or, if_true]
  | shaken calls => simp only [step, hs, Bool.not_false, if_true]
  | net i calls => simp only [step, hg, hi, Option.isSome_none, Bool.and_false]; simp

/-- C127, for any connection: once the reader has ended and nothing is being written, the user may let go: the
endpoint is destroyed at once and never used again. -/
theorem let_go_over_partial (conv : Bool) (es : List (Event α)) (hk : Keeps es)
    (hs : (run conv ({} : St α) es).shaking = false) (hr : (run conv ({} : St α) es).ep.reading = false)
    (hi : (run conv ({} : St α) es).ep.inflight = none) (es' : List (Event α)) :
    (run conv ({} : St α) (es ++ .user .letGo :: es')).gone = true
    ∧ (run conv ({} : St α) (es ++ .user .letGo :: es')).bad = false := by
  have hsplit : ∀ (es es' : List (Event α)) (s : St α), run conv s (es ++ es') = run conv (run conv s es) es' := by
    intro es es'
    induction es with
    | nil => exact fun _ => rfl
    | cons e es ih => exact fun s => ih _
  obtain ⟨h1, h2⟩ := kept_partial conv es hk
  have hheld := (fine_run conv es {} hk ⟨rfl, rfl, rfl⟩).held
  rw [hsplit, run]
  generalize run conv ({} : St α) es = s at h1 h2 hheld hs hr hi
  have hstep : step conv s (.user .letGo) = { s with held := false, gone := true } := by
    simp only [step, h1, hheld, St.call, Api.toIn, St.release, St.owned, hr, sending, hi]
    rfl
  rw [hstep]
  have hstay : ∀ (es' : List (Event α)) (s : St α), s.gone = true → s.shaking = false → s.ep.inflight = none →
      run conv s es' = s := by
    intro es'
    induction es' with
    | nil => exact fun _ _ _ _ => rfl
    | cons e es' ih => exact fun s a b c => by rw [run, gone_step conv s e a b c]; exact ih s a b c
  rw [hstay es' { s with held := false, gone := true } rfl hs hi]
  exact ⟨rfl, h2⟩

/-! ## What goes wrong -/

/-- C127 does not hold in general: an endpoint that the user lets go of during the handshake is used
afterwards, whatever comes of the handshake; -/
theorem handshake_violated (conv : Bool) (calls : List (Api α)) :
    (run conv ({} : St α) [.user .letGo, .shaken calls]).bad = true := rfl

/-- in the handler that is told of the end of the handshake, the pointer must not be let go of before the last use
of the endpoint (the caller of the handler does not own it); -/
theorem handler_violated (conv : Bool) (a : Api α) :
    (run conv ({} : St α) [.shaken [.letGo, a]]).bad = true := rfl

/-- so is one that the user lets go of when told that the connection is closed, if its own close frame is
still being written; -/
theorem closed_violated (conv : Bool) :
    (run conv ({} : St Nat) [.shaken [.start], .user .close, .net .readClose [.letGo], .net .wrote []]).bad = true := by
  cases conv <;> rfl

/-- and every endpoint that was let go of and is idle when the peer closes the connection. -/
theorem peer_closes_violated (conv : Bool) (s : St α) (hh : s.held = false) (hg : s.gone = false)
    (hb : s.ep.broken = false) (hr : s.ep.reading = true) (hst : s.ep.started = true) (hsp : s.ep.stopped = false)
    (hrun : s.ep.running = false) (hp : s.ep.pending ≠ .close) (hi : s.ep.inflight = none) (calls calls' : List (Api α)) :
    (run conv s [.net .readClose calls, .net .wrote calls']).bad = true := by
  have hstep : Endpoint.step conv s.ep .readClose
      = ({ s.ep with closeReceived := true, reading := false, pending := .close, running := true, inflight := some .close },
         [.received .readClose, .begin .close]) := by
    simp [Endpoint.step, hb, hr, Endpoint.onRead, hp, Endpoint.startSendQueue, hrun, hsp, hst, Endpoint.loop, Endpoint.St.write]
  simp only [run]
  have h1 : step conv s (.net .readClose calls) = { s with ep := (Endpoint.step conv s.ep .readClose).1, gone := true } := by
    simp only [step, fromNet, hg, hstep, told, St.release, St.owned, hh, sending]
    rfl
  rw [h1, hstep]
  rfl

/-- Such endpoints: connected, two messages sent, and let go of. -/
example : let s := run true ({} : St Nat) [.shaken [.start], .user (.send 3), .user (.send 4), .user .letGo,
      .net .wrote [], .net .wrote []]
    s.held = false ∧ s.gone = false ∧ s.ep.broken = false ∧ s.ep.reading = true ∧ s.ep.started = true
    ∧ s.ep.stopped = false ∧ s.ep.running = false ∧ s.ep.pending ≠ .close ∧ s.ep.inflight = none := by decide +kernel

/-- A connection that is lost while two messages are being sent: the endpoint lives until the write failed. -/
example : let s := run true ({} : St Nat) [.shaken [.start, .send 3, .letGo], .net (.readError .dropped) [.send 4]]
    s.gone = false ∧ (run true s [.net (.writeFailed .dropped) []]).gone = true
    ∧ (run true s [.net (.writeFailed .dropped) []]).bad = false := by decide +kernel

example : NobodyCloses ([.user .start, .user (.send 3), .net (.readMessage 5) [.letGo], .net (.readError .other) []] :
    List (Event Nat)) := by
  intro e he
  simp only [List.mem_cons, List.not_mem_nil, or_false] at he
  rcases he with rfl | rfl | rfl | rfl <;> simp [doneBy]

/-- A closed connection that is let go of afterwards. -/
example : let es : List (Event Nat) := [.shaken [.start], .net .readClose [], .net .wrote []]
    Keeps es ∧ (run true ({} : St Nat) es).shaking = false ∧ (run true ({} : St Nat) es).ep.reading = false
    ∧ (run true ({} : St Nat) es).ep.inflight = none := by
  refine ⟨?_, by decide +kernel⟩
  intro e he
  simp only [List.mem_cons, List.not_mem_nil, or_false] at he
  rcases he with rfl | rfl | rfl <;> simp [doneBy]

end Nbdl.Lifetime
