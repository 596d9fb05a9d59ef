import Verif.Session.Lemmas

/-!
# Sessions: C140

From the first octet of the request on, for every way the octets of both directions are cut up and
delayed, for users who may call `send_message`, `send_close` and `stop` at any time, and for connections
that may be lost at any time.
-/

namespace Nbdl.Session
open Nbdl.Link (Side Act Net Msg sentBy handedTo Sound Connected Used Settled Fits talk)
open Nbdl.Handshake
open Nbdl.Endpoint (In Obs Note)

/-- C140: a session is defined, whatever happens, and between the endpoints it is a conversation of
`Link` (to which C108 to C111 apply): nothing that was called for is left out, and everything else that
is not done was to be done before the endpoint was ready. -/
theorem session_talks (k : Conf) (hk : Polite k) (es : List Ev) :
    ∃ st xs, session k es = .ok st ∧ talk k.link xs = .ok ⟨st.client.side, st.server.side⟩
      ∧ xs.Sublist (acts es) ∧ xs.filter isCall = (acts es).filter isCall := by
  obtain ⟨st, xs, e, h⟩ := inv_run k hk es
  exact ⟨st, xs, e, h.net, h.sub, h.calls⟩

/-- C140: the user of the server is told, once, that it is ready, with the token of the client, as soon
as the whole request has arrived, and of an error only if the connection was lost before; the user of the
client is told, once, as soon as the whole response has arrived, which is only after the server was
ready.  Nobody is told of a bad request. -/
theorem session_told (k : Conf) (hk : Polite k) (es : List Ev) (st : St) (h : session k es = .ok st) :
    st.server.got <+: request k.origin k.token
    ∧ news st.server.told = (if st.server.got = request k.origin k.token then [.ready k.token]
      else if st.server.failed then [.error] else [])
    ∧ news st.client.told = (if Spec.response (ascii "dGhlIHNhbXBsZSBub25jZQ==") <+: st.client.got then [.ready []]
      else if st.client.failed then [.error] else [])
    ∧ (.ready [] ∈ st.client.told → .ready k.token ∈ st.server.told) := by
  obtain ⟨st', xs, e, hi⟩ := inv_run k hk es
  rw [h] at e
  cases e
  have hs : isReady (serverAt k st) = decide (st.server.got = request k.origin k.token) := by
    rcases server_at hk hi.sGot with ⟨h1, h2⟩ | ⟨h1, h2⟩
    · rw [h1, decide_eq_false h2]; rfl
    · rw [h1, decide_eq_true h2]; rfl
  have hc : isEqual (clientAt st) = decide (expectedResponse <+: st.client.got) := by
    rcases client_at hk hi.sGot hi.cGot with ⟨h1, h2⟩ | ⟨m, h1, h2, -⟩
    · rw [h1, decide_eq_false (fun hp => by have := hp.length_le; omega)]; rfl
    · rw [h1, decide_eq_true (by rw [h2]; exact List.prefix_append _ _)]; rfl
  have h1 := hi.sTold
  have h2 := hi.cTold
  rw [hs] at h1
  rw [hc] at h2
  simp only [decide_eq_true_eq] at h1 h2
  refine ⟨hi.sGot, h1, by rw [response_expected]; exact h2, fun hm => ?_⟩
  have hm : Told.ready [] ∈ news st.client.told := List.mem_filter.2 ⟨hm, by decide⟩
  rw [h2] at hm
  have hp : expectedResponse <+: st.client.got := by
    by_cases hp : expectedResponse <+: st.client.got
    · exact hp
    · rw [if_neg hp] at hm
      split at hm <;> simp at hm
  rcases client_at hk hi.sGot hi.cGot with ⟨-, h3⟩ | ⟨m, -, -, -, h5, -⟩
  · have := hp.length_le; omega
  · rw [if_pos h5] at h1
    have : Told.ready k.token ∈ news st.server.told := by rw [h1]; simp
    exact (List.mem_filter.1 this).1

/-- C140 (and C60, between endpoints of the library): the readers begin with the first octet behind the
handshake, whatever part of it arrived together with the handshake. -/
theorem session_rest (k : Conf) (hk : Polite k) (es : List Ev) (st : St) (h : session k es = .ok st) :
    (.ready k.token ∈ st.server.told → serverRest k st = st.client.side.out k.link)
    ∧ (.ready [] ∈ st.client.told → clientRest k st = st.server.side.out k.link) := by
  obtain ⟨st', xs, e, hi⟩ := inv_run k hk es
  rw [h] at e
  cases e
  have hr := rest_exact hk hi
  refine ⟨fun hm => hr.1 ?_, fun hm => hr.2 ?_⟩
  · have hm : Told.ready k.token ∈ news st.server.told := List.mem_filter.2 ⟨hm, by simp⟩
    rw [hi.sTold] at hm
    cases hq : isReady (serverAt k st)
    · rw [hq] at hm
      simp only [Bool.false_eq_true, if_false] at hm
      split at hm <;> simp at hm
    · rfl
  · have hm : Told.ready [] ∈ news st.client.told := List.mem_filter.2 ⟨hm, by simp⟩
    rw [hi.cTold] at hm
    cases hq : isEqual (clientAt st)
    · rw [hq] at hm
      simp only [Bool.false_eq_true, if_false] at hm
      split at hm <;> simp at hm
    · rfl

/-- C140: as long as no connection is lost, both become ready when what was written arrives. -/
theorem session_ready (k : Conf) (hk : Polite k) (es : List Ev) (hl : ∀ w, Ev.lose w ∉ es) (n m : Nat)
    (hn : (request k.origin k.token).length ≤ n)
    (hm : (Spec.response (ascii "dGhlIHNhbXBsZSBub25jZQ==")).length ≤ m) :
    ∃ st, session k (es ++ [.hear false n, .hear true m]) = .ok st
      ∧ news st.server.told = [.ready k.token] ∧ news st.client.told = [.ready []] := by
  obtain ⟨st, xs, e, hi⟩ := inv_run k hk es
  obtain ⟨f1, f2⟩ := run_failed k es {} st e hl
  obtain ⟨st1, ys, e1, hi1⟩ := inv_step k hk _ st xs hi (.hear false n)
  obtain ⟨st2, zs, e2, hi2⟩ := inv_step k hk _ st1 _ hi1 (.hear true m)
  have g1 : st1.server.got = request k.origin k.token := by
    rcases server_at hk hi.sGot with ⟨h1, -⟩ | ⟨h1, h2⟩
    · rw [step, if_pos ⟨h1, f2⟩] at e1
      cases e1
      refine hi1.sGot.eq_of_length_le ?_
      have := hi.sGot.length_le
      simp only [clientStream, List.length_append, List.length_take, List.length_drop]
      omega
    · rw [step, if_neg (by rw [h1]; simp)] at e1
      cases e1
      exact h2
  have f3 : st1.client.failed = false := by
    rw [step] at e1
    split at e1 <;> cases e1 <;> exact f1
  have r1 : serverAt k st1 = .ready k.token expectedResponse [] := by
    rw [serverAt, g1]; exact request_ready k hk
  have g2 : isEqual (clientAt st2) = true ∧ st2.server = st1.server := by
    rcases client_at hk hi1.sGot hi1.cGot with ⟨h1, -⟩ | ⟨m', h1, -⟩
    · rw [step, if_pos ⟨h1, f3⟩] at e2
      cases e2
      refine ⟨?_, rfl⟩
      rcases client_at hk hi2.sGot hi2.cGot with ⟨-, h2⟩ | ⟨m', h2, -⟩
      · rw [response_expected] at hm
        have h3 : serverStream k st1 = expectedResponse ++ st1.server.side.out k.link := by
          unfold serverStream; rw [r1]
        have := hi1.cGot.length_le
        simp only [h3, List.length_append, List.length_take, List.length_drop] at h2 this
        omega
      · rw [h2]; rfl
    · rw [step, if_neg (by rw [h1]; simp)] at e2
      cases e2
      exact ⟨by rw [h1]; rfl, rfl⟩
  refine ⟨st2, ?_, ?_, ?_⟩
  · unfold session at e ⊢
    rw [run_append, e]
    simp only [Cpp.bind, run, e1, e2]
  · have r2 : serverAt k st2 = .ready k.token expectedResponse [] := by
      rw [serverAt, g2.2]; exact r1
    have := hi2.sTold
    rw [r2] at this
    exact this
  · have := hi2.cTold
    rw [g2.1] at this
    exact this

/-- C140: the messages a user is handed are a beginning of those the other user sent, from the first one
on, also of those sent during the handshake (see C05 for `Fits`). -/
theorem session_in_order_partial (k : Conf) (hk : Polite k) (es : List Ev) (st : St)
    (h : session k es = .ok st) :
    ((∀ m ∈ sentBy k.link st.client.side, Fits m) →
      handedTo k.link st.server.side <+: sentBy k.link st.client.side)
    ∧ ((∀ m ∈ sentBy k.link st.server.side, Fits m) →
      handedTo k.link st.client.side <+: sentBy k.link st.server.side) := by
  obtain ⟨st', xs, e, hi⟩ := inv_run k hk es
  rw [h] at e
  cases e
  exact Link.conversation_in_order_partial k.link hk.op xs _ hi.net

/-- C140: when nothing is left to do, no write failed and the connection was not lost, the users were
handed everything the other one sent, joined as C05 has it, or both were told of the close. -/
theorem session_outcome_exact (k : Conf) (hk : Polite k) (es : List Ev) (st : St) (h : session k es = .ok st)
    (hw : ∀ w e, (w, Act.writeFailed e) ∉ acts es) (hc : ∀ w e, (w, Act.lost e) ∉ acts es)
    (hu : Used st.client.side ∧ Used st.server.side)
    (hset : Settled k.link ⟨st.client.side, st.server.side⟩) :
    (In.close ∉ st.client.side.ins ∧ In.close ∉ st.server.side.ins →
      handedTo k.link st.server.side = Ws.glue 125 [] (sends true (acts es))
      ∧ handedTo k.link st.client.side = Ws.glue 125 [] (sends false (acts es)))
    ∧ (In.close ∈ st.client.side.ins ∨ In.close ∈ st.server.side.ins →
      .note .close ∈ st.client.side.seen k.link ∧ .note .close ∈ st.server.side.seen k.link) := by
  obtain ⟨st', xs, e, hi⟩ := inv_run k hk es
  rw [h] at e
  cases e
  have hs : Sound xs := fun w e hm => hw w e (hi.sub.subset hm)
  have ho := Link.settled_outcome_exact k.link hk.op xs _ hi.net hs
    (fun w e hm => hc w e (hi.sub.subset hm)) hu hset
  obtain ⟨n, en, -, hf⟩ := Link.pair_talk hk.op xs
  rw [hi.net] at en
  cases en
  have hx := history_sends k.link xs {} _ hi.net
  have e1 : ∀ w, sends w (acts es) = sends w xs := fun w => by
    rw [← sends_filter w (acts es), ← hi.calls, sends_filter]
  have h1 : sentBy k.link st.client.side = sends true xs := (sent_all k.link _ (hf hs).1).trans hx.1
  have h2 : sentBy k.link st.server.side = sends false xs := (sent_all k.link _ (hf hs).2).trans hx.2
  refine ⟨fun hcl => ?_, ho.2⟩
  rw [e1, e1]
  exact ⟨(ho.1 hcl).1.trans (congrArg _ h1), (ho.1 hcl).2.trans (congrArg _ h2)⟩

/-- C140: with messages that are not joined (see C05), also those sent during the handshake, that is
everything the other one sent. -/
theorem session_delivers_partial (k : Conf) (hk : Polite k) (es : List Ev) (st : St) (h : session k es = .ok st)
    (hw : ∀ w e, (w, Act.writeFailed e) ∉ acts es) (hc : ∀ w e, (w, Act.lost e) ∉ acts es)
    (hu : Used st.client.side ∧ Used st.server.side)
    (hset : Settled k.link ⟨st.client.side, st.server.side⟩)
    (hcl : In.close ∉ st.client.side.ins ∧ In.close ∉ st.server.side.ins)
    (hfit : ∀ w, ∀ m ∈ sends w (acts es), Fits m) :
    handedTo k.link st.server.side = sends true (acts es)
    ∧ handedTo k.link st.client.side = sends false (acts es) := by
  have ho := (session_outcome_exact k hk es st h hw hc hu hset).1 hcl
  exact ⟨ho.1.trans (Link.glue_fits _ (hfit true)), ho.2.trans (Link.glue_fits _ (hfit false))⟩

/-- C13 fails during the handshake, for every client: `stop` shuts the connection down, the handshake ends
with an error, and the handler is called. -/
theorem stop_told_violated (k : Conf) : ∃ st, session k [.act true .stop, .lose true] = .ok st
    ∧ st.client.told = [.stopped, .error] := by
  have hc : client [] = .waiting := by decide +kernel
  have h1 : step k {} (.act true .stop)
      = .ok { client := { told := [.stopped], side := { ins := [.stop] } } } := by
    rw [step]; unfold actAt; rw [if_neg (by simp [early])]; rfl
  refine ⟨{ client := { failed := true, told := [.stopped, .error], side := { ins := [.stop] } } }, ?_, rfl⟩
  rw [session, run, h1]
  simp only [Cpp.bind, run]
  rw [step, if_pos ⟨hc, rfl⟩]
  rfl

/-! ## A session -/

def sample : Conf := ⟨⟨Ws.opText, true, true⟩, true, fun _ => 7, ascii "o", ascii "t"⟩

theorem sample_polite : Polite sample :=
  ⟨by decide +kernel, by decide +kernel, by decide +kernel, by decide +kernel, .inl rfl⟩

def sampleEvs : List Ev := [.act true (.send (ascii "early")), .hear false 20, .hear false 1000, .act false .start,
  .act false (.send (ascii "hello")), .hear true 1000, .act true .start, .act true .wrote, .act false .wrote,
  .act false (.arrive 3), .act false (.arrive 100), .act true (.arrive 100)]

/-- Check of a concrete history. -/
def check (r : Cpp St) (p : St → Bool) : Bool := match r with | .ok n => p n | .ub => false

/-- It meets the conditions of `session_outcome_exact` and `session_delivers_partial`. -/
example : ∃ st, session sample sampleEvs = .ok st ∧ Polite sample
    ∧ (∀ w e, (w, Act.writeFailed e) ∉ acts sampleEvs) ∧ (∀ w e, (w, Act.lost e) ∉ acts sampleEvs)
    ∧ Used st.client.side ∧ Used st.server.side ∧ Settled sample.link ⟨st.client.side, st.server.side⟩
    ∧ In.close ∉ st.client.side.ins ∧ In.close ∉ st.server.side.ins
    ∧ (∀ w, ∀ m ∈ sends w (acts sampleEvs), Fits m)
    ∧ handedTo sample.link st.server.side = [ascii "early"]
    ∧ handedTo sample.link st.client.side = [ascii "hello"]
    ∧ st.server.told = [.ready (ascii "t")] ∧ st.client.told = [.ready []] := by
  have h : check (session sample sampleEvs) (fun st =>
      (Endpoint.Spec.inFlight none (st.client.side.seen sample.link)).isNone
      && (Endpoint.Spec.inFlight none (st.server.side.seen sample.link)).isNone
      && st.server.side.got == st.client.side.out sample.link
      && st.client.side.got == st.server.side.out sample.link
      && st.client.side.ins == [.send (ascii "early"), .start, .wrote, .readMessage (ascii "hello")]
      && st.server.side.ins == [.start, .send (ascii "hello"), .wrote, .readMessage (ascii "early")]
      && handedTo sample.link st.server.side == [ascii "early"]
      && handedTo sample.link st.client.side == [ascii "hello"]
      && st.server.told == [.ready (ascii "t")] && st.client.told == [.ready []]) = true := by decide +kernel
  obtain ⟨st, xs, e, hi⟩ := inv_run sample sample_polite sampleEvs
  rw [e] at h
  simp only [check, Bool.and_eq_true, beq_iff_eq, Option.isNone_iff_eq_none] at h
  obtain ⟨⟨⟨⟨⟨⟨⟨⟨⟨h1, h2⟩, h3⟩, h4⟩, h5⟩, h6⟩, h7⟩, h8⟩, h9⟩, h10⟩ := h
  obtain ⟨n, en, hp, -⟩ := Link.pair_talk sample_polite.op xs
  rw [hi.net] at en
  cases en
  refine ⟨st, e, sample_polite, by simp [acts, sampleEvs], by simp [acts, sampleEvs],
    ⟨[.send (ascii "early")], _, h5, by simp, by simp [h5]⟩, ⟨[], _, h6, by simp, by simp [h6]⟩,
    Link.settled_of_idle hp ⟨h1, h2⟩ ⟨h3, h4⟩, by simp [h5], by simp [h6], ?_, h7, h8, h9, h10⟩
  intro w m hm
  cases w
  · rw [show sends false (acts sampleEvs) = [ascii "hello"] from rfl] at hm
    rw [List.mem_singleton.1 hm]; exact .inr (by decide +kernel)
  · rw [show sends true (acts sampleEvs) = [ascii "early"] from rfl] at hm
    rw [List.mem_singleton.1 hm]; exact .inr (by decide +kernel)

/-- The connection is lost in the middle of the handshake. -/
example : check (session sample [.hear false 20, .lose false, .hear false 1000, .act false .start, .act true .close,
    .lose true]) (fun st => st.server.told == [.error] && st.client.told == [.error]
      && st.server.side.ins == [] && st.client.side.ins == [.close]) = true := by decide +kernel

/-- Both are ready, and the connection stays open: a `send_close` during the handshake is forgotten if
there is nothing else to send. -/
theorem early_close_violated : ∃ st, session sample [.act true .close, .hear false 1000, .hear true 1000,
      .act true .start, .act false .start] = .ok st
    ∧ Settled sample.link ⟨st.client.side, st.server.side⟩ ∧ st.client.side.ins = [.close, .start]
    ∧ .begin .close ∉ st.client.side.seen sample.link ∧ .note .close ∉ st.server.side.seen sample.link := by
  have h : check (session sample [.act true .close, .hear false 1000, .hear true 1000,
      .act true .start, .act false .start]) (fun st =>
      (Endpoint.Spec.inFlight none (st.client.side.seen sample.link)).isNone
      && (Endpoint.Spec.inFlight none (st.server.side.seen sample.link)).isNone
      && st.server.side.got == st.client.side.out sample.link
      && st.client.side.got == st.server.side.out sample.link
      && st.client.side.ins == [.close, .start]
      && st.client.side.seen sample.link == [.closeRequested]
      && st.server.side.seen sample.link == []) = true := by decide +kernel
  obtain ⟨st, xs, e, hi⟩ := inv_run sample sample_polite [.act true .close, .hear false 1000, .hear true 1000,
      .act true .start, .act false .start]
  rw [e] at h
  simp only [check, Bool.and_eq_true, beq_iff_eq, Option.isNone_iff_eq_none] at h
  obtain ⟨⟨⟨⟨⟨⟨h1, h2⟩, h3⟩, h4⟩, h5⟩, h6⟩, h7⟩ := h
  obtain ⟨n, en, hp, -⟩ := Link.pair_talk sample_polite.op xs
  rw [hi.net] at en
  cases en
  exact ⟨st, e, Link.settled_of_idle hp ⟨h1, h2⟩ ⟨h3, h4⟩, h5, by rw [h6]; simp, by rw [h7]; simp⟩

end Nbdl.Session
