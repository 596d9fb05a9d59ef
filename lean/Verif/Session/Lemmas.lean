import Verif.Session.Spec
import Verif.Handshake.Props
import Verif.Link.Props

/-! Helper lemmas about sessions. -/

namespace Nbdl.Session
open Nbdl.Link (Side Act Net Msg)
open Nbdl.Handshake
open Nbdl.Endpoint (In Obs Note)

/-! ## Part of a request -/

theorem readLine_waits (sched : Nat → Nat) (i : Nat) (buf stream : List Byte) (h : lf ∉ buf ++ stream)
    (hl : (buf ++ stream).length < maxBuf) : readLine sched i buf stream = .waiting := by
  induction hn : stream.length using Nat.strongRecOn generalizing i buf stream with
  | ind n ih =>
    have hb : lf ∉ buf := fun hm => h (List.mem_append.2 (.inl hm))
    rw [readLine, findCrlf_none _ hb]
    simp only
    rw [if_neg (by rw [List.length_append] at hl; omega)]
    by_cases hs : stream = []
    · rw [dif_pos hs]
    · rw [dif_neg hs]
      have hbl : buf.length < maxBuf := by rw [List.length_append] at hl; omega
      have hc := chunk_bounds sched i buf.length stream.length hbl
      have h2 := List.length_pos_iff.2 hs
      have e : buf ++ stream.take (chunk sched i buf.length stream.length)
          ++ stream.drop (chunk sched i buf.length stream.length) = buf ++ stream := by
        rw [List.append_assoc, List.take_append_drop]
      exact ih _ (by rw [List.length_drop]; omega) _ _ _ (by rw [e]; exact h) (by rw [e]; exact hl) rfl

theorem prefix_cases {p a b : List Byte} (h : p <+: a ++ b) :
    (p <+: a ∧ p ≠ a) ∨ ∃ q, p = a ++ q ∧ q <+: b := by
  rcases Nat.lt_or_ge p.length a.length with hl | hl
  · exact .inl ⟨List.prefix_of_prefix_length_le h (List.prefix_append a b) (by omega), fun e => by rw [e] at hl; omega⟩
  · obtain ⟨q, rfl⟩ := List.prefix_of_prefix_length_le (List.prefix_append a b) h hl
    exact .inr ⟨q, rfl, (List.prefix_append_right_inj a).1 h⟩

theorem prefix_line {p l : List Byte} (hl : lf ∉ l) (h : p <+: l ++ crlf) (hne : p ≠ l ++ crlf) : lf ∉ p := by
  rw [show l ++ crlf = l ++ [cr] ++ [lf] by simp [crlf]] at h hne
  rcases prefix_cases h with ⟨h1, -⟩ | ⟨q, rfl, h1⟩
  · intro hm
    have := h1.subset hm
    simp only [List.mem_append, List.mem_singleton] at this
    rcases this with hm | hm
    · exact hl hm
    · exact absurd hm (by decide)
  · cases q with
    | nil =>
      intro hm
      simp only [List.append_nil, List.mem_append, List.mem_singleton] at hm
      rcases hm with hm | hm
      · exact hl hm
      · exact absurd hm (by decide)
    | cons x q =>
      obtain ⟨rfl, hq⟩ := List.cons_prefix_cons.1 h1
      rw [List.prefix_nil.1 hq] at hne
      exact absurd rfl hne

theorem readHeaders_waits (sched : Nat → Nat) (lines : List (List Byte)) (info info' : Info) (i : Nat)
    (buf stream : List Byte)
    (hl : ∀ l ∈ lines, lf ∉ l ∧ l ≠ [] ∧ l.length + 2 ≤ maxBuf) (hb : buf.length ≤ maxBuf)
    (hp : parseAll info lines = .ok info')
    (h : buf ++ stream <+: lines.flatMap (· ++ crlf) ++ crlf)
    (hne : buf ++ stream ≠ lines.flatMap (· ++ crlf) ++ crlf) :
    readHeaders sched info i buf stream = .waiting := by
  induction lines generalizing info i buf stream with
  | nil =>
    simp only [List.flatMap_nil, List.nil_append] at h hne
    have hw := readLine_waits sched i buf stream (prefix_line (l := []) (by simp) h hne)
      (Nat.lt_of_le_of_lt h.length_le (by decide))
    rw [readHeaders]
    split <;> rename_i heq <;> rw [hw] at heq <;> cases heq
  | cons l ls ih =>
    have hl1 := hl l (by simp)
    have e : (l :: ls).flatMap (· ++ crlf) ++ crlf = (l ++ crlf) ++ (ls.flatMap (· ++ crlf) ++ crlf) := by simp
    rw [e] at h hne
    rcases prefix_cases h with ⟨h1, h2⟩ | ⟨q, h1, h2⟩
    · have hlen : (buf ++ stream).length < maxBuf := by
        have := h1.length_le
        have h3 : (buf ++ stream).length ≠ (l ++ crlf).length := fun e => h2 (h1.eq_of_length e)
        have h4 : (l ++ crlf).length = l.length + 2 := by simp [crlf]
        omega
      have hw := readLine_waits sched i buf stream (prefix_line hl1.1 h1 h2) hlen
      rw [readHeaders]
      split <;> rename_i heq <;> rw [hw] at heq <;> cases heq
    · obtain ⟨j, buf', stream', h3, h4, h5⟩ := readLine_line sched i buf stream l q hl1.1 hl1.2.2 hb h1
      cases hp1 : parseHeader info l with
      | ub => rw [parseAll, hp1] at hp; cases hp
      | ok info1 =>
        rw [parseAll, hp1] at hp
        have := ih info1 j buf' stream' (fun x hx => hl x (by simp [hx])) h5 hp (h4 ▸ h2)
          (fun e => hne (by rw [h1, ← h4, e]))
        rw [readHeaders]
        split <;> rename_i heq <;> rw [h3] at heq <;> cases heq
        simp only [if_neg hl1.2.1, hp1]
        exact this

/-- The server waits as long as a part of the request is missing, however it arrives. -/
theorem request_waits (k : Conf) (hk : Polite k) (p : List Byte)
    (h : p <+: request k.origin k.token) (hne : p ≠ request k.origin k.token) :
    server k.nul k.sched p = .waiting := by
  have hwf := clientFields_wf k.origin k.token hk.origin hk.token hk.short.1 hk.short.2
  rw [request_eq, show ascii "GET / HTTP/1.1\r\n" = requestLine from rfl] at h hne
  unfold server expectEqual
  rcases prefix_cases h with ⟨h1, h2⟩ | ⟨q, rfl, h1⟩
  · rw [if_pos]
    have := h1.length_le
    have h3 : p.length ≠ requestLine.length := fun e => h2 (h1.eq_of_length e)
    omega
  · rw [if_neg (by simp), List.take_left' rfl, if_pos rfl, List.drop_left' rfl]
    have e : Spec.render (clientFields k.origin k.token)
        = ((clientFields k.origin k.token).map Spec.Field.line).flatMap (· ++ crlf) ++ crlf := by
      unfold Spec.render
      rw [List.flatMap_map, show ascii "\r\n" = crlf by decide]
      congr 2
      funext f; exact render_line f
    have hw : ∀ l ∈ (clientFields k.origin k.token).map Spec.Field.line,
        lf ∉ l ∧ l ≠ [] ∧ l.length + 2 ≤ maxBuf := by
      intro l hl
      obtain ⟨f, hf, rfl⟩ := List.mem_map.1 hl
      obtain ⟨w1, w2, w3⟩ := hwf f hf
      refine ⟨?_, ?_, ?_⟩
      · simp only [Spec.Field.line, List.mem_append, List.mem_cons, not_or]
        exact ⟨fun hm => (w1 _ hm).2.2 rfl, by decide, fun hm => w2 _ hm rfl⟩
      · simp [Spec.Field.line]
      · rw [render_line, List.length_append] at w3
        exact w3
    have := readHeaders_waits k.sched _ {} _ 0 [] q hw (by simp) (parseAll_fields _ {} hwf)
      (by rw [List.nil_append, ← e]; exact h1)
      (fun e2 => hne (by rw [e, ← e2, List.nil_append]))
    simp only [this]

theorem request_ready (k : Conf) (hk : Polite k) :
    server k.nul k.sched (request k.origin k.token) = .ready k.token expectedResponse [] := by
  obtain ⟨r, h1, h2⟩ := handshake_agrees k.nul k.sched k.origin k.token hk.origin hk.token hk.semicolon
    hk.short.1 hk.short.2
  have := (client_accepts_iff _ _).1 (h2 [])
  rw [response_expected, List.append_nil, List.append_nil] at this
  rw [h1, this]

theorem client_prefix (p x : List Byte) (h : p <+: expectedResponse ++ x) :
    (client p = .waiting ∧ p.length < expectedResponse.length)
      ∨ ∃ m, client p = .equal m ∧ p = expectedResponse ++ m := by
  rcases Nat.lt_or_ge p.length expectedResponse.length with hl | hl
  · exact .inl ⟨by unfold client expectEqual; rw [if_pos hl], hl⟩
  · obtain ⟨m, rfl⟩ := List.prefix_of_prefix_length_le (List.prefix_append expectedResponse x) h hl
    refine .inr ⟨m, ?_, rfl⟩
    rw [← response_expected]
    exact client_keeps_data m

/-! ## Endpoints -/

theorem unstarted (c : Link.Conf) (s : Side) (h : In.start ∉ s.ins) :
    s.out c = [] := by
  have key : ∀ (is : List (In Msg)) (st : Endpoint.St Msg), In.start ∉ is → st.started = false →
      st.inflight = none → st.reading = false → st.broken = false →
      Link.written c.op (Endpoint.exec c.conv st is).2 = [] := by
    intro is
    induction is with
    | nil => intros; rfl
    | cons i is ih =>
      intro st hn h1 h2 h3 h4
      have hn' : In.start ∉ is := fun hm => hn (by simp [hm])
      have hi : i ≠ In.start := by rintro rfl; exact hn (by simp)
      have : ∃ st', (Endpoint.step c.conv st i).1 = st' ∧ st'.started = false ∧ st'.inflight = none
          ∧ st'.reading = false ∧ st'.broken = false
          ∧ ∀ t, Link.written c.op ((Endpoint.step c.conv st i).2 ++ t) = Link.written c.op t := by
        refine ⟨_, rfl, ?_⟩
        cases i <;> simp_all [Endpoint.step, Endpoint.startSendQueue, Link.written]
      obtain ⟨st', e, g1, g2, g3, g4, g5⟩ := this
      simp only [Endpoint.exec]
      rw [g5, e]
      exact ih st' hn' g1 g2 g3 g4
  exact key s.ins {} h rfl rfl rfl rfl

theorem act_ins {c : Link.Conf} {me peer me' : Side} {x : Act} (h : Link.act c me peer x = .ok me') :
    ∃ is, me'.ins = me.ins ++ is := by
  cases x <;> simp only [Link.act, Cpp.ok.injEq] at h
  case wrote =>
    subst h
    split
    · exact ⟨[], by simp⟩
    · exact ⟨_, rfl⟩
  case arrive n =>
    split at h
    · split at h
      · cases h; exact ⟨_, rfl⟩
      · cases h
    · cases h; exact ⟨[], by simp⟩
  all_goals (subst h; exact ⟨_, rfl⟩)

theorem act_out {c : Link.Conf} {me peer me' : Side} {x : Act} (h : Link.act c me peer x = .ok me') :
    me.out c <+: me'.out c := by
  obtain ⟨is, e⟩ := act_ins h
  obtain ⟨ins, got⟩ := me
  obtain ⟨ins', got'⟩ := me'
  simp only at e
  subst e
  exact Link.out_grows c _ _ _ _

theorem act_early {c : Link.Conf} {me peer me' : Side} {x : Act} (h : Link.act c me peer x = .ok me')
    (he : early x = true) (hs : In.start ∉ me.ins) : In.start ∉ me'.ins := by
  cases x <;> simp only [early, Bool.false_eq_true] at he <;> simp only [Link.act, Cpp.ok.injEq] at h
    <;> subst h <;> simpa using hs

theorem history_append (c : Link.Conf) : ∀ (xs ys : List (Bool × Act)) (n : Net),
    Link.history c n (xs ++ ys) = (Link.history c n xs).bind fun n => Link.history c n ys
  | [], _, _ => rfl
  | x :: xs, ys, n => by
    simp only [List.cons_append, Link.history]
    cases Link.step c n x with
    | ub => rfl
    | ok m => exact history_append c xs ys m

theorem prefix_more {g s : List Byte} (h : g <+: s) (n : Nat) : g ++ (s.drop g.length).take n <+: s := by
  obtain ⟨t, rfl⟩ := h
  rw [List.drop_left' rfl]
  exact (List.prefix_append_right_inj g).2 (List.take_prefix n t)

theorem acts_append : ∀ (es fs : List Ev), acts (es ++ fs) = acts es ++ acts fs
  | [], _ => rfl
  | .act w x :: es, fs => by simp only [List.cons_append, acts, acts_append es fs]
  | .hear w n :: es, fs => by simp only [List.cons_append, acts, acts_append es fs]
  | .lose w :: es, fs => by simp only [List.cons_append, acts, acts_append es fs]

theorem news_append (l m : List Told) : news (l ++ m) = news l ++ news m := List.filter_append ..

/-! ## The invariant -/

theorem serverStream_waiting {k : Conf} {st : St} (h : serverAt k st = .waiting) : serverStream k st = [] := by
  unfold serverStream; rw [h]

/-- What holds after every history. -/
structure Inv (k : Conf) (es : List Ev) (st : St) (xs : List (Bool × Act)) : Prop where
  sGot : st.server.got <+: request k.origin k.token
  cGot : st.client.got <+: serverStream k st
  cStart : isEqual (clientAt st) = false → In.start ∉ st.client.side.ins
  sStart : isReady (serverAt k st) = false → In.start ∉ st.server.side.ins
  net : Link.talk k.link xs = .ok ⟨st.client.side, st.server.side⟩
  sub : xs.Sublist (acts es)
  calls : xs.filter isCall = (acts es).filter isCall
  sTold : news st.server.told = if isReady (serverAt k st) then [.ready k.token]
    else if st.server.failed then [.error] else []
  cTold : news st.client.told = if isEqual (clientAt st) then [.ready []]
    else if st.client.failed then [.error] else []

theorem server_at {k : Conf} (hk : Polite k) {st : St} (h : st.server.got <+: request k.origin k.token) :
    (serverAt k st = .waiting ∧ st.server.got ≠ request k.origin k.token)
      ∨ (serverAt k st = .ready k.token expectedResponse [] ∧ st.server.got = request k.origin k.token) := by
  by_cases e : st.server.got = request k.origin k.token
  · exact .inr ⟨by rw [serverAt, e]; exact request_ready k hk, e⟩
  · exact .inl ⟨request_waits k hk _ h e, e⟩

theorem stream_prefix {k : Conf} (hk : Polite k) {st : St} (h : st.server.got <+: request k.origin k.token) :
    serverStream k st <+: expectedResponse ++ st.server.side.out k.link := by
  rcases server_at hk h with ⟨h1, -⟩ | ⟨h1, -⟩
  · rw [serverStream_waiting h1]; exact List.nil_prefix
  · unfold serverStream; rw [h1]; exact List.prefix_rfl

theorem client_at {k : Conf} (hk : Polite k) {st : St} (h : st.server.got <+: request k.origin k.token)
    (hc : st.client.got <+: serverStream k st) :
    (clientAt st = .waiting ∧ st.client.got.length < expectedResponse.length)
      ∨ ∃ m, clientAt st = .equal m ∧ st.client.got = expectedResponse ++ m
        ∧ serverAt k st = .ready k.token expectedResponse [] ∧ st.server.got = request k.origin k.token
        ∧ m <+: st.server.side.out k.link := by
  have hp := hc.trans (stream_prefix hk h)
  rcases client_prefix _ _ hp with h1 | ⟨m, h1, h2⟩
  · exact .inl h1
  · refine .inr ⟨m, h1, h2, ?_⟩
    rcases server_at hk h with ⟨h3, -⟩ | ⟨h3, h4⟩
    · rw [serverStream_waiting h3, h2] at hc
      exact absurd (List.append_eq_nil_iff.1 (List.prefix_nil.1 hc)).1 (by decide +kernel)
    · rw [h2] at hp
      exact ⟨h3, h4, (List.prefix_append_right_inj _).1 hp⟩

/-- The readers begin with the first octet behind the handshake. -/
theorem rest_exact {k : Conf} (hk : Polite k) {es : List Ev} {st : St} {xs : List (Bool × Act)}
    (h : Inv k es st xs) :
    (isReady (serverAt k st) = true → serverRest k st = st.client.side.out k.link)
    ∧ (isEqual (clientAt st) = true → clientRest k st = st.server.side.out k.link) := by
  constructor
  · intro hr
    rcases server_at hk h.sGot with ⟨h1, -⟩ | ⟨h1, h2⟩
    · rw [h1] at hr; cases hr
    · unfold serverRest
      rw [h1]
      simp only [clientStream, h2, List.nil_append]
      exact List.drop_left' rfl
  · intro hr
    rcases client_at hk h.sGot h.cGot with ⟨h1, -⟩ | ⟨m, h1, h2, h3, -, h5⟩
    · rw [h1] at hr; cases hr
    · unfold clientRest serverStream
      rw [h1, h3, h2]
      simp only
      obtain ⟨t, e⟩ := h5
      rw [← e, ← List.append_assoc, List.drop_left' rfl]

theorem readMore_eq (c : Link.Conf) (me peer : Side) (n : Nat) :
    readMore c me (peer.out c) n = Link.act c me peer (.arrive n) := rfl

def stops : Act → List Told
  | .stop => [.stopped]
  | _ => []

/-- What happens at an endpoint is what happens to it in `Link`. -/
theorem actAt_eq (c : Link.Conf) (me : Peer) (peer : Side) (ready : Bool) (rest : List Byte) (x : Act)
    (hr : ready = true → rest = peer.out c) (he : ¬ (ready = false ∧ early x = false)) :
    actAt c me peer ready rest x = (Link.act c me.side peer x).map fun s =>
      { me with side := s, told := me.told ++ stops x } := by
  unfold actAt
  rw [if_neg he]
  cases x with
  | arrive n =>
    have : ready = true := by
      cases ready
      · exact absurd ⟨rfl, rfl⟩ he
      · rfl
    simp only [hr this, readMore_eq, stops, List.append_nil]
  | _ => simp only [stops, List.append_nil]

theorem news_stopped (x : Act) : news (stops x) = [] := by
  cases x <;> rfl

theorem acts_one (w : Bool) (x : Act) : acts [.act w x] = [(w, x)] := rfl

theorem not_early (w : Bool) (x : Act) (h : early x = false) : isCall (w, x) = false := by
  cases x <;> first | rfl | cases h

theorem inv_step (k : Conf) (hk : Polite k) (es : List Ev) (st : St) (xs : List (Bool × Act))
    (h : Inv k es st xs) (e : Ev) : ∃ st' ys, step k st e = .ok st' ∧ Inv k (es ++ [e]) st' (xs ++ ys) := by
  have keep : ∀ f, acts [f] = [] → Inv k (es ++ [f]) st xs := fun f hf =>
    ⟨h.sGot, h.cGot, h.cStart, h.sStart, h.net, by rw [acts_append, hf, List.append_nil]; exact h.sub,
      by rw [acts_append, hf, List.append_nil]; exact h.calls, h.sTold, h.cTold⟩
  have drop : ∀ w x, early x = false → Inv k (es ++ [.act w x]) st (xs ++ []) := fun w x hx =>
    ⟨h.sGot, h.cGot, h.cStart, h.sStart, by rw [List.append_nil]; exact h.net,
      by rw [acts_append, acts_one]; exact List.Sublist.append h.sub (List.nil_sublist _),
      by rw [acts_append, acts_one, List.filter_append, List.filter_append, h.calls, List.filter_cons,
          not_early w x hx]; rfl, h.sTold, h.cTold⟩
  cases e with
  | hear w n =>
    cases w with
    | true =>
      by_cases hc : clientAt st = .waiting ∧ st.client.failed = false
      · refine ⟨_, [], by rw [step, if_pos hc], ?_⟩
        have hk' := keep (.hear true n) rfl
        have hg := prefix_more h.cGot n
        have ht : ∀ g, g <+: serverStream k st → news (clientTells (client g))
            = if isEqual (client g) then [.ready []] else [] := by
          intro g hg
          rcases client_prefix _ _ (hg.trans (stream_prefix hk h.sGot)) with ⟨e, -⟩ | ⟨m, e, -⟩ <;> rw [e] <;> rfl
        refine ⟨h.sGot, hg, fun _ => h.cStart (by rw [hc.1]; rfl), h.sStart,
          by rw [List.append_nil]; exact h.net, by rw [List.append_nil]; exact hk'.sub,
          by rw [List.append_nil]; exact hk'.calls, h.sTold, ?_⟩
        have h2 : news st.client.told = [] := by
          have h2 := h.cTold
          rw [hc.1, hc.2] at h2
          exact h2
        simp only [news_append, h2, ht _ hg, clientAt, hc.2, List.nil_append, Bool.false_eq_true, if_false]
      · exact ⟨st, [], by rw [step, if_neg hc], by rw [List.append_nil]; exact keep _ rfl⟩
    | false =>
      by_cases hc : serverAt k st = .waiting ∧ st.server.failed = false
      · refine ⟨_, [], by rw [step, if_pos hc], ?_⟩
        have hk' := keep (.hear false n) rfl
        have hcl : isEqual (clientAt st) = false := by
          rcases client_at hk h.sGot h.cGot with ⟨e, -⟩ | ⟨m, -, -, e, -⟩
          · rw [e]; rfl
          · rw [e] at hc; cases hc.1
        have hcs : clientStream k st = request k.origin k.token := by
          unfold clientStream
          rw [unstarted k.link _ (h.cStart hcl), List.append_nil]
        have hg := prefix_more (hcs ▸ h.sGot : st.server.got <+: clientStream k st) n
        have hg' : st.server.got ++ ((clientStream k st).drop st.server.got.length).take n
            <+: request k.origin k.token := hcs ▸ hg
        have h0 : st.client.got = [] := by
          have := h.cGot
          rw [serverStream_waiting hc.1] at this
          exact List.prefix_nil.1 this
        have ht : ∀ g, g <+: request k.origin k.token → news (serverTells (server k.nul k.sched g))
            = if isReady (server k.nul k.sched g) then [.ready k.token] else [] := by
          intro g hg
          by_cases e : g = request k.origin k.token
          · rw [e, request_ready k hk]; rfl
          · rw [request_waits k hk g hg e]; rfl
        refine ⟨hg', by rw [h0]; exact List.nil_prefix, h.cStart, fun _ => h.sStart (by rw [hc.1]; rfl),
          by rw [List.append_nil]; exact h.net, by rw [List.append_nil]; exact hk'.sub,
          by rw [List.append_nil]; exact hk'.calls, ?_, h.cTold⟩
        have h2 : news st.server.told = [] := by
          have h2 := h.sTold
          rw [hc.1, hc.2] at h2
          exact h2
        simp only [news_append, h2, ht _ hg', serverAt, hc.2, List.nil_append, Bool.false_eq_true, if_false]
      · exact ⟨st, [], by rw [step, if_neg hc], by rw [List.append_nil]; exact keep _ rfl⟩
  | lose w =>
    cases w with
    | true =>
      by_cases hc : clientAt st = .waiting ∧ st.client.failed = false
      · refine ⟨_, [], by rw [step, if_pos hc], ?_⟩
        have hk' := keep (.lose true) rfl
        refine ⟨h.sGot, h.cGot, h.cStart, h.sStart,
          by rw [List.append_nil]; exact h.net, by rw [List.append_nil]; exact hk'.sub,
          by rw [List.append_nil]; exact hk'.calls, h.sTold, ?_⟩
        have h2 : news st.client.told = [] := by
          have h2 := h.cTold
          rw [hc.1, hc.2] at h2
          exact h2
        have h3 : client st.client.got = .waiting := hc.1
        simp only [news_append, h2, clientAt, h3]
        rfl
      · exact ⟨st, [], by rw [step, if_neg hc], by rw [List.append_nil]; exact keep _ rfl⟩
    | false =>
      by_cases hc : serverAt k st = .waiting ∧ st.server.failed = false
      · refine ⟨_, [], by rw [step, if_pos hc], ?_⟩
        have hk' := keep (.lose false) rfl
        refine ⟨h.sGot, h.cGot, h.cStart, h.sStart,
          by rw [List.append_nil]; exact h.net, by rw [List.append_nil]; exact hk'.sub,
          by rw [List.append_nil]; exact hk'.calls, ?_, h.cTold⟩
        have h2 : news st.server.told = [] := by
          have h2 := h.sTold
          rw [hc.1, hc.2] at h2
          exact h2
        have h3 : server k.nul k.sched st.server.got = .waiting := hc.1
        simp only [news_append, h2, serverAt, h3]
        rfl
      · exact ⟨st, [], by rw [step, if_neg hc], by rw [List.append_nil]; exact keep _ rfl⟩
  | act w x =>
    have rest := rest_exact hk h
    obtain ⟨n, en, hp, -⟩ := Link.pair_talk hk.op xs
    rw [h.net] at en
    cases en
    have more : ∀ (w : Bool) (me' : Net), Link.step k.link ⟨st.client.side, st.server.side⟩ (w, x) = .ok me' →
        Link.talk k.link (xs ++ [(w, x)]) = .ok me' := by
      intro w me' hs
      unfold Link.talk
      rw [history_append]
      have := h.net
      unfold Link.talk at this
      rw [this]
      simp only [Cpp.bind, Link.history, hs]
    have sub : ∀ w, (xs ++ [(w, x)]).Sublist (acts (es ++ [Ev.act w x])) := fun w => by
      rw [acts_append, acts_one]; exact List.Sublist.append h.sub (List.Sublist.refl _)
    have calls : ∀ w, (xs ++ [(w, x)]).filter isCall = (acts (es ++ [.act w x])).filter isCall := fun w => by
      rw [acts_append, acts_one, List.filter_append, List.filter_append, h.calls]
    cases w with
    | true =>
      by_cases he : isEqual (clientAt st) = false ∧ early x = false
      · exact ⟨st, [], by rw [step]; unfold actAt; rw [if_pos he]; rfl, drop _ _ he.2⟩
      · obtain ⟨me', e, -, -⟩ := Link.pair_act hk.op hp x
        refine ⟨_, [(true, x)], by rw [step, actAt_eq _ _ _ _ _ _ rest.2 he, e]; rfl, ?_⟩
        refine ⟨h.sGot, h.cGot, fun hq => act_early e ?_ (h.cStart hq), h.sStart,
          more true _ (by rw [Link.step, e]; rfl), sub true, calls true, h.sTold, ?_⟩
        · cases hx : early x
          · exact absurd ⟨hq, hx⟩ he
          · rfl
        · rw [news_append, news_stopped, List.append_nil]
          exact h.cTold
    | false =>
      by_cases he : isReady (serverAt k st) = false ∧ early x = false
      · exact ⟨st, [], by rw [step]; unfold actAt; rw [if_pos he]; rfl, drop _ _ he.2⟩
      · obtain ⟨me', e, -, -⟩ := Link.pair_act hk.op hp.symm x
        refine ⟨_, [(false, x)], by rw [step, actAt_eq _ _ _ _ _ _ rest.1 he, e]; rfl, ?_⟩
        refine ⟨h.sGot, ?_, h.cStart, fun hq => act_early e ?_ (h.sStart hq),
          more false _ (by rw [Link.step, e]; rfl), sub false, calls false, ?_, h.cTold⟩
        · refine h.cGot.trans ?_
          rcases server_at hk h.sGot with ⟨h1, -⟩ | ⟨h1, -⟩
          · rw [serverStream_waiting h1]; exact List.nil_prefix
          · have h1' : server k.nul k.sched st.server.got = .ready k.token expectedResponse [] := h1
            simp only [serverStream, serverAt, h1']
            exact (List.prefix_append_right_inj _).2 (act_out e)
        · cases hx : early x
          · exact absurd ⟨hq, hx⟩ he
          · rfl
        · rw [news_append, news_stopped, List.append_nil]
          exact h.sTold

theorem run_append (k : Conf) : ∀ (es fs : List Ev) (st : St),
    run k st (es ++ fs) = (run k st es).bind fun st => run k st fs
  | [], _, _ => rfl
  | e :: es, fs, st => by
    simp only [List.cons_append, run]
    cases step k st e with
    | ub => rfl
    | ok m => exact run_append k es fs m

theorem actAt_failed {c : Link.Conf} {me me' : Peer} {peer : Side} {ready : Bool} {rest : List Byte} {x : Act}
    (h : actAt c me peer ready rest x = .ok me') : me'.failed = me.failed := by
  have key : ∀ (y : Cpp Side) (f : Side → Peer), (∀ s, (f s).failed = me.failed) → y.map f = .ok me' →
      me'.failed = me.failed := by
    intro y f hf hy
    cases y with
    | ub => cases hy
    | ok s => cases hy; exact hf s
  unfold actAt at h
  split at h
  · cases h; rfl
  · split at h <;> refine key _ _ ?_ h <;> exact fun _ => rfl

theorem run_failed (k : Conf) : ∀ (es : List Ev) (st st' : St), run k st es = .ok st' →
    (∀ w, Ev.lose w ∉ es) → st'.client.failed = st.client.failed ∧ st'.server.failed = st.server.failed
  | [], _, _, h, _ => by cases h; exact ⟨rfl, rfl⟩
  | e :: es, st, st', h, hl => by
    rw [run] at h
    cases hs : step k st e with
    | ub => rw [hs] at h; cases h
    | ok st1 =>
      rw [hs] at h
      have ih := run_failed k es st1 st' h (fun w hm => hl w (by simp [hm]))
      have h1 : st1.client.failed = st.client.failed ∧ st1.server.failed = st.server.failed := by
        cases e with
        | hear w n =>
          cases w <;> rw [step] at hs <;> split at hs <;> cases hs <;> exact ⟨rfl, rfl⟩
        | lose w => exact absurd (List.mem_cons_self ..) (hl w)
        | act w x =>
          cases w with
          | true =>
            rw [step] at hs
            cases ha : actAt k.link st.client st.server.side (isEqual (clientAt st)) (clientRest k st) x with
            | ub => rw [ha] at hs; cases hs
            | ok p => rw [ha] at hs; cases hs; exact ⟨actAt_failed ha, rfl⟩
          | false =>
            rw [step] at hs
            cases ha : actAt k.link st.server st.client.side (isReady (serverAt k st)) (serverRest k st) x with
            | ub => rw [ha] at hs; cases hs
            | ok p => rw [ha] at hs; cases hs; exact ⟨rfl, actAt_failed ha⟩
      exact ⟨ih.1.trans h1.1, ih.2.trans h1.2⟩

theorem inv_run (k : Conf) (hk : Polite k) (es : List Ev) :
    ∃ st xs, session k es = .ok st ∧ Inv k es st xs := by
  induction hr : es.reverse generalizing es with
  | nil =>
    have : es = [] := by simpa using hr
    subst this
    have hw := request_waits k hk [] List.nil_prefix (by rw [request_eq]; simp [ascii])
    refine ⟨{}, [], rfl, List.nil_prefix, List.nil_prefix, by simp, by simp, rfl, List.Sublist.refl _, rfl, ?_, ?_⟩
    · simp only [serverAt, hw]; rfl
    · have hc : clientAt {} = .waiting := by decide +kernel
      rw [hc]; rfl
  | cons f r ih =>
    have hes : es = r.reverse ++ [f] := by rw [← List.reverse_reverse es, hr]; simp
    subst hes
    obtain ⟨st, xs, e, hi⟩ := ih r.reverse (by simp)
    obtain ⟨st', ys, e', hi'⟩ := inv_step k hk _ st xs hi f
    refine ⟨st', xs ++ ys, ?_, hi'⟩
    unfold session at e ⊢
    rw [run_append, e]
    simp only [Cpp.bind, run, e']

/-! ## What was sent -/

/-- The messages among the inputs of an endpoint. -/
def sendsIn : List (In Msg) → List Msg
  | [] => []
  | .send m :: is => m :: sendsIn is
  | _ :: is => sendsIn is

theorem sendsIn_append : ∀ is js : List (In Msg), sendsIn (is ++ js) = sendsIn is ++ sendsIn js
  | [], _ => rfl
  | i :: is, js => by
    cases i <;> simp only [List.cons_append, sendsIn, sendsIn_append is js]

theorem sends_filter (w : Bool) : ∀ xs : List (Bool × Act), sends w (xs.filter isCall) = sends w xs
  | [] => rfl
  | (v, x) :: xs => by
    cases x <;> simp [List.filter_cons, isCall, sends, sends_filter w xs]

theorem reports_reads {hw : Bool} {g : List Byte} {r : List (In Msg)} (h : Link.reports hw g = some r) :
    ∀ i ∈ r, ∀ m, i ≠ In.send m := by
  have ev : ∀ (es : List Ws.Event), ∀ i ∈ es.map Link.eventIn, ∀ m, i ≠ In.send m := by
    intro es i hi m e
    obtain ⟨v, -, hv⟩ := List.mem_map.1 hi
    subst hv
    cases v <;> cases e
  unfold Link.reports at h
  split at h
  · cases h; exact ev _
  · cases h
    intro i hi m
    rcases List.mem_append.1 hi with hi | hi
    · exact ev _ i hi m
    · rw [List.mem_singleton.1 hi]; intro e; cases e
  · cases h
    intro i hi m
    rcases List.mem_append.1 hi with hi | hi
    · exact ev _ i hi m
    · rw [List.mem_singleton.1 hi]; intro e; cases e
  · cases h

theorem sendsIn_none : ∀ is : List (In Msg), (∀ i ∈ is, ∀ m, i ≠ In.send m) → sendsIn is = []
  | [], _ => rfl
  | i :: is, h => by
    have ih := sendsIn_none is (fun j hj => h j (by simp [hj]))
    cases i <;> first | exact ih | exact absurd rfl (h _ (List.mem_cons_self ..) _)

theorem act_sends {c : Link.Conf} {me peer me' : Side} {x : Act} (h : Link.act c me peer x = .ok me') (w : Bool) :
    sendsIn me'.ins = sendsIn me.ins ++ sends w [(w, x)] := by
  cases x <;> simp only [Link.act, Cpp.ok.injEq] at h
  case wrote => subst h; split <;> simp [sendsIn_append, sendsIn, sends]
  case arrive n =>
    split at h
    · split at h
      · rename_i hr
        cases h
        rw [sendsIn_append, sendsIn_none _ (fun i hi => reports_reads hr i (List.mem_of_mem_drop hi))]
        rfl
      · cases h
    · cases h; simp [sends]
  all_goals (subst h; simp [sendsIn_append, sendsIn, sends])

theorem sends_append (w : Bool) : ∀ xs ys : List (Bool × Act), sends w (xs ++ ys) = sends w xs ++ sends w ys
  | [], _ => rfl
  | (v, x) :: xs, ys => by
    cases x <;> simp only [List.cons_append, sends, sends_append w xs ys]
    split <;> rfl

theorem sends_other {v w : Bool} (h : v ≠ w) (x : Act) : sends w [(v, x)] = [] := by
  cases x <;> simp [sends, h]

theorem history_sends (c : Link.Conf) : ∀ (xs : List (Bool × Act)) (n n' : Net), Link.history c n xs = .ok n' →
    sendsIn n'.a.ins = sendsIn n.a.ins ++ sends true xs ∧ sendsIn n'.b.ins = sendsIn n.b.ins ++ sends false xs
  | [], n, n', h => by cases h; simp [sends]
  | (w, x) :: xs, n, n', h => by
    rw [Link.history] at h
    cases hs : Link.step c n (w, x) with
    | ub => rw [hs] at h; cases h
    | ok m =>
      rw [hs] at h
      have ih := history_sends c xs m n' h
      have e : ∀ v, sends v ((w, x) :: xs) = sends v [(w, x)] ++ sends v xs := fun v => sends_append v [(w, x)] xs
      rw [e, e, ih.1, ih.2]
      cases w with
      | true =>
        rw [Link.step] at hs
        cases ha : Link.act c n.a n.b x with
        | ub => rw [ha] at hs; cases hs
        | ok a =>
          rw [ha] at hs
          cases hs
          rw [act_sends ha true, sends_other (v := true) (w := false) (by decide) x]
          simp
      | false =>
        rw [Link.step] at hs
        cases ha : Link.act c n.b n.a x with
        | ub => rw [ha] at hs; cases hs
        | ok b =>
          rw [ha] at hs
          cases hs
          rw [act_sends ha false, sends_other (v := false) (w := true) (by decide) x]
          simp

theorem accepted_append : ∀ t u : List (Obs Msg),
    Endpoint.Spec.accepted (t ++ u) = Endpoint.Spec.accepted t ++ Endpoint.Spec.accepted u
  | [], _ => rfl
  | o :: t, u => by
    cases o <;> simp only [List.cons_append, Endpoint.Spec.accepted, accepted_append t u]

theorem queue_accepts (s : Endpoint.St Msg) : Endpoint.Spec.accepted (Endpoint.startSendQueue s).2 = [] := by
  unfold Endpoint.startSendQueue Endpoint.loop Endpoint.St.write
  split
  · rfl
  · split
    · rfl
    · split <;> rfl

theorem handler_accepts (s : Endpoint.St Msg) (n : Note Msg) : Endpoint.Spec.accepted (Endpoint.callHandler s n) = [] := by
  unfold Endpoint.callHandler; split <;> rfl

theorem step_accepts (conv : Bool) (s : Endpoint.St Msg) (hb : s.broken = false) (i : In Msg) :
    Endpoint.Spec.accepted (Endpoint.step conv s i).2 = sendsIn [i] := by
  unfold Endpoint.step
  rw [if_neg (by simp [hb])]
  cases i with
  | send m => simp only [Endpoint.Spec.accepted, queue_accepts, sendsIn]
  | close => simp only [Endpoint.Spec.accepted, queue_accepts, sendsIn]
  | start =>
    simp only [sendsIn]
    split
    · split
      · exact queue_accepts _
      · rfl
    · rfl
  | stop => rfl
  | wrote =>
    simp only [sendsIn]
    split
    · rename_i f _
      cases f with
      | data m =>
        simp only [Endpoint.onWrote, Endpoint.Spec.accepted, Endpoint.loop, Endpoint.St.write]
        split
        · rfl
        · split <;> rfl
      | close =>
        simp only [Endpoint.onWrote, Endpoint.Spec.accepted]
        split
        · exact handler_accepts _ _
        · rfl
      | pong => rfl
    · rfl
  | writeFailed e =>
    simp only [sendsIn]
    split
    · rename_i f _
      cases f with
      | data m => simp only [Endpoint.onWriteFailed, Endpoint.Spec.accepted, handler_accepts]
      | close => rfl
      | pong => rfl
    · rfl
  | readClose =>
    simp only [sendsIn]
    split
    · simp only [Endpoint.onRead, Endpoint.Spec.accepted]
      split
      · exact handler_accepts _ _
      · exact queue_accepts _
    · rfl
  | _ =>
    simp only [sendsIn]
    split
    · simp only [Endpoint.onRead, Endpoint.Spec.accepted, handler_accepts]
    · rfl

/-- As long as no write fails, an endpoint accepts all messages. -/
theorem sent_all (c : Link.Conf) (s : Side) (h : Link.NoFail s) : Link.sentBy c s = sendsIn s.ins := by
  have := Link.exec_induct c.conv (fun ins st t => (∀ e, In.writeFailed e ∉ ins) →
    Endpoint.Spec.accepted t = sendsIn ins ∧ st.broken = false) (by intro; exact ⟨rfl, rfl⟩) ?_ s.ins h
  · exact this.1
  · intro ins st t i hsh ih hn
    obtain ⟨h1, h2⟩ := ih (fun e he => hn e (by simp [he]))
    obtain ⟨-, -, f3⟩ := (Link.step_facts c.conv st hsh.sinv i).sound (by rintro e rfl; exact hn e (by simp))
    refine ⟨?_, by rw [f3, h2]⟩
    rw [accepted_append, sendsIn_append, h1, step_accepts c.conv st h2 i]

end Nbdl.Session
