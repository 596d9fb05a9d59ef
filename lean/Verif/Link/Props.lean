import Verif.Link.Settle

/-!
# Two connected endpoints (C109–C111)
-/

namespace Nbdl.Link
open Nbdl.Endpoint (St In Obs Frame Err Note)
open Nbdl.Ws (opText opBinary glue)

/-! ## C109 messages -/

/-- C109: two connected endpoints do not run into undefined behaviour by what the other side sends, and
neither user is ever told that the other side sent nonsense — in any history of calls, write
completions, write failures, lost connections and arrivals, in any fragments. -/
theorem conversation_sane (c : Conf) (hop : c.op = opText ∨ c.op = opBinary) (xs : List (Bool × Act)) :
    ∃ n, talk c xs = .ok n ∧ .note .badRequest ∉ n.a.seen c ∧ .note .badRequest ∉ n.b.seen c
      ∧ (Sound xs → .ub ∉ n.a.seen c ∧ .ub ∉ n.b.seen c) := by
  obtain ⟨n, e, hp, hf⟩ := pair_talk hop xs
  exact ⟨n, e, hp.mine.bad, hp.yours.bad,
    fun h => ⟨(noFail c _ (hf h).1).1, (noFail c _ (hf h).2).1⟩⟩

/-- What a user was handed is a beginning of what the messages of the other user look like at a reader,
and all of it in time. -/
theorem handed_glued {c : Conf} (hop : c.op = opText ∨ c.op = opBinary) {me peer : Side}
    (h : Pair c me peer) : handedTo c me <+: glue 125 [] (sentBy c peer) := by
  obtain ⟨cl, hout, -, -⟩ := out_wire c peer
  have hd := glue_prefix 125 _ _ [] (shape c peer).data
  have hm : msgs me.ins <+: glue 125 [] (dataOf (begun (peer.seen c))) := by
    have := reports_wire c hop _ cl me.got (hout ▸ h.mine.got)
    rw [h.mine.rep] at this
    rw [← msgs_filter]
    rcases this with ⟨gs, hg, he⟩ | ⟨-, he⟩
    · rw [Option.some.inj he]
      have := msgs_feed gs false
      simp only [feed, if_neg (show ¬ (false = true) by simp), List.append_nil] at this
      rw [this]; exact hg
    · rw [Option.some.inj he]
      have := msgs_feed (glue 125 [] (dataOf (begun (peer.seen c)))) true
      simp only [feed, if_true] at this
      rw [this]
      exact List.prefix_refl _
  exact h.mine.told.trans (hm.trans hd)

/-- C109: whatever happens, a user is handed a beginning of what the other user sent, in that order,
each message once and unchanged. -/
theorem conversation_in_order_partial (c : Conf) (hop : c.op = opText ∨ c.op = opBinary)
    (xs : List (Bool × Act)) (n : Net) (h : talk c xs = .ok n) :
    ((∀ m ∈ sentBy c n.a, Fits m) → handedTo c n.b <+: sentBy c n.a)
    ∧ ((∀ m ∈ sentBy c n.b, Fits m) → handedTo c n.a <+: sentBy c n.b) := by
  obtain ⟨n', e, hp, -⟩ := pair_talk hop xs
  rw [h] at e
  cases e
  refine ⟨fun hf => ?_, fun hf => ?_⟩
  · have := handed_glued hop hp.symm
    rwa [glue_fits _ hf] at this
  · have := handed_glued hop hp
    rwa [glue_fits _ hf] at this

/-- The reader of `me` got everything: its user was handed everything that was written. -/
theorem handed_all {c : Conf} (hop : c.op = opText ∨ c.op = opBinary) {me peer : Side}
    (h : Pair c me peer) (hf : NoFail me) (hs : In.stop ∉ me.ins) (ha : Arrived c peer me) :
    handedTo c me = glue 125 [] (dataOf (begun (peer.seen c)))
    ∧ (dead (peer.seen c) = false → .begin .close ∈ peer.seen c → In.readClose ∈ me.ins) := by
  obtain ⟨cl, hout, -, hcl⟩ := out_wire c peer
  have hr := h.mine.rep
  rw [show me.got = peer.out c from ha, hout, reports_all c hop] at hr
  have hr := Option.some.inj hr
  refine ⟨?_, fun h1 h2 => ?_⟩
  · rw [h.mine.all (notStopped c me hs) (noFail c me hf).2.2, ← msgs_filter, ← hr]
    exact msgs_feed _ _
  · have hc := hcl h1 h2
    subst hc
    have : In.readClose ∈ me.ins.filter isRead := by rw [← hr]; simp
    exact (List.mem_filter.1 this).1

theorem delivered_exact {c : Conf} (hop : c.op = opText ∨ c.op = opBinary) {me peer : Side}
    (hp : Pair c me peer) (fm : NoFail me) (fp : NoFail peer) (hstart : In.start ∈ me.ins)
    (hstop : In.stop ∉ me.ins ∧ In.stop ∉ peer.ins) (hclose : In.close ∉ me.ins ∧ In.close ∉ peer.ins)
    (hi : Idle c me) (ha : Arrived c me peer) :
    handedTo c peer = glue 125 [] (sentBy c me) := by
  have S := shape c me
  obtain ⟨-, hd, hb⟩ := noFail c _ fm
  have hcalm := (hp.calm hclose.1 hclose.2).1.1
  rw [(handed_all hop hp.symm fp hstop.2 ha).1, S.flow hd]
  have hin : (me.state c).inflight = none := by rw [← S.inv.cur]; exact hi
  rw [hin, Option.toList, List.append_nil, dataOf_wrote]
  have hq : (me.state c).queue = [] := by
    apply Classical.byContradiction
    intro hq
    obtain ⟨is, js, he⟩ := List.append_of_mem hstart
    have hst := notStopped c me hstop.1
    have hcl := hclose.1
    simp only [Side.state, Side.seen, NoFail, Idle] at hq hst hcalm fm hi S
    rw [he] at hq hst hcalm fm hcl hi S
    rcases Endpoint.no_stall_partial c.conv is js (fun hm => hcl (by simp [hm])) fm hst (.inl hq) with h | h
    · exact h hi
    · exact hcalm (S.inv.pend h)
  have := S.inv.fifo
  rw [hq, List.append_nil] at this
  rw [← this, sentBy]

theorem delivered_pair {c : Conf} (hop : c.op = opText ∨ c.op = opBinary) {me peer : Side}
    (hp : Pair c me peer) (fm : NoFail me) (fp : NoFail peer) (hstart : In.start ∈ me.ins)
    (hstop : In.stop ∉ me.ins ∧ In.stop ∉ peer.ins) (hclose : In.close ∉ me.ins ∧ In.close ∉ peer.ins)
    (hi : Idle c me) (ha : Arrived c me peer) (hfit : ∀ m ∈ sentBy c me, Fits m) :
    handedTo c peer = sentBy c me := by
  rw [delivered_exact hop hp fm fp hstart hstop hclose hi ha]
  exact glue_fits _ hfit

/-- C109: as long as nobody closes, an endpoint that was started and not stopped gets everything to the
other side: when it is not writing any more and everything has arrived, the other user was handed all
the messages, in order, each once and unchanged. -/
theorem conversation_delivered_partial (c : Conf) (hop : c.op = opText ∨ c.op = opBinary)
    (xs : List (Bool × Act)) (n : Net) (h : talk c xs = .ok n) (hs : Sound xs)
    (hstart : In.start ∈ n.a.ins) (hstop : In.stop ∉ n.a.ins ∧ In.stop ∉ n.b.ins)
    (hclose : In.close ∉ n.a.ins ∧ In.close ∉ n.b.ins) (hi : Idle c n.a) (ha : Arrived c n.a n.b)
    (hfit : ∀ m ∈ sentBy c n.a, Fits m) :
    handedTo c n.b = sentBy c n.a := by
  obtain ⟨n', e, hp, hf⟩ := pair_talk hop xs
  rw [h] at e
  cases e
  exact delivered_pair hop hp (hf hs).1 (hf hs).2 hstart hstop hclose hi ha hfit

/-- Text messages. -/
def cf : Conf := ⟨opText, false, false⟩

/-- Check of a concrete history. -/
def check (r : Cpp Net) (p : Net → Bool) : Bool := match r with | .ok n => p n | .ub => false

/-- Two messages one way and one back, in small fragments. -/
def chat : List (Bool × Act) :=
  [(true, .send [7#8]), (true, .start), (false, .start), (true, .send [8#8, 9#8]), (false, .arrive 1),
   (true, .wrote), (false, .send [5#8]), (false, .arrive 3), (true, .arrive 2), (false, .wrote),
   (true, .wrote), (false, .arrive 50), (true, .arrive 50)]

example : check (talk cf chat) (fun n =>
    sentBy cf n.a == [[7#8], [8#8, 9#8]] && handedTo cf n.b == [[7#8], [8#8, 9#8]]
    && handedTo cf n.a == [[5#8]] && n.b.got == n.a.out cf && n.a.got == n.b.out cf
    && (Endpoint.Spec.inFlight none (n.a.seen cf)).isNone
    && (Endpoint.Spec.inFlight none (n.b.seen cf)).isNone) = true := by decide +kernel

example : Sound chat ∧ Connected chat := by
  constructor <;> intro w e h <;> simp [chat] at h

/-- In the middle of it, one message and a part of the other have arrived. -/
example : check (talk cf (chat.take 8)) (fun n =>
    handedTo cf n.b == [[7#8]] && n.b.got.length == 4) = true := by decide +kernel

/-- C109 does not hold of messages of certain lengths: one of 125 bytes, though written and arrived
completely, is not handed to the other user. -/
theorem conversation_lost_violated : ∃ xs n, talk cf xs = .ok n ∧ Sound xs ∧ Idle cf n.a
    ∧ Arrived cf n.a n.b ∧ sentBy cf n.a = [List.replicate 125 0#8] ∧ handedTo cf n.b = [] := by
  have h : check (talk cf [(true, .start), (false, .start), (true, .send (List.replicate 125 0#8)),
      (true, .wrote), (false, .arrive 200)]) (fun n =>
      (Endpoint.Spec.inFlight none (n.a.seen cf)).isNone && n.b.got == n.a.out cf
      && sentBy cf n.a == [List.replicate 125 0#8] && handedTo cf n.b == []) = true := by decide +kernel
  unfold check at h
  split at h
  · rename_i n e
    simp only [Bool.and_eq_true, beq_iff_eq, Option.isNone_iff_eq_none] at h
    exact ⟨_, n, e, by intro w e h; simp at h, h.1.1.1, h.1.1.2, h.1.2, h.2⟩
  · cases h

/-! ## C110 closing -/

/-- A used endpoint which has to close has written its close frame when it does not write any more. -/
theorem close_written {c : Conf} {s : Side} (hu : Used s) (hf : NoFail s) (hi : Idle c s)
    (hp : (s.state c).pending = .close) : .begin .close ∈ s.seen c := by
  obtain ⟨is, js, he, hc, hstop⟩ := hu
  have hst := notStopped c s hstop
  simp only [Side.state, Side.seen, NoFail, Idle] at hst hf hi hp ⊢
  rw [he] at hst hf hi hp ⊢
  exact (Endpoint.no_stall_partial c.conv is js hc hf hst (.inr hp)).resolve_left (fun h => h hi)

theorem close_noted {c : Conf} {me peer : Side} (h : Pair c me peer) (hu : Used me) (hf : NoFail me)
    (hi : Idle c me) (hr : In.readClose ∈ me.ins) : .note .close ∈ me.seen c := by
  have S := shape c me
  obtain ⟨-, hd, hb⟩ := noFail c _ hf
  have hcr := h.mine.recv hb hr
  have hst := notStopped c me (by obtain ⟨_, _, _, _, hs⟩ := hu; exact hs)
  have hin : (me.state c).inflight = none := by rw [← S.inv.cur]; exact hi
  rcases S.told hd hcr hst with h | h | h
  · exact h
  · rw [hin] at h; cases h
  · exact absurd (close_written hu hf hi (S.recv hcr)) h

/-- C110: if one of two used endpoints is closed, then both users are told of the close, once neither
side is writing any more and everything has arrived. -/
theorem both_closed_partial (c : Conf) (hop : c.op = opText ∨ c.op = opBinary)
    (xs : List (Bool × Act)) (n : Net) (h : talk c xs = .ok n) (hs : Sound xs)
    (hu : Used n.a ∧ Used n.b) (hclose : In.close ∈ n.a.ins ∨ In.close ∈ n.b.ins)
    (hi : Idle c n.a ∧ Idle c n.b) (ha : Arrived c n.a n.b ∧ Arrived c n.b n.a) :
    .note .close ∈ n.a.seen c ∧ .note .close ∈ n.b.seen c := by
  obtain ⟨n', e, hp, hf⟩ := pair_talk hop xs
  rw [h] at e
  cases e
  have key : ∀ {x y : Side}, Pair c x y → Used x → Used y → NoFail x → NoFail y → Idle c x → Idle c y →
      Arrived c x y → Arrived c y x → In.close ∈ x.ins → .note .close ∈ x.seen c ∧ .note .close ∈ y.seen c := by
    intro x y hp ux uy fx fy ix iy axy ayx hc
    have bx := close_written ux fx ix (askedClose c x hc (noFail c x fx).2.2)
    have ry := (handed_all hop hp.symm fy (by obtain ⟨_, _, _, _, hs⟩ := uy; exact hs) axy).2
      (noFail c x fx).2.1 bx
    have by' := close_written uy fy iy ((shape c y).recv (hp.yours.recv (noFail c y fy).2.2 ry))
    have rx := (handed_all hop hp fx (by obtain ⟨_, _, _, _, hs⟩ := ux; exact hs) ayx).2
      (noFail c y fy).2.1 by'
    exact ⟨close_noted hp ux fx ix rx, close_noted hp.symm uy fy iy ry⟩
  rcases hclose with hc | hc
  · exact key hp hu.1 hu.2 (hf hs).1 (hf hs).2 hi.1 hi.2 ha.1 ha.2 hc
  · exact (key hp.symm hu.2 hu.1 (hf hs).2 (hf hs).1 hi.2 hi.1 ha.2 ha.1 hc).symm

/-- C110: in any history, nobody is told of a close if neither user asked for one. -/
theorem no_close_unasked (c : Conf) (hop : c.op = opText ∨ c.op = opBinary)
    (xs : List (Bool × Act)) (n : Net) (h : talk c xs = .ok n)
    (hm : .note .close ∈ n.a.seen c ∨ .note .close ∈ n.b.seen c) :
    In.close ∈ n.a.ins ∨ In.close ∈ n.b.ins := by
  obtain ⟨n', e, hp, -⟩ := pair_talk hop xs
  rw [h] at e
  cases e
  apply Classical.byContradiction
  intro hn
  have := hp.calm (fun h => hn (.inl h)) (fun h => hn (.inr h))
  rcases hm with hm | hm
  · exact this.1.2 hm
  · exact this.2.2 hm

/-- One message, then a close. -/
def bye : List (Bool × Act) :=
  [(true, .start), (false, .start), (true, .send [1#8]), (true, .close), (true, .wrote), (true, .wrote),
   (false, .arrive 100), (false, .wrote), (true, .arrive 100)]

example : check (talk cf bye) (fun n =>
    (n.a.seen cf).any (fun | .note .close => true | _ => false)
    && (n.b.seen cf).any (fun | .note .close => true | _ => false) && handedTo cf n.b == [[1#8]]
    && n.b.got == n.a.out cf && n.a.got == n.b.out cf
    && (Endpoint.Spec.inFlight none (n.a.seen cf)).isNone
    && (Endpoint.Spec.inFlight none (n.b.seen cf)).isNone) = true := by decide +kernel

/-- A side that does not read gets nothing. -/
theorem settled_of {n : Net} {c : Conf} (ia : Idle c n.a) (ib : Idle c n.b)
    (ra : (n.a.state c).reading = false) (rb : (n.b.state c).reading = false) : Settled c n := by
  rintro ⟨w, x⟩ hm
  cases x with
  | wrote => cases w <;> exact hm (by assumption)
  | arrive k =>
    cases w
    · exact hm (by simp [step, act, rb, Cpp.map, Cpp.bind])
    · exact hm (by simp [step, act, ra, Cpp.map, Cpp.bind])
  | _ => cases w <;> exact hm.elim

/-- A user who closes loses what is still queued: of the messages that were sent before `send_close`,
only the one whose write had begun reaches the other user, though nothing fails and both are told that
the connection was closed. -/
theorem close_overtakes_violated : ∃ xs n, talk cf xs = .ok n ∧ Sound xs ∧ Connected xs
    ∧ Used n.a ∧ Used n.b ∧ Settled cf n
    ∧ n.a.ins = [.start, .send [1#8], .send [2#8], .close, .wrote, .wrote, .readClose]
    ∧ .note .close ∈ n.a.seen cf ∧ .note .close ∈ n.b.seen cf
    ∧ sentBy cf n.a = [[1#8], [2#8]] ∧ handedTo cf n.b = [[1#8]] := by
  have h : check (talk cf [(true, .start), (false, .start), (true, .send [1#8]), (true, .send [2#8]),
      (true, .close), (true, .wrote), (true, .wrote), (false, .arrive 100), (false, .wrote),
      (true, .arrive 100)]) (fun n =>
      (Endpoint.Spec.inFlight none (n.a.seen cf)).isNone
      && (Endpoint.Spec.inFlight none (n.b.seen cf)).isNone
      && !(n.a.state cf).reading && !(n.b.state cf).reading
      && decide (n.a.ins = [.start, .send [1#8], .send [2#8], .close, .wrote, .wrote, .readClose])
      && decide (n.b.ins = [.start, .readMessage [1#8], .readClose, .wrote])
      && (n.a.seen cf).any (fun | .note .close => true | _ => false)
      && (n.b.seen cf).any (fun | .note .close => true | _ => false)
      && sentBy cf n.a == [[1#8], [2#8]] && handedTo cf n.b == [[1#8]]) = true := by decide +kernel
  unfold check at h
  have key : ∀ l : List (Obs Msg), (l.any fun | .note .close => true | _ => false) = true →
      .note .close ∈ l := by
    intro l h
    obtain ⟨o, ho, h⟩ := List.any_eq_true.1 h
    split at h
    · exact ho
    · cases h
  split at h
  · rename_i n e
    simp only [Bool.and_eq_true, beq_iff_eq, Option.isNone_iff_eq_none, Bool.not_eq_true',
      decide_eq_true_eq] at h
    obtain ⟨⟨⟨⟨⟨⟨⟨⟨⟨h1, h2⟩, h3⟩, h4⟩, h5⟩, h6⟩, h7⟩, h8⟩, h9⟩, h10⟩ := h
    refine ⟨_, n, e, by intro w e h; simp at h, by intro w e h; simp at h, ⟨[], _, h5, by simp, by simp [h5]⟩,
      ⟨[], _, h6, by simp, by simp [h6]⟩, settled_of h1 h2 h3 h4, h5, key _ h7, key _ h8, h9, h10⟩
  · cases h

/-! ## C111 when the users do nothing -/

/-- C111: when the users call nothing more, the network has only finitely many things left to do. -/
theorem conversation_settles (c : Conf) (hop : c.op = opText ∨ c.op = opBinary)
    (xs : List (Bool × Act)) (n : Net) (h : talk c xs = .ok n) (hs : Sound xs) :
    (∃ bound, ∀ ys, Busy c n ys → ys.length ≤ bound)
    ∧ ∃ ys n', Busy c n ys ∧ talk c (xs ++ ys) = .ok n' ∧ Settled c n' := by
  obtain ⟨n', e, hp, hf⟩ := pair_talk hop xs
  rw [h] at e
  cases e
  have hb := fun ys => busy_bound hop ys n hp (hf hs).1 (hf hs).2
  refine ⟨⟨_, hb⟩, ?_⟩
  obtain ⟨ys, n', hy, he, hset⟩ := can_settle hop _ n hp (hf hs).1 (hf hs).2 hb
  refine ⟨ys, n', hy, ?_, hset⟩
  rw [talk, history_append]
  change (talk c xs).bind _ = _
  rw [h]; exact he

/-- C111: and when nothing is left to do between two used endpoints whose connection holds, then
everything was delivered if nobody closed (a message whose length is a positive multiple of 125 glued
to the next one), and both users know of the close if somebody did. -/
theorem settled_outcome_exact (c : Conf) (hop : c.op = opText ∨ c.op = opBinary)
    (xs : List (Bool × Act)) (n : Net) (h : talk c xs = .ok n) (hs : Sound xs) (hc : Connected xs)
    (hu : Used n.a ∧ Used n.b) (hset : Settled c n) :
    (In.close ∉ n.a.ins ∧ In.close ∉ n.b.ins →
      handedTo c n.b = glue 125 [] (sentBy c n.a) ∧ handedTo c n.a = glue 125 [] (sentBy c n.b))
    ∧ (In.close ∈ n.a.ins ∨ In.close ∈ n.b.ins →
      .note .close ∈ n.a.seen c ∧ .note .close ∈ n.b.seen c) := by
  obtain ⟨n', e, hp, hf⟩ := pair_talk hop xs
  rw [h] at e
  cases e
  obtain ⟨fa, fb⟩ := hf hs
  obtain ⟨la, lb⟩ := connected_ins hop xs n h hc
  have ia : Idle c n.a := Classical.byContradiction fun hi => hset (true, .wrote) hi
  have ib : Idle c n.b := Classical.byContradiction fun hi => hset (false, .wrote) hi
  have arr : ∀ {s : Side}, Used s → In.start ∈ s.ins ∧ In.stop ∉ s.ins := by
    rintro s ⟨is, js, he, -, hst⟩
    exact ⟨by simp [he], hst⟩
  have aba : Arrived c n.b n.a := by
    refine settled_arrived hop hp (arr hu.1).1 (arr hu.1).2 fa la (fun k => ?_)
    apply Classical.byContradiction
    intro hm
    obtain ⟨me, e, -, -⟩ := pair_act hop hp (.arrive k)
    refine hset (true, .arrive k) (fun hst => hm ?_)
    simp only [step, e, Cpp.map, Cpp.bind, Cpp.ok.injEq] at hst
    rw [e, ← hst]
  have aab : Arrived c n.a n.b := by
    refine settled_arrived hop hp.symm (arr hu.2).1 (arr hu.2).2 fb lb (fun k => ?_)
    apply Classical.byContradiction
    intro hm
    obtain ⟨me, e, -, -⟩ := pair_act hop hp.symm (.arrive k)
    refine hset (false, .arrive k) (fun hst => hm ?_)
    simp only [step, e, Cpp.map, Cpp.bind, Cpp.ok.injEq] at hst
    rw [e, ← hst]
  refine ⟨fun hcl => ⟨?_, ?_⟩, fun hcl => ?_⟩
  · exact delivered_exact hop hp fa fb (arr hu.1).1 ⟨(arr hu.1).2, (arr hu.2).2⟩ hcl ia aab
  · exact delivered_exact hop hp.symm fb fa (arr hu.2).1 ⟨(arr hu.2).2, (arr hu.1).2⟩ hcl.symm ib aba
  · exact both_closed_partial c hop xs n h hs hu hcl ⟨ia, ib⟩ ⟨aab, aba⟩

/-- C111, for messages of the other lengths: each is handed over unchanged. -/
theorem settled_outcome_partial (c : Conf) (hop : c.op = opText ∨ c.op = opBinary)
    (xs : List (Bool × Act)) (n : Net) (h : talk c xs = .ok n) (hs : Sound xs) (hc : Connected xs)
    (hu : Used n.a ∧ Used n.b) (hset : Settled c n) :
    (In.close ∉ n.a.ins ∧ In.close ∉ n.b.ins →
      ((∀ m ∈ sentBy c n.a, Fits m) → handedTo c n.b = sentBy c n.a)
      ∧ ((∀ m ∈ sentBy c n.b, Fits m) → handedTo c n.a = sentBy c n.b))
    ∧ (In.close ∈ n.a.ins ∨ In.close ∈ n.b.ins →
      .note .close ∈ n.a.seen c ∧ .note .close ∈ n.b.seen c) := by
  obtain ⟨h1, h2⟩ := settled_outcome_exact c hop xs n h hs hc hu hset
  exact ⟨fun hcl => ⟨fun hfit => (h1 hcl).1.trans (glue_fits _ hfit),
    fun hfit => (h1 hcl).2.trans (glue_fits _ hfit)⟩, h2⟩

theorem arrive_nothing {c : Conf} {me peer : Side} (h : Inv c me peer) (ha : Arrived c peer me) (k : Nat) :
    act c me peer (.arrive k) = .ok me := by
  by_cases hr : (me.state c).reading = true
  · simp only [act, if_pos hr]
    rw [show ((peer.out c).drop me.got.length).take k = [] by
      rw [show me.got = peer.out c from ha]; simp, List.append_nil, h.rep]
    simp
  · simp [act, hr]

/-- Nothing is left to do when nobody is writing and everything has arrived. -/
theorem settled_of_idle {c : Conf} {n : Net} (hp : Pair c n.a n.b) (hi : Idle c n.a ∧ Idle c n.b)
    (ha : Arrived c n.a n.b ∧ Arrived c n.b n.a) : Settled c n := by
  rintro ⟨w, x⟩ hm
  cases x with
  | wrote => cases w
             · exact hm hi.2
             · exact hm hi.1
  | arrive k =>
    cases w
    · exact hm (by simp [step, arrive_nothing hp.yours ha.1 k, Cpp.map, Cpp.bind])
    · exact hm (by simp [step, arrive_nothing hp.mine ha.2 k, Cpp.map, Cpp.bind])
  | _ => cases w <;> exact hm.elim

/-- C111 does not hold of messages of certain lengths: nothing is left to do, nobody closed, and a
message of 125 bytes was not handed to the other user. -/
theorem settled_lost_violated : ∃ xs n, talk cf xs = .ok n ∧ Sound xs ∧ Connected xs
    ∧ Used n.a ∧ Used n.b ∧ Settled cf n ∧ In.close ∉ n.a.ins ∧ In.close ∉ n.b.ins
    ∧ sentBy cf n.a = [List.replicate 125 0#8] ∧ handedTo cf n.b = [] := by
  obtain ⟨xs, hxs⟩ : ∃ xs : List (Bool × Act), xs = [(true, .start), (false, .start),
    (true, .send (List.replicate 125 0#8)), (true, .wrote), (false, .arrive 200)] := ⟨_, rfl⟩
  obtain ⟨n, e, hp, -⟩ := pair_talk (c := cf) (.inl rfl) xs
  have h : check (talk cf xs) (fun n =>
      (Endpoint.Spec.inFlight none (n.a.seen cf)).isNone
      && (Endpoint.Spec.inFlight none (n.b.seen cf)).isNone
      && n.b.got == n.a.out cf && n.a.got == n.b.out cf
      && decide (n.a.ins = [.start, .send (List.replicate 125 0#8), .wrote])
      && decide (n.b.ins = [.start])
      && sentBy cf n.a == [List.replicate 125 0#8] && handedTo cf n.b == []) = true := by
    rw [hxs]; decide +kernel
  rw [e] at h
  simp only [check, Bool.and_eq_true, beq_iff_eq, Option.isNone_iff_eq_none, decide_eq_true_eq] at h
  obtain ⟨⟨⟨⟨⟨⟨⟨h1, h2⟩, h3⟩, h4⟩, h5⟩, h6⟩, h7⟩, h8⟩ := h
  exact ⟨xs, n, e, by intro w e h; simp [hxs] at h, by intro w e h; simp [hxs] at h,
    ⟨[], _, h5, by simp, by simp [h5]⟩, ⟨[], _, h6, by simp, by simp [h6]⟩,
    settled_of_idle hp ⟨h1, h2⟩ ⟨h3, h4⟩, by simp [h5], by simp [h6], h7, h8⟩

/-- `chat` is such a history. -/
example : ∃ n, talk cf chat = .ok n ∧ Sound chat ∧ Connected chat ∧ Used n.a ∧ Used n.b ∧ Settled cf n
    ∧ In.close ∉ n.a.ins ∧ In.close ∉ n.b.ins ∧ sentBy cf n.a = [[7#8], [8#8, 9#8]]
    ∧ ∀ m ∈ sentBy cf n.a, Fits m := by
  obtain ⟨n, e, hp, -⟩ := pair_talk (c := cf) (.inl rfl) chat
  have h : check (talk cf chat) (fun n =>
      (Endpoint.Spec.inFlight none (n.a.seen cf)).isNone
      && (Endpoint.Spec.inFlight none (n.b.seen cf)).isNone
      && n.b.got == n.a.out cf && n.a.got == n.b.out cf
      && decide (n.a.ins = [.send [7#8], .start, .send [8#8, 9#8], .wrote, .wrote, .readMessage [5#8]])
      && decide (n.b.ins = [.start, .send [5#8], .readMessage [7#8], .wrote, .readMessage [8#8, 9#8]])
      && sentBy cf n.a == [[7#8], [8#8, 9#8]]) = true := by decide +kernel
  rw [e] at h
  simp only [check, Bool.and_eq_true, beq_iff_eq, Option.isNone_iff_eq_none, decide_eq_true_eq] at h
  obtain ⟨⟨⟨⟨⟨⟨h1, h2⟩, h3⟩, h4⟩, h5⟩, h6⟩, h7⟩ := h
  refine ⟨n, e, by intro w e h; simp [chat] at h, by intro w e h; simp [chat] at h,
    ⟨[.send [7#8]], _, h5, by simp, by simp [h5]⟩, ⟨[], _, h6, by simp, by simp [h6]⟩,
    settled_of_idle hp ⟨h1, h2⟩ ⟨h3, h4⟩, by simp [h5], by simp [h6], h7, by rw [h7]; simp [Fits]⟩

end Nbdl.Link
