import Verif.Link.Notes

/-!
# Users who take their leave (C136)
-/

namespace Nbdl.Link
open Nbdl.Endpoint (St In Obs Frame Err Note)
open Nbdl.Ws (opText opBinary glue)

/-! ## What is delivered when somebody closed -/

theorem settled_both {c : Conf} (hop : c.op = opText ∨ c.op = opBinary)
    {xs : List (Bool × Act)} {n : Net} (h : talk c xs = .ok n) (hs : Sound xs) (hc : Connected xs)
    (hu : Used n.a ∧ Used n.b) (hset : Settled c n) :
    (Idle c n.a ∧ Idle c n.b) ∧ Arrived c n.a n.b ∧ Arrived c n.b n.a := by
  obtain ⟨n', e, hp, hf⟩ := pair_talk hop xs
  rw [h] at e
  cases e
  obtain ⟨fa, fb⟩ := hf hs
  obtain ⟨la, lb⟩ := connected_ins hop xs n h hc
  have arr : ∀ {s : Side}, Used s → In.start ∈ s.ins ∧ In.stop ∉ s.ins := by
    rintro s ⟨is, js, he, -, hst⟩
    exact ⟨by simp [he], hst⟩
  refine ⟨⟨Classical.byContradiction fun hi => hset (true, .wrote) hi,
    Classical.byContradiction fun hi => hset (false, .wrote) hi⟩, ?_, ?_⟩
  · refine settled_arrived hop hp.symm (arr hu.2).1 (arr hu.2).2 fb lb (fun k => ?_)
    apply Classical.byContradiction
    intro hm
    obtain ⟨me, e, -, -⟩ := pair_act hop hp.symm (.arrive k)
    refine hset (false, .arrive k) (fun hst => hm ?_)
    simp only [step, e, Cpp.map, Cpp.bind, Cpp.ok.injEq] at hst
    rw [e, ← hst]
  · refine settled_arrived hop hp (arr hu.1).1 (arr hu.1).2 fa la (fun k => ?_)
    apply Classical.byContradiction
    intro hm
    obtain ⟨me, e, -, -⟩ := pair_act hop hp (.arrive k)
    refine hset (true, .arrive k) (fun hst => hm ?_)
    simp only [step, e, Cpp.map, Cpp.bind, Cpp.ok.injEq] at hst
    rw [e, ← hst]

theorem handed_written {c : Conf} (hop : c.op = opText ∨ c.op = opBinary) {me peer : Side}
    (hp : Pair c me peer) (fm : NoFail me) (fp : NoFail peer) (hstop : In.stop ∉ me.ins)
    (hi : Idle c peer) (ha : Arrived c peer me) :
    handedTo c me = glue 125 [] (Endpoint.Spec.written (peer.seen c)) := by
  have S := shape c peer
  rw [(handed_all hop hp fm hstop ha).1, S.flow (noFail c _ fp).2.1]
  have hin : (peer.state c).inflight = none := by rw [← S.inv.cur]; exact hi
  rw [hin, Option.toList, List.append_nil, dataOf_wrote]

/-- C110, C111: when nothing is left to do, closed or not, each user was handed what the other side had
written, and nothing of what it had not. -/
theorem settled_written_exact (c : Conf) (hop : c.op = opText ∨ c.op = opBinary)
    (xs : List (Bool × Act)) (n : Net) (h : talk c xs = .ok n) (hs : Sound xs) (hc : Connected xs)
    (hu : Used n.a ∧ Used n.b) (hset : Settled c n) :
    handedTo c n.b = glue 125 [] (Endpoint.Spec.written (n.a.seen c))
    ∧ handedTo c n.a = glue 125 [] (Endpoint.Spec.written (n.b.seen c)) := by
  obtain ⟨⟨ia, ib⟩, hab, hba⟩ := settled_both hop h hs hc hu hset
  obtain ⟨n', e, hp, hf⟩ := pair_talk hop xs
  rw [h] at e
  cases e
  obtain ⟨_, _, _, _, sa⟩ := hu.1
  obtain ⟨_, _, _, _, sb⟩ := hu.2
  exact ⟨handed_written hop hp.symm (hf hs).2 (hf hs).1 sb ia hab,
    handed_written hop hp (hf hs).1 (hf hs).2 sa ib hba⟩

/-! ## C136 -/

/-- C136: whatever the network does, the program of the two users does not run into undefined
behaviour, and neither is told of anything but messages and the close. -/
theorem farewell_sane (c : Conf) (hop : c.op = opText ∨ c.op = opBinary) (p : Plan)
    (ys : List (Bool × Ev)) :
    ∃ n, farewell c p {} ys = .ok n ∧ ∀ w, .ub ∉ (n.me w).seen c
      ∧ .note .badRequest ∉ (n.me w).seen c := by
  obtain ⟨n, e, h⟩ := farewell_course hop p ys {} (course_start c p)
  refine ⟨n, e, fun w => ?_⟩
  obtain ⟨hp, hf⟩ := h.pair hop w
  exact ⟨(noFail c _ hf).1, hp.mine.bad⟩

theorem Course.told {c : Conf} (hop : c.op = opText ∨ c.op = opBinary) {p : Plan} (hp : p.Proper) {n : Net}
    (h : Course c p n) (w : Bool) :
    handedTo c (n.me w) <+: p.messages (!w)
    ∧ (In.close ∈ (n.me w).ins ↔ handedTo c (n.me w) = p.messages (!w)) := by
  obtain ⟨hpair, -⟩ := h.pair hop w
  obtain ⟨-, hfp⟩ := h.pair hop (!w)
  have hs : sentBy c (n.me (!w)) <+: p.messages (!w) := by
    rw [sentBy_sends c _ hfp, (h.mind (!w)).sent]
    split
    · exact List.prefix_refl _
    · exact List.nil_prefix
  have hg := handed_glued hop hpair
  rw [glue_fits _ (fun m hm => (hp (!w)).2 m (hs.subset hm))] at hg
  have hpre := hg.trans hs
  refine ⟨hpre, ?_⟩
  rw [(h.mind w).close, ← h.handed hop w]
  obtain ⟨⟨l, hl, hn⟩, -⟩ := hp (!w)
  rw [hl] at hpre ⊢
  constructor
  · intro hb
    obtain ⟨k, hk⟩ := hpre
    rcases List.eq_nil_or_concat k with rfl | ⟨k', x, rfl⟩
    · simpa using hk
    · exfalso
      rw [List.concat_eq_append, ← List.append_assoc] at hk
      have := (List.append_inj' hk rfl).1
      exact hn (this ▸ List.mem_append_left _ hb)
  · intro hh
    rw [hh]; simp

theorem mem_notes {k : Note Msg} : ∀ {t : List (Obs Msg)}, .note k ∈ t → k ∈ notes t
  | o :: t, h => by
    rcases List.mem_cons.1 h with rfl | h
    · simp [notes]
    · have := mem_notes h
      cases o <;> simp [notes, this]

/-- C136, in part: when nothing is left to do, both users were told of messages and then of the close, once
or twice, and of nothing else; each was handed a beginning of the other's messages — exactly those which were
written —, everyone who called `send_close` was handed all of them, and at least one did. Missing: that both
were handed all of them, and that both were told of the close only once; see `farewell_lost_violated` and
`farewell_twice_violated`. -/
theorem farewell_partial (c : Conf) (hop : c.op = opText ∨ c.op = opBinary) (p : Plan) (hp : p.Proper)
    (ys : List (Bool × Ev)) (n : Net) (h : farewell c p {} ys = .ok n) (hr : ∀ w, Ready (n.me w))
    (hset : Settled c n) :
    (∀ w, (∃ k, (k = 1 ∨ k = 2)
        ∧ notes ((n.me w).seen c) = (handedTo c (n.me w)).map .message ++ List.replicate k .close)
      ∧ handedTo c (n.me w) <+: p.messages (!w)
      ∧ handedTo c (n.me w) = Endpoint.Spec.written ((n.me (!w)).seen c)
      ∧ (.closeRequested ∈ (n.me w).seen c → handedTo c (n.me w) = p.messages (!w)))
    ∧ ∃ w, handedTo c (n.me w) = p.messages (!w) := by
  obtain ⟨n', e, hc⟩ := farewell_course hop p ys {} (course_start c p)
  rw [h] at e
  cases e
  obtain ⟨xs, t1, t2, t3⟩ := hc.run
  have hu : ∀ w, Used (n.me w) := fun w => (hc.mind w).used (hr w)
  have hu' : Used n.a ∧ Used n.b := ⟨hu true, hu false⟩
  have hsent : ∀ w, sentBy c (n.me w) = p.messages w := by
    intro w
    rw [sentBy_sends c _ (hc.pair hop w).2, (hc.mind w).sent, if_pos (show In.start ∈ _ from hr w)]
  have hout := settled_outcome_partial c hop xs n t1 t2 t3 hu' hset
  have hwr := settled_written_exact c hop xs n t1 t2 t3 hu' hset
  -- somebody closes
  have hcl : In.close ∈ n.a.ins ∨ In.close ∈ n.b.ins := by
    apply Classical.byContradiction
    intro hno
    have hno' : In.close ∉ n.a.ins ∧ In.close ∉ n.b.ins := ⟨fun h => hno (.inl h), fun h => hno (.inr h)⟩
    have hall := (hout.1 hno').1 (by
      intro m hm
      rw [show sentBy c n.a = _ from hsent true] at hm
      exact (hp true).2 m hm)
    rw [show sentBy c n.a = _ from hsent true] at hall
    exact hno'.2 (((hc.told hop hp false).2).2 hall)
  have hnotes := hout.2 hcl
  have hreq : ∀ w, .closeRequested ∈ (n.me w).seen c → In.close ∈ (n.me w).ins := by
    intro w hm
    revert hm
    refine exec_induct c.conv (fun ins st t => .closeRequested ∈ t → In.close ∈ ins) (by simp) ?_ (n.me w).ins
    intro ins st t i hsh ih hm
    rcases List.mem_append.1 hm with hm | hm
    · exact List.mem_append_left _ (ih hm)
    · by_cases hi : i = .close
      · subst hi; simp
      · exact absurd hm (noReq c.conv st i hi)
  have hwr' : ∀ w, handedTo c (n.me w) = Endpoint.Spec.written ((n.me (!w)).seen c) := by
    intro w
    have hsub : ∀ m ∈ Endpoint.Spec.written ((n.me (!w)).seen c), Fits m := by
      have S := shape c (n.me (!w))
      have hf := (hc.pair hop (!w)).2
      have hpre : Endpoint.Spec.written ((n.me (!w)).seen c) <+: sentBy c (n.me (!w)) := by
        rw [sentBy, S.inv.fifo]
        exact List.prefix_append _ _
      intro m hm
      have := hpre.subset hm
      rw [hsent] at this
      exact (hp _).2 m this
    have : handedTo c (n.me w) = glue 125 [] (Endpoint.Spec.written ((n.me (!w)).seen c)) := by
      cases w
      · exact hwr.1
      · exact hwr.2
    rw [this, glue_fits _ hsub]
  refine ⟨fun w => ⟨?_, (hc.told hop hp w).1, hwr' w, fun hm => ((hc.told hop hp w).2).1 (hreq w hm)⟩, ?_⟩
  · obtain ⟨hpw, hfw⟩ := hc.pair hop w
    have hl : ∀ e, In.readError e ∉ (n.me w).ins := by
      have := connected_ins hop xs n t1 t3
      cases w
      · exact this.2
      · exact this.1
    obtain ⟨k, hk, e⟩ := notes_in_order_partial c (n.me w) hfw hl hpw.mine.bad
    refine ⟨k, ?_, e⟩
    have hcn : .note .close ∈ (n.me w).seen c := by
      cases w
      · exact hnotes.2
      · exact hnotes.1
    have hk0 : k ≠ 0 := by
      rintro rfl
      have := mem_notes hcn
      rw [e] at this
      simp at this
    omega
  · rcases hcl with h | h
    · exact ⟨true, ((hc.told hop hp true).2).1 h⟩
    · exact ⟨false, ((hc.told hop hp false).2).1 h⟩

/-- C136: at any moment the program has only finitely many things left to do, in whatever order they are
done, and can do them. -/
theorem farewell_ends (c : Conf) (hop : c.op = opText ∨ c.op = opBinary) (p : Plan)
    (ys : List (Bool × Ev)) (n : Net) (h : farewell c p {} ys = .ok n) :
    (∃ bound, ∀ zs, Going c p n zs → zs.length ≤ bound)
    ∧ ∃ zs n', Going c p n zs ∧ farewell c p {} (ys ++ zs) = .ok n' ∧ Settled c n'
      ∧ ∀ w, Ready (n'.me w) := by
  obtain ⟨n', e, hc⟩ := farewell_course hop p ys {} (course_start c p)
  rw [h] at e
  cases e
  refine ⟨⟨_, fun zs hg => going_bound hop p zs n hc hg⟩, ?_⟩
  obtain ⟨zs, n', hg, e, hs, hr'⟩ := can_end hop p _ n (Nat.le_refl _) hc
  exact ⟨zs, n', hg, by rw [farewell_append, h]; exact e, hs, hr'⟩

/-- Three messages one way and two the other, the last of each the farewell. -/
def plan : Plan := ⟨fun w => if w then [[1#8], [2#8], [9#8]] else [[3#8], [9#8]], [9#8]⟩

theorem plan_proper : plan.Proper := by
  intro w
  cases w
  · exact ⟨⟨[[3#8]], rfl, by decide⟩, by simp [plan, Fits]⟩
  · exact ⟨⟨[[1#8], [2#8]], rfl, by decide⟩, by simp [plan, Fits]⟩

/-- A schedule in which all goes well: one side after the other. -/
def well : List (Bool × Ev) :=
  [(true, .ready), (false, .ready)] ++ List.replicate 3 (true, .wrote) ++ List.replicate 2 (false, .wrote)
  ++ List.replicate 9 (false, .arrive) ++ [(false, .wrote)] ++ List.replicate 6 (true, .arrive)
  ++ [(true, .wrote)] ++ List.replicate 2 (true, .arrive) ++ List.replicate 2 (false, .arrive)

/-- Of `well`, C136 holds: both are told all messages and one close. -/
example : check (farewell cf plan {} well) (fun n =>
    decide (notes (n.a.seen cf) = [.message [3#8], .message [9#8], .close])
    && decide (notes (n.b.seen cf) = [.message [1#8], .message [2#8], .message [9#8], .close])
    && (Endpoint.Spec.inFlight none (n.a.seen cf)).isNone
    && (Endpoint.Spec.inFlight none (n.b.seen cf)).isNone
    && n.b.got == n.a.out cf && n.a.got == n.b.out cf) = true := by decide +kernel

/-- A schedule in which one side hears the farewell while its own messages are still in the queue. -/
def hasty : List (Bool × Ev) :=
  [(true, .ready), (false, .ready)] ++ List.replicate 2 (false, .wrote) ++ List.replicate 6 (true, .arrive)
  ++ List.replicate 2 (true, .wrote) ++ List.replicate 5 (false, .arrive) ++ [(false, .wrote)]
  ++ List.replicate 2 (true, .arrive)

/-- C136 does not hold: when one user hears the farewell of the other while its own messages are still
queued, its close frame overtakes them. Nothing fails, both are told of the close, and the other user
got one message of three. The expectation of the project's own test depends on the schedule. -/
theorem farewell_lost_violated : ∃ ys n, farewell cf plan {} ys = .ok n ∧ (∀ w, Ready (n.me w))
    ∧ Settled cf n ∧ plan.Proper ∧ handedTo cf (n.me false) = [[1#8]]
    ∧ plan.messages true = [[1#8], [2#8], [9#8]]
    ∧ notes ((n.me false).seen cf) = [.message [1#8], .close]
    ∧ ¬ AsExpected cf plan n false := by
  have h : check (farewell cf plan {} hasty) (fun n =>
      (Endpoint.Spec.inFlight none (n.a.seen cf)).isNone
      && (Endpoint.Spec.inFlight none (n.b.seen cf)).isNone
      && !(n.a.state cf).reading && !(n.b.state cf).reading
      && decide (In.start ∈ n.a.ins) && decide (In.start ∈ n.b.ins)
      && handedTo cf n.b == [[1#8]]
      && decide (notes (n.b.seen cf) = [.message [1#8], .close])) = true := by decide +kernel
  unfold check at h
  split at h
  · rename_i n e
    simp only [Bool.and_eq_true, beq_iff_eq, Option.isNone_iff_eq_none, Bool.not_eq_true',
      decide_eq_true_eq] at h
    obtain ⟨⟨⟨⟨⟨⟨⟨h1, h2⟩, h3⟩, h4⟩, h5⟩, h6⟩, h7⟩, h8⟩ := h
    refine ⟨hasty, n, e, ?_, settled_of h1 h2 h3 h4, plan_proper, h7, rfl, h8, ?_⟩
    · intro w; cases w
      · exact h6
      · exact h5
    · intro hx
      have h8' : notes ((n.me false).seen cf) = [.message [1#8], .close] := h8
      rw [AsExpected, h8'] at hx
      revert hx
      decide
  · cases h

/-- A schedule in which both close at once. -/
def atOnce : List (Bool × Ev) :=
  [(true, .ready), (false, .ready)] ++ List.replicate 3 (true, .wrote) ++ List.replicate 2 (false, .wrote)
  ++ List.replicate 9 (false, .arrive) ++ List.replicate 8 (true, .arrive)
  ++ [(true, .wrote), (false, .wrote)] ++ List.replicate 2 (false, .arrive)

/-- C136 does not hold: when both hear the farewell at the same time, a user is told of the close twice:
when it reads the close frame of the other while its own is being written, and when its own is
written. -/
theorem farewell_twice_violated : ∃ ys n, farewell cf plan {} ys = .ok n ∧ (∀ w, Ready (n.me w))
    ∧ Settled cf n ∧ plan.Proper
    ∧ notes ((n.me true).seen cf) = [.message [3#8], .message [9#8], .close, .close]
    ∧ ¬ AsExpected cf plan n true := by
  have h : check (farewell cf plan {} atOnce) (fun n =>
      (Endpoint.Spec.inFlight none (n.a.seen cf)).isNone
      && (Endpoint.Spec.inFlight none (n.b.seen cf)).isNone
      && !(n.a.state cf).reading && !(n.b.state cf).reading
      && decide (In.start ∈ n.a.ins) && decide (In.start ∈ n.b.ins)
      && decide (notes (n.a.seen cf) = [.message [3#8], .message [9#8], .close, .close])) = true := by
    decide +kernel
  unfold check at h
  split at h
  · rename_i n e
    simp only [Bool.and_eq_true, Option.isNone_iff_eq_none, Bool.not_eq_true', decide_eq_true_eq] at h
    obtain ⟨⟨⟨⟨⟨⟨h1, h2⟩, h3⟩, h4⟩, h5⟩, h6⟩, h7⟩ := h
    refine ⟨atOnce, n, e, ?_, settled_of h1 h2 h3 h4, plan_proper, h7, ?_⟩
    · intro w; cases w
      · exact h6
      · exact h5
    · intro hx
      have h7' : notes ((n.me true).seen cf) = [.message [3#8], .message [9#8], .close, .close] := h7
      rw [AsExpected, h7'] at hx
      revert hx
      decide
  · cases h

end Nbdl.Link
