import Verif.Link.Lemmas

/-!
# Lemmas on conversations which settle
-/

namespace Nbdl.Link
open Nbdl.Endpoint (St In Obs Frame Err Note trace exec loop startSendQueue callHandler onRead SInv)
open Nbdl.Ws (opText opBinary glue)

/-! ## The work left -/

theorem accepted_start (s : St Msg) : Endpoint.Spec.accepted (startSendQueue s).2 = [] := by
  unfold startSendQueue loop
  split
  · rfl
  · simp only
    cases s.pending <;> cases s.queue <;> simp [St.write, Endpoint.Spec.accepted]

theorem accepted_handler (s : St Msg) (n : Note Msg) : Endpoint.Spec.accepted (callHandler s n) = [] := by
  unfold callHandler; split <;> rfl

/-- The user does not send: nothing is accepted. -/
theorem accepted_step (conv : Bool) (s : St Msg) (i : In Msg) (hi : ∀ m, i ≠ .send m) :
    Endpoint.Spec.accepted (Endpoint.step conv s i).2 = [] := by
  have hl : ∀ s : St Msg, Endpoint.Spec.accepted (loop s).2 = [] := by
    intro s
    unfold loop
    cases s.pending <;> cases s.queue <;> simp [St.write, Endpoint.Spec.accepted]
  unfold Endpoint.step
  split
  · rfl
  cases i with
  | send m => exact absurd rfl (hi m)
  | close => simpa [Endpoint.Spec.accepted] using accepted_start _
  | start =>
    simp only
    split
    · split
      · exact accepted_start _
      · rfl
    · rfl
  | stop => rfl
  | wrote =>
    cases s.inflight with
    | none => rfl
    | some f =>
      cases f with
      | data m => simpa [Endpoint.Spec.accepted, Endpoint.onWrote] using hl _
      | close =>
        simp only [Endpoint.onWrote]
        split
        · simpa [Endpoint.Spec.accepted] using accepted_handler _ _
        · rfl
      | pong => simp [Endpoint.Spec.accepted, Endpoint.onWrote, hl]
  | writeFailed e =>
    cases s.inflight with
    | none => rfl
    | some f =>
      cases f with
      | data m => simpa [Endpoint.Spec.accepted, Endpoint.onWriteFailed] using accepted_handler _ _
      | close => rfl
      | pong => rfl
  | readMessage m =>
    simp only [onRead]
    split
    · simpa [Endpoint.Spec.accepted] using accepted_handler _ _
    · rfl
  | readClose =>
    simp only [onRead]
    split
    · split
      · simpa [Endpoint.Spec.accepted] using accepted_handler _ _
      · simpa [Endpoint.Spec.accepted] using accepted_start _
    · rfl
  | readPing =>
    simp only [onRead]
    split <;> rfl
  | readPong =>
    simp only [onRead]
    split <;> rfl
  | readBad =>
    simp only [onRead]
    split
    · simpa [Endpoint.Spec.accepted] using accepted_handler _ _
    · rfl
  | readError e =>
    simp only [onRead]
    split
    · simpa [Endpoint.Spec.accepted] using accepted_handler _ _
    · rfl

theorem accepted_exec (conv : Bool) : ∀ (is : List (In Msg)) (s : St Msg), (∀ m, In.send m ∉ is) →
    Endpoint.Spec.accepted (exec conv s is).2 = []
  | [], _, _ => rfl
  | i :: is, s, h => by
    simp only [exec]
    rw [Endpoint.accepted_append, accepted_step conv s i (by rintro m rfl; exact h m (by simp)),
      accepted_exec conv is _ (fun m hm => h m (by simp [hm]))]
    rfl

/-- More inputs without `send_message`. -/
theorem sent_same (c : Conf) (ins is : List (In Msg)) (got got' : List Byte) (h : ∀ m, In.send m ∉ is) :
    sentBy c ⟨ins ++ is, got'⟩ = sentBy c ⟨ins, got⟩ := by
  simp only [sentBy, Side.seen, trace_append, Endpoint.accepted_append, accepted_exec c.conv is _ h,
    List.append_nil]

/-- All octets a side can still produce, if its user sends nothing more, and all it did. -/
def total (c : Conf) (s : Side) : Nat :=
  ((sentBy c s).map fun m => (octets c.op (.data m)).length).sum + (octets c.op .close).length

/-- What is left to do for the messages of a side. -/
def left (c : Conf) (s t : Side) : Nat :=
  (total c s - t.got.length) + ((sentBy c s).length + 1 - (wroteAll (s.seen c)).length)

theorem out_total (c : Conf) (s : Side) : (s.out c).length ≤ total c s := by
  obtain ⟨cl, e, -, -⟩ := out_wire c s
  have hd := (shape c s).data
  rw [e, total, sentBy]
  obtain ⟨k, hk⟩ := hd
  rw [← hk, wire, List.flatMap_append, List.length_append, List.map_append, List.sum_append]
  have h1 : ((List.map Frame.data (dataOf (begun (s.seen c)))).flatMap (octets c.op)).length
      = ((dataOf (begun (s.seen c))).map fun m => (octets c.op (.data m)).length).sum := by
    rw [List.length_flatMap, List.map_map]; rfl
  rw [h1]
  cases cl <;> simp <;> omega

theorem wrote_total (c : Conf) (s : Side) (hf : NoFail s) :
    (wroteAll (s.seen c)).length ≤ (sentBy c s).length + 1 := by
  have S := shape c s
  have hl := S.flow (noFail c s hf).2.1
  obtain ⟨cl, e, -⟩ := wire_of (begun (s.seen c)) (begun_pairwise _ S.inv.after)
    (fun hm => S.inv.nopong' (mem_begun _ _ hm))
  have h1 : (begun (s.seen c)).length ≤ (dataOf (begun (s.seen c))).length + 1 := by
    have : (wire (dataOf (begun (s.seen c))) cl).length ≤ (dataOf (begun (s.seen c))).length + 1 := by
      cases cl <;> simp [wire]
    rwa [← e] at this
  have h2 := S.data.length_le
  rw [hl, List.length_append] at h1
  rw [hl] at h2
  rw [sentBy]
  have h3 : (wroteAll (s.seen c) ++ (s.state c).inflight.toList) = begun (s.seen c) := hl.symm
  omega

theorem left_wrote {c : Conf} {me peer : Side} (hf : NoFail me) (hi : ¬ Idle c me) :
    act c me peer .wrote = .ok { me with ins := me.ins ++ [.wrote] }
    ∧ left c { me with ins := me.ins ++ [.wrote] } peer < left c me peer
    ∧ left c peer { me with ins := me.ins ++ [.wrote] } = left c peer me := by
  have hd := (noFail c me hf).2.1
  have hf' : NoFail { me with ins := me.ins ++ [.wrote] } := by
    intro e hm
    rcases List.mem_append.1 hm with hm | hm
    · exact hf e hm
    · simp at hm
  refine ⟨by simp [act, hd], ?_, rfl⟩
  have hb := wrote_total c _ hf'
  have hs := sent_same c me.ins [.wrote] me.got me.got (by simp)
  obtain ⟨e1, -⟩ := one_more c me.ins me.got .wrote
  have hw : (wroteAll (Side.seen c { me with ins := me.ins ++ [.wrote] })).length
      ≥ (wroteAll (me.seen c)).length + 1 := by
    rw [e1, wroteAll_append, List.length_append]
    have hin : (me.state c).inflight ≠ none := by
      rw [← (shape c me).inv.cur]; exact hi
    have hbr := (noFail c me hf).2.2
    have : 1 ≤ (wroteAll (Endpoint.step c.conv (Side.state c ⟨me.ins, me.got⟩) .wrote).2).length := by
      change (me.state c).broken = false at hbr
      unfold Endpoint.step
      rw [if_neg (by simp [show (Side.state c ⟨me.ins, me.got⟩).broken = false from hbr])]
      cases hh : (Side.state c ⟨me.ins, me.got⟩).inflight with
      | none => exact absurd hh hin
      | some f => simp [wroteAll]
    exact Nat.add_le_add_left this _
  have hsl : (sentBy c { me with ins := me.ins ++ [.wrote] }).length = (sentBy c me).length :=
    congrArg List.length hs
  simp only [left, total]
  rw [show sentBy c { me with ins := me.ins ++ [.wrote] } = sentBy c me from hs] at hb ⊢
  omega

theorem left_arrive {c : Conf} (hop : c.op = opText ∨ c.op = opBinary) {me peer : Side}
    (h : Pair c me peer) (k : Nat) (hm : act c me peer (.arrive k) ≠ .ok me) :
    ∃ me', act c me peer (.arrive k) = .ok me' ∧ left c me' peer ≤ left c me peer
      ∧ left c peer me' < left c peer me := by
  by_cases hr : (me.state c).reading = true
  · obtain ⟨gs, b, e, hpre, hrep, -⟩ := arrive_form hop h.mine hr k
    refine ⟨_, e, ?_, ?_⟩
    · have hs : sentBy c ⟨me.ins ++ feed gs b, me.got ++ ((peer.out c).drop me.got.length).take k⟩
          = sentBy c me := by
        refine sent_same c me.ins (feed gs b) me.got _ (fun m hm => ?_)
        rcases List.mem_append.1 hm with hm | hm
        · simp at hm
        · cases b <;> simp at hm
      simp only [left, total]
      rw [hs]
      have : (wroteAll (me.seen c)).length ≤ (wroteAll (Side.seen c
          ⟨me.ins ++ feed gs b, me.got ++ ((peer.out c).drop me.got.length).take k⟩)).length := by
        simp only [Side.seen, trace_append, wroteAll_append, List.length_append]
        omega
      omega
    · have hne : ((peer.out c).drop me.got.length).take k ≠ [] := by
        intro h0
        rw [h0, List.append_nil] at hrep e
        rw [h.mine.rep] at hrep
        have : feed gs b = [] := by
          have := congrArg List.length (Option.some.inj hrep)
          simp only [List.length_append] at this
          exact List.eq_nil_of_length_eq_zero (by omega)
        rw [this, List.append_nil] at e
        exact hm e
      have hl := hpre.length_le
      have ht := out_total c peer
      have : 0 < (((peer.out c).drop me.got.length).take k).length := List.length_pos_iff.2 hne
      rw [List.length_append] at hl
      simp only [left, List.length_append]
      omega
  · exact absurd (by simp [act, hr]) hm

theorem busy_bound {c : Conf} (hop : c.op = opText ∨ c.op = opBinary) :
    ∀ (ys : List (Bool × Act)) (n : Net), Pair c n.a n.b → NoFail n.a → NoFail n.b → Busy c n ys →
      ys.length ≤ left c n.a n.b + left c n.b n.a
  | [], n, _, _, _, _ => by simp
  | (true, .wrote) :: ys, ⟨a, b⟩, hp, fa, fb, ⟨hm, n', e, hb⟩ => by
    simp only at hp fa fb
    obtain ⟨e1, h1, h2⟩ := left_wrote (peer := b) fa hm
    obtain ⟨me, e2, hp', hf⟩ := pair_act hop hp .wrote
    simp only [step, e1, Cpp.map, Cpp.bind, Cpp.ok.injEq] at e
    rw [e1] at e2
    cases e2
    subst e
    have := busy_bound hop ys ⟨_, b⟩ hp' (hf (by simp) fa) fb hb
    simp only [List.length_cons] at this ⊢
    omega
  | (false, .wrote) :: ys, ⟨a, b⟩, hp, fa, fb, ⟨hm, n', e, hb⟩ => by
    simp only at hp fa fb
    obtain ⟨e1, h1, h2⟩ := left_wrote (peer := a) fb hm
    obtain ⟨me, e2, hp', hf⟩ := pair_act hop hp.symm .wrote
    simp only [step, e1, Cpp.map, Cpp.bind, Cpp.ok.injEq] at e
    rw [e1] at e2
    cases e2
    subst e
    have := busy_bound hop ys ⟨a, _⟩ hp'.symm fa (hf (by simp) fb) hb
    simp only [List.length_cons] at this ⊢
    omega
  | (true, .arrive k) :: ys, ⟨a, b⟩, hp, fa, fb, ⟨hm, n', e, hb⟩ => by
    simp only at hp fa fb
    have hm' : act c a b (.arrive k) ≠ .ok a := by
      intro h; apply hm; simp [step, h, Cpp.map, Cpp.bind]
    obtain ⟨me, e1, h1, h2⟩ := left_arrive hop hp k hm'
    obtain ⟨me', e2, hp', hf⟩ := pair_act hop hp (.arrive k)
    simp only [step, e1, Cpp.map, Cpp.bind, Cpp.ok.injEq] at e
    rw [e1] at e2
    cases e2
    subst e
    have := busy_bound hop ys ⟨_, b⟩ hp' (hf (by simp) fa) fb hb
    simp only [List.length_cons] at this ⊢
    omega
  | (false, .arrive k) :: ys, ⟨a, b⟩, hp, fa, fb, ⟨hm, n', e, hb⟩ => by
    simp only at hp fa fb
    have hm' : act c b a (.arrive k) ≠ .ok b := by
      intro h; apply hm; simp [step, h, Cpp.map, Cpp.bind]
    obtain ⟨me, e1, h1, h2⟩ := left_arrive hop hp.symm k hm'
    obtain ⟨me', e2, hp', hf⟩ := pair_act hop hp.symm (.arrive k)
    simp only [step, e1, Cpp.map, Cpp.bind, Cpp.ok.injEq] at e
    rw [e1] at e2
    cases e2
    subst e
    have := busy_bound hop ys ⟨a, _⟩ hp'.symm fa (hf (by simp) fb) hb
    simp only [List.length_cons] at this ⊢
    omega
  | (w, .send m) :: ys, n, _, _, _, ⟨hm, _⟩ => by cases w <;> exact hm.elim
  | (w, .close) :: ys, n, _, _, _, ⟨hm, _⟩ => by cases w <;> exact hm.elim
  | (w, .start) :: ys, n, _, _, _, ⟨hm, _⟩ => by cases w <;> exact hm.elim
  | (w, .stop) :: ys, n, _, _, _, ⟨hm, _⟩ => by cases w <;> exact hm.elim
  | (w, .writeFailed e) :: ys, n, _, _, _, ⟨hm, _⟩ => by cases w <;> exact hm.elim
  | (w, .lost e) :: ys, n, _, _, _, ⟨hm, _⟩ => by cases w <;> exact hm.elim

/-! ## Nothing left to do -/

theorem reading_step (conv : Bool) (s : St Msg) (i : In Msg) :
    (s.reading = true → (Endpoint.step conv s i).1.reading = true ∨ i = .readClose ∨ i = .readBad
      ∨ ∃ e, i = .readError e)
    ∧ ((Endpoint.step conv s i).1.started = true → s.started = true
      ∨ (Endpoint.step conv s i).1.reading = true) := by
  unfold Endpoint.step
  split
  · exact ⟨.inl, .inl⟩
  have sf := fun s : St Msg => (Endpoint.start_facts s).2.2.2
  have lf := fun s : St Msg => (Endpoint.loop_facts s).2.2.2
  cases i with
  | send m => exact ⟨fun h => .inl (by rw [(sf _).2.1]; exact h), fun h => .inl (by rw [(sf _).1] at h; exact h)⟩
  | close => exact ⟨fun h => .inl (by rw [(sf _).2.1]; exact h), fun h => .inl (by rw [(sf _).1] at h; exact h)⟩
  | start =>
    simp only
    split
    · split
      · exact ⟨fun h => .inl (by rw [(sf _).2.1]), fun h => .inr (by rw [(sf _).2.1])⟩
      · exact ⟨fun h => .inl rfl, fun h => .inr rfl⟩
    · exact ⟨.inl, .inl⟩
  | stop => exact ⟨.inl, .inl⟩
  | wrote =>
    cases hi : s.inflight with
    | none => exact ⟨.inl, .inl⟩
    | some f =>
      cases f with
      | data m =>
        simp only [Endpoint.onWrote]
        exact ⟨fun h => .inl (by rw [(lf _).2.1]; exact h), fun h => .inl (by rw [(lf _).1] at h; exact h)⟩
      | close => exact ⟨.inl, .inl⟩
      | pong => exact ⟨.inl, .inl⟩
  | writeFailed e =>
    cases hi : s.inflight with
    | none => exact ⟨.inl, .inl⟩
    | some f => cases f <;> exact ⟨.inl, .inl⟩
  | readMessage m => simp only [onRead]; split <;> exact ⟨.inl, .inl⟩
  | readClose =>
    simp only [onRead]
    refine ⟨fun _ => by simp, ?_⟩
    split
    · split
      · exact .inl
      · exact fun h => .inl (by rw [(sf _).1] at h; exact h)
    · exact .inl
  | readPing => simp only [onRead]; split <;> exact ⟨.inl, .inl⟩
  | readPong => simp only [onRead]; split <;> exact ⟨.inl, .inl⟩
  | readBad =>
    simp only [onRead]
    refine ⟨fun _ => by simp, ?_⟩
    split <;> exact .inl
  | readError e =>
    simp only [onRead]
    refine ⟨fun _ => by simp, ?_⟩
    split <;> exact .inl

/-- A started reader reads unless something ended it. -/
theorem reader_ended (c : Conf) (s : Side) (h1 : In.start ∈ s.ins) (h2 : In.stop ∉ s.ins)
    (hf : NoFail s) : (s.state c).reading = true ∨ In.readClose ∈ s.ins ∨ In.readBad ∈ s.ins
      ∨ ∃ e, In.readError e ∈ s.ins := by
  have key := exec_induct c.conv (fun ins st _ => In.stop ∉ ins → (∀ e, In.writeFailed e ∉ ins) →
    (st.broken = false ∧ st.stopped = false) ∧ (In.start ∈ ins → st.started = true) ∧ (st.started = true →
      st.reading = true ∨ In.readClose ∈ ins ∨ In.readBad ∈ ins ∨ ∃ e, In.readError e ∈ ins))
    (by simp) ?_ s.ins h2 hf
  · exact key.2.2 (key.2.1 h1)
  intro ins st t i hsh ih h2 hf
  obtain ⟨⟨hb, hst⟩, ih1, ih2⟩ := ih (fun h => h2 (by simp [h])) (fun e h => hf e (by simp [h]))
  have F := step_facts c.conv st hsh.sinv i
  have hb' : (Endpoint.step c.conv st i).1.broken = false := by
    rw [(F.sound (by rintro e rfl; exact hf e (by simp))).2.2]; exact hb
  have hst' : (Endpoint.step c.conv st i).1.stopped = false := by
    cases hh : (Endpoint.step c.conv st i).1.stopped with
    | false => rfl
    | true =>
      rcases F.halt hh with h | h
      · rw [hst] at h; cases h
      · exact absurd (by simp [h]) h2
  refine ⟨⟨hb', hst'⟩, ?_, ?_⟩
  · intro hm
    rcases List.mem_append.1 hm with hm | hm
    · exact Endpoint.started_step c.conv st i (ih1 hm)
    · have : i = .start := by simpa [eq_comm] using hm
      subst this
      unfold Endpoint.step
      rw [if_neg (by simp [hb])]
      simp only [hst]
      cases hs : st.started
      · simp only [Bool.false_eq_true, not_false_eq_true, and_self, if_true]
        split
        · exact (Endpoint.start_facts _).2.2.2.1
        · rfl
      · simp [hs]
  · intro hs'
    obtain ⟨r1, r2⟩ := reading_step c.conv st i
    rcases r2 hs' with h | h
    · rcases ih2 h with h | h | h | ⟨e, h⟩
      · rcases r1 h with h | h | h | ⟨e, h⟩
        · exact .inl h
        · exact .inr (.inl (by simp [h]))
        · exact .inr (.inr (.inl (by simp [h])))
        · exact .inr (.inr (.inr ⟨e, by simp [h]⟩))
      · exact .inr (.inl (by simp [h]))
      · exact .inr (.inr (.inl (by simp [h])))
      · exact .inr (.inr (.inr ⟨e, by simp [h]⟩))
    · exact .inl h

/-- If nothing more arrives at a side that was started, everything has arrived. -/
theorem settled_arrived {c : Conf} (hop : c.op = opText ∨ c.op = opBinary) {me peer : Side}
    (h : Pair c me peer) (h1 : In.start ∈ me.ins) (h2 : In.stop ∉ me.ins) (hf : NoFail me)
    (hl : ∀ e, In.readError e ∉ me.ins) (hs : ∀ k, act c me peer (.arrive k) = .ok me) :
    Arrived c peer me := by
  obtain ⟨cl, hout, -, -⟩ := out_wire c peer
  have hrep := reports_wire c hop _ cl me.got (hout ▸ h.mine.got)
  rcases reader_ended c me h1 h2 hf with hr | hr | hr | ⟨e, hr⟩
  · obtain ⟨gs, b, e, -, -, -⟩ := arrive_form hop h.mine hr ((peer.out c).length)
    rw [hs] at e
    obtain ⟨k, hk⟩ := h.mine.got
    have e' := congrArg Side.got (Cpp.ok.inj e)
    simp only [← hk, List.drop_append_of_le_length (Nat.le_refl _), List.drop_length, List.nil_append,
      List.length_append] at e'
    rw [List.take_of_length_le (by omega)] at e'
    have : k = [] := by
      have := congrArg List.length e'
      simp only [List.length_append] at this
      exact List.eq_nil_of_length_eq_zero (by omega)
    rw [Arrived, ← hk, this, List.append_nil]
  · -- the close frame was read
    have hm : In.readClose ∈ me.ins.filter isRead := List.mem_filter.2 ⟨hr, rfl⟩
    have hst : (Ws.run c.hw [] me.got).2 ≠ .waiting := by
      intro hw
      have hr' := h.mine.rep
      unfold reports at hr'
      generalize Ws.run c.hw [] me.got = q at hr' hw
      obtain ⟨es, st⟩ := q
      simp only at hw
      subst hw
      rw [← Option.some.inj hr'] at hm
      obtain ⟨e, -, he⟩ := List.mem_map.1 hm
      cases e <;> cases he
    rw [Arrived, hout]
    exact run_before_end c.hw c.op hop _ cl me.got (hout ▸ h.mine.got) hst
  · have hm : In.readBad ∈ me.ins.filter isRead := List.mem_filter.2 ⟨hr, rfl⟩
    rw [h.mine.rep] at hrep
    rcases hrep with ⟨gs, -, he⟩ | ⟨-, he⟩
    · rw [Option.some.inj he] at hm; simp at hm
    · rw [Option.some.inj he] at hm; simp at hm
  · exact absurd hr (hl e)

/-- The input an act of the user or the network is. -/
def asIn : Act → Option (In Msg)
  | .send m => some (.send m) | .close => some .close | .start => some .start | .stop => some .stop
  | .wrote => some .wrote | .writeFailed e => some (.writeFailed e) | .lost e => some (.readError e)
  | .arrive _ => none

theorem act_from {c : Conf} (hop : c.op = opText ∨ c.op = opBinary) {me peer me' : Side}
    (h : Pair c me peer) (x : Act) (e : act c me peer x = .ok me') :
    ∀ i ∈ me'.ins, i ∈ me.ins ∨ isRead i = true ∨ asIn x = some i := by
  cases x with
  | arrive k =>
    by_cases hr : (me.state c).reading = true
    · obtain ⟨gs, b, e', -, -, -⟩ := arrive_form hop h.mine hr k
      rw [e] at e'
      cases e'
      intro i hi
      rcases List.mem_append.1 hi with hi | hi
      · exact .inl hi
      · rw [← feed_filter] at hi
        exact .inr (.inl (List.mem_filter.1 hi).2)
    · simp only [act, hr] at e
      cases e
      exact fun i hi => .inl hi
  | wrote =>
    simp only [act] at e
    split at e <;> cases e
    · exact fun i hi => .inl hi
    · intro i hi
      rcases List.mem_append.1 hi with hi | hi
      · exact .inl hi
      · exact .inr (.inr (by simpa [asIn, eq_comm] using hi))
  | _ =>
    simp only [act, Cpp.ok.injEq] at e
    subst e
    intro i hi
    rcases List.mem_append.1 hi with hi | hi
    · exact .inl hi
    · exact .inr (.inr (by simpa [asIn, eq_comm] using hi))

/-- All inputs come from acts or from the reader. -/
theorem history_from {c : Conf} (hop : c.op = opText ∨ c.op = opBinary) :
    ∀ (xs : List (Bool × Act)) (n n' : Net), Pair c n.a n.b → history c n xs = .ok n' →
      (∀ i ∈ n'.a.ins, i ∈ n.a.ins ∨ isRead i = true ∨ ∃ x, (true, x) ∈ xs ∧ asIn x = some i)
      ∧ (∀ i ∈ n'.b.ins, i ∈ n.b.ins ∨ isRead i = true ∨ ∃ x, (false, x) ∈ xs ∧ asIn x = some i)
  | [], n, n', _, e => by
    simp only [history, Cpp.ok.injEq] at e
    subst e
    exact ⟨fun i hi => .inl hi, fun i hi => .inl hi⟩
  | (true, x) :: xs, n, n', hp, e => by
    obtain ⟨me, e1, hp', -⟩ := pair_act hop hp x
    simp only [history, step, e1, Cpp.map, Cpp.bind] at e
    obtain ⟨h1, h2⟩ := history_from hop xs _ n' hp' e
    refine ⟨fun i hi => ?_, fun i hi => ?_⟩
    · rcases h1 i hi with h | h | ⟨y, h, h'⟩
      · rcases act_from hop hp x e1 i h with h | h | h
        · exact .inl h
        · exact .inr (.inl h)
        · exact .inr (.inr ⟨x, by simp, h⟩)
      · exact .inr (.inl h)
      · exact .inr (.inr ⟨y, by simp [h], h'⟩)
    · rcases h2 i hi with h | h | ⟨y, h, h'⟩
      · exact .inl h
      · exact .inr (.inl h)
      · exact .inr (.inr ⟨y, by simp [h], h'⟩)
  | (false, x) :: xs, n, n', hp, e => by
    obtain ⟨me, e1, hp', -⟩ := pair_act hop hp.symm x
    simp only [history, step, e1, Cpp.map, Cpp.bind] at e
    obtain ⟨h1, h2⟩ := history_from hop xs _ n' hp'.symm e
    refine ⟨fun i hi => ?_, fun i hi => ?_⟩
    · rcases h1 i hi with h | h | ⟨y, h, h'⟩
      · exact .inl h
      · exact .inr (.inl h)
      · exact .inr (.inr ⟨y, by simp [h], h'⟩)
    · rcases h2 i hi with h | h | ⟨y, h, h'⟩
      · rcases act_from hop hp.symm x e1 i h with h | h | h
        · exact .inl h
        · exact .inr (.inl h)
        · exact .inr (.inr ⟨x, by simp, h⟩)
      · exact .inr (.inl h)
      · exact .inr (.inr ⟨y, by simp [h], h'⟩)

theorem connected_ins {c : Conf} (hop : c.op = opText ∨ c.op = opBinary) (xs : List (Bool × Act)) (n : Net)
    (e : talk c xs = .ok n) (hc : Connected xs) :
    (∀ e, In.readError e ∉ n.a.ins) ∧ (∀ e, In.readError e ∉ n.b.ins) := by
  obtain ⟨n0, e0, hp0, -⟩ := pair_talk hop (c := c) []
  simp only [talk, history, Cpp.ok.injEq] at e0
  subst e0
  obtain ⟨h1, h2⟩ := history_from hop xs _ n hp0 e
  have key : ∀ x er, asIn x = some (In.readError er) → x = .lost er := by
    intro x er h
    cases x <;> simp [asIn] at h
    subst h; rfl
  refine ⟨fun er hm => ?_, fun er hm => ?_⟩
  · rcases h1 _ hm with h | h | ⟨x, h, h'⟩
    · simp at h
    · cases h
    · rw [key x er h'] at h; exact hc _ _ h
  · rcases h2 _ hm with h | h | ⟨x, h, h'⟩
    · simp at h
    · cases h
    · rw [key x er h'] at h; exact hc _ _ h

theorem history_append (c : Conf) : ∀ (xs ys : List (Bool × Act)) (n : Net),
    history c n (xs ++ ys) = (history c n xs).bind fun n => history c n ys
  | [], ys, n => rfl
  | x :: xs, ys, n => by
    simp only [List.cons_append, history]
    cases step c n x with
    | ub => rfl
    | ok m => simp only [Cpp.bind]; exact history_append c xs ys m

/-- The network can finish. -/
theorem can_settle {c : Conf} (hop : c.op = opText ∨ c.op = opBinary) :
    ∀ (k : Nat) (n : Net), Pair c n.a n.b → NoFail n.a → NoFail n.b →
      (∀ ys, Busy c n ys → ys.length ≤ k) → ∃ ys n', Busy c n ys ∧ history c n ys = .ok n' ∧ Settled c n' := by
  intro k
  induction k with
  | zero =>
    intro n hp fa fb hk
    refine ⟨[], n, trivial, rfl, fun y hm => ?_⟩
    obtain ⟨n', e, -, -⟩ := pair_history hop [y] n hp
    have e' : step c n y = .ok n' := by
      simp only [history] at e
      cases hs : step c n y with
      | ub => rw [hs] at e; cases e
      | ok m => rw [hs] at e; exact e
    have := hk [y] ⟨hm, n', e', trivial⟩
    simp at this
  | succ k ih =>
    intro n hp fa fb hk
    by_cases hs : Settled c n
    · exact ⟨[], n, trivial, rfl, hs⟩
    · obtain ⟨y, hm⟩ : ∃ y, Moves c n y := by
        apply Classical.byContradiction
        intro h; exact hs fun y hy => h ⟨y, hy⟩
      obtain ⟨n', e, hp', hf⟩ := pair_history hop [y] n hp
      have e' : step c n y = .ok n' := by
        simp only [history] at e
        cases hs : step c n y with
        | ub => rw [hs] at e; cases e
        | ok m => rw [hs] at e; exact e
      have hsound : Sound [y] := by
        intro w er hw
        have : y = (w, .writeFailed er) := by simpa [eq_comm] using hw
        rw [this] at hm
        cases w <;> exact hm.elim
      obtain ⟨fa', fb'⟩ := hf hsound fa fb
      obtain ⟨ys, n'', hb, he, hset⟩ := ih n' hp' fa' fb' (fun ys hys => by
        have := hk (y :: ys) ⟨hm, n', e', hys⟩
        simpa using this)
      exact ⟨y :: ys, n'', ⟨hm, n', e', hb⟩, by simp only [history, e', Cpp.bind]; exact he, hset⟩

end Nbdl.Link
