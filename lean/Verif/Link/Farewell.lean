import Verif.Link.Props

/-!
# Users who take their leave (C136)

The program of `/repo/test/nbdl/websocket/endpoint.cpp`: each user sends its messages when the
endpoint is ready, the last of them a farewell, and closes when it is handed the farewell of the other.
-/

namespace Nbdl.Link
open Nbdl.Endpoint (St In Obs Frame Err Note)
open Nbdl.Ws (opText opBinary glue)

/-! ## Model -/

/-- One side of the two. -/
def Net.me (n : Net) (w : Bool) : Side := if w then n.a else n.b

/-- What the users do: the messages of each, `server_to_client_messages` and
`client_to_server_messages`, `endpoint.cpp` 183–197 (of the test), and the farewell, `"close"`, 133
and 169. -/
structure Plan where
  messages : Bool → List Msg
  bye : Msg

/-- What happens at one side. -/
inductive Ev
  /-- the endpoint becomes ready -/
  | ready
  /-- the write in flight succeeds -/
  | wrote
  /-- one more octet arrives -/
  | arrive

/-- One step of the program. When the endpoint is ready the user sends all messages and starts,
`endpoint.cpp` 120–127 and 155–162 (of the test); it becomes ready once. When the user is handed the
farewell it closes, 128–135 and 163–170: within the handler, that is before any other octet is looked
at. Simplification: octets arrive one by one; a larger piece is several of these in a row. `on_close`
and the other handlers, 136–138 and 171–173, only take note. -/
def react (c : Conf) (p : Plan) (n : Net) (w : Bool) : Ev → Cpp Net
  | .ready =>
    if In.start ∈ (n.me w).ins then .ok n
    else history c n ((p.messages w).map (fun m => (w, .send m)) ++ [(w, .start)])
  | .wrote => step c n (w, .wrote)
  | .arrive => (step c n (w, .arrive 1)).bind fun n' =>
    if p.bye ∈ (handedTo c (n'.me w)).drop (handedTo c (n.me w)).length then step c n' (w, .close)
    else .ok n'

/-- Any schedule. -/
def farewell (c : Conf) (p : Plan) (n : Net) : List (Bool × Ev) → Cpp Net
  | [] => .ok n
  | y :: ys => (react c p n y.1 y.2).bind fun n => farewell c p n ys

/-! ## Specification -/

/-- Each user ends with the farewell, and does not say it before; and no message has one of the
lengths of C05. -/
def Plan.Proper (p : Plan) : Prop :=
  ∀ w, (∃ l, p.messages w = l ++ [p.bye] ∧ p.bye ∉ l) ∧ ∀ m ∈ p.messages w, Fits m

/-- The endpoint of this side was ready. -/
def Ready (s : Side) : Prop := In.start ∈ s.ins

/-- What a user was told, message by message, and of the close. -/
def notes : List (Obs Msg) → List (Note Msg)
  | [] => []
  | .note k :: t => k :: notes t
  | _ :: t => notes t

/-- What the test expects of a side: all the messages of the other user, then one close,
`endpoint.cpp` 201–223 (of the test). -/
def AsExpected (c : Conf) (p : Plan) (n : Net) (w : Bool) : Prop :=
  notes ((n.me w).seen c) = (p.messages (!w)).map .message ++ [.close]

/-! ## One side -/

/-- The messages sent in inputs. -/
def sends (is : List (In Msg)) : List Msg :=
  is.filterMap fun | .send m => some m | _ => none

theorem sends_append (is js : List (In Msg)) : sends (is ++ js) = sends is ++ sends js := by
  simp [sends]

theorem sentBy_sends (c : Conf) (s : Side) (h : NoFail s) : sentBy c s = sends s.ins := by
  refine exec_induct c.conv (fun ins st t => (∀ e, In.writeFailed e ∉ ins) →
    st.broken = false ∧ Endpoint.Spec.accepted t = sends ins) (by simp [sends, Endpoint.Spec.accepted])
    ?_ s.ins h |>.2
  intro ins st t i hsh ih hn
  obtain ⟨h1, h2⟩ := ih (fun e he => hn e (by simp [he]))
  obtain ⟨-, -, f3⟩ := (step_facts c.conv st hsh.sinv i).sound (by rintro e rfl; exact hn e (by simp))
  refine ⟨by rw [f3]; exact h1, ?_⟩
  rw [Endpoint.accepted_append, h2, sends_append]
  congr 1
  by_cases hi : ∃ m, i = .send m
  · obtain ⟨m, rfl⟩ := hi
    simp [Endpoint.step, h1, Endpoint.Spec.accepted, accepted_start, sends]
  · rw [accepted_step c.conv st i (fun m hm => hi ⟨m, hm⟩)]
    cases i <;> simp [sends] at hi ⊢

/-- Only `send_close` asks for a close. -/
theorem noReq (conv : Bool) (s : St Msg) (i : In Msg) (hi : i ≠ .close) :
    .closeRequested ∉ (Endpoint.step conv s i).2 := by
  have hl : ∀ s : St Msg, .closeRequested ∉ (Endpoint.loop s).2 := by
    intro s
    unfold Endpoint.loop
    cases s.pending <;> cases s.queue <;> simp [St.write]
  have hq : ∀ s : St Msg, .closeRequested ∉ (Endpoint.startSendQueue s).2 := by
    intro s
    unfold Endpoint.startSendQueue
    split
    · simp
    · exact hl _
  have hh : ∀ (s : St Msg) (k : Note Msg), .closeRequested ∉ Endpoint.callHandler s k := by
    intro s k
    unfold Endpoint.callHandler
    split <;> simp
  unfold Endpoint.step
  split
  · simp
  cases i with
  | send m => simp [hq]
  | close => exact absurd rfl hi
  | start =>
    simp only
    split
    · split
      · exact hq _
      · simp
    · simp
  | stop => simp
  | wrote =>
    cases s.inflight with
    | none => simp
    | some f =>
      cases f with
      | data m => simp [Endpoint.onWrote, hl]
      | close =>
        simp only [Endpoint.onWrote]
        split <;> simp [hh]
      | pong => simp [Endpoint.onWrote]
  | writeFailed e =>
    cases s.inflight with
    | none => simp
    | some f => cases f <;> simp [Endpoint.onWriteFailed, hh]
  | readClose =>
    simp only
    split
    · simp only [Endpoint.onRead]
      split
      · simp [hh]
      · simp [hq]
    · simp
  | _ =>
    simp only
    split
    · simp [Endpoint.onRead, hh]
    · simp

theorem reading_start (c : Conf) (s : Side) (h : (s.state c).reading = true) : In.start ∈ s.ins := by
  refine exec_induct c.conv (fun ins st _ => st.reading = true → In.start ∈ ins) (by simp) ?_ s.ins h
  intro ins st t i _ ih hr
  by_cases hi : i = .start
  · subst hi; simp
  · refine List.mem_append_left _ (ih ?_)
    have hl : ∀ s : St Msg, (Endpoint.loop s).1.reading = s.reading := by
      intro s
      unfold Endpoint.loop
      cases s.pending <;> cases s.queue <;> simp [St.write]
    have hq : ∀ s : St Msg, (Endpoint.startSendQueue s).1.reading = s.reading := by
      intro s
      unfold Endpoint.startSendQueue
      split
      · rfl
      · rw [hl]
    unfold Endpoint.step at hr
    split at hr
    · exact hr
    cases i with
    | send m => simpa [hq] using hr
    | close => simpa [hq] using hr
    | start => exact absurd rfl hi
    | stop => exact hr
    | wrote =>
      revert hr
      cases st.inflight with
      | none => exact id
      | some f => cases f <;> simp [Endpoint.onWrote, hl]
    | writeFailed e =>
      revert hr
      cases st.inflight with
      | none => exact id
      | some f => cases f <;> simp [Endpoint.onWriteFailed]
    | _ =>
      simp only at hr
      split at hr
      · assumption
      · exact hr

theorem act_shape {c : Conf} (hop : c.op = opText ∨ c.op = opBinary) {me peer me' : Side}
    (h : Pair c me peer) (x : Act) (e : act c me peer x = .ok me') :
    ∃ js, me'.ins = me.ins ++ js ∧ ∀ i ∈ js, isRead i = true ∨ asIn x = some i := by
  cases x with
  | arrive k =>
    by_cases hr : (me.state c).reading = true
    · obtain ⟨gs, b, e', -, -, -⟩ := arrive_form hop h.mine hr k
      rw [e] at e'
      cases e'
      refine ⟨_, rfl, fun i hi => .inl ?_⟩
      rw [← feed_filter] at hi
      exact (List.mem_filter.1 hi).2
    · simp only [act, hr] at e
      cases e
      exact ⟨[], by simp, by simp⟩
  | wrote =>
    simp only [act] at e
    split at e <;> cases e
    · exact ⟨[], by simp, by simp⟩
    · exact ⟨_, rfl, by simp [asIn]⟩
  | _ =>
    simp only [act, Cpp.ok.injEq] at e
    subst e
    exact ⟨_, rfl, by simp [asIn]⟩

/-- What one user did. -/
structure Mind (p : Plan) (w : Bool) (s : Side) : Prop where
  form : (In.start ∉ s.ins ∧ ∀ i ∈ s.ins, i = .wrote)
    ∨ ∃ is js, s.ins = is ++ ((p.messages w).map .send ++ .start :: js) ∧ (∀ i ∈ is, i = In.wrote)
      ∧ ∀ i ∈ js, isRead i = true ∨ i = .wrote ∨ i = .close
  close : In.close ∈ s.ins ↔ p.bye ∈ msgs s.ins

theorem Mind.stop {p : Plan} {w : Bool} {s : Side} (h : Mind p w s) : In.stop ∉ s.ins := by
  intro hm
  rcases h.form with ⟨-, h⟩ | ⟨is, js, e, h1, h2⟩
  · cases h _ hm
  · rw [e] at hm
    simp only [List.mem_append, List.mem_map, List.mem_cons] at hm
    rcases hm with hm | ⟨m, -, hm⟩ | hm | hm
    · cases h1 _ hm
    · cases hm
    · cases hm
    · rcases h2 _ hm with h | h | h <;> cases h

theorem Mind.used {p : Plan} {w : Bool} {s : Side} (h : Mind p w s) (hr : Ready s) : Used s := by
  rcases h.form with ⟨h', -⟩ | ⟨is, js, e, h1, h2⟩
  · exact absurd hr h'
  · refine ⟨is ++ (p.messages w).map .send, js, by rw [e, List.append_assoc], ?_, h.stop⟩
    intro hm
    simp only [List.mem_append, List.mem_map] at hm
    rcases hm with hm | ⟨m, -, hm⟩
    · cases h1 _ hm
    · cases hm

theorem sends_none {l : List (In Msg)} (h : ∀ i ∈ l, isRead i = true ∨ i = .wrote ∨ i = .close) :
    sends l = [] := by
  rw [sends, List.filterMap_eq_nil_iff]
  intro i hi
  rcases h i hi with h | h | h
  · cases i <;> simp [isRead] at h ⊢
  · subst h; rfl
  · subst h; rfl

theorem msgs_none {l : List (In Msg)} (h : ∀ i ∈ l, isRead i = false) : msgs l = [] := by
  rw [msgs, List.filterMap_eq_nil_iff]
  intro i hi
  have := h i hi
  cases i <;> simp [isRead] at this ⊢

theorem msgs_append (is js : List (In Msg)) : msgs (is ++ js) = msgs is ++ msgs js := by simp [msgs]

theorem Mind.sent {p : Plan} {w : Bool} {s : Side} (h : Mind p w s) :
    sends s.ins = if In.start ∈ s.ins then p.messages w else [] := by
  rcases h.form with ⟨h', h1⟩ | ⟨is, js, e, h1, h2⟩
  · rw [if_neg h', sends_none (fun i hi => .inr (.inl (h1 i hi)))]
  · rw [if_pos (by rw [e]; simp), e, sends_append, sends_none (fun i hi => .inr (.inl (h1 i hi))),
      List.nil_append, sends_append]
    have h3 : sends (In.start :: js) = [] := by
      have := sends_none h2
      simpa [sends] using this
    rw [h3, List.append_nil]
    induction p.messages w with
    | nil => rfl
    | cons m l ih => simpa [sends] using ih

/-- The side gets more inputs, none of which is a call of the user. -/
theorem Mind.more {p : Plan} {w : Bool} {s s' : Side} (h : Mind p w s) {js : List (In Msg)}
    (e : s'.ins = s.ins ++ js) (hj : ∀ i ∈ js, isRead i = true ∨ i = .wrote ∨ i = .close)
    (hs : (∃ i ∈ js, i ≠ .wrote) → In.start ∈ s.ins)
    (hc : In.close ∈ s.ins ++ js ↔ p.bye ∈ msgs (s.ins ++ js)) : Mind p w s' := by
  refine ⟨?_, by rw [e]; exact hc⟩
  rcases h.form with ⟨h', h1⟩ | ⟨is, ks, e', h1, h2⟩
  · have hw : ∀ i ∈ js, i = .wrote := by
      intro i hi
      apply Classical.byContradiction
      intro hn
      exact h' (hs ⟨i, hi, hn⟩)
    refine .inl ⟨?_, ?_⟩
    · rw [e]
      intro hm
      rcases List.mem_append.1 hm with hm | hm
      · exact h' hm
      · cases hw _ hm
    · rw [e]
      intro i hi
      rcases List.mem_append.1 hi with hi | hi
      · exact h1 i hi
      · exact hw i hi
  · refine .inr ⟨is, ks ++ js, by rw [e, e']; simp [List.append_assoc], h1, ?_⟩
    intro i hi
    rcases List.mem_append.1 hi with hi | hi
    · exact h2 i hi
    · exact hj i hi

/-! ## Both -/

/-- The state of the program after any schedule. -/
structure Course (c : Conf) (p : Plan) (n : Net) : Prop where
  run : ∃ xs, talk c xs = .ok n ∧ Sound xs ∧ Connected xs
  mind : ∀ w, Mind p w (n.me w)

theorem me_step {c : Conf} {n n' : Net} {w : Bool} {x : Act} (e : step c n (w, x) = .ok n') :
    act c (n.me w) (n.me (!w)) x = .ok (n'.me w) ∧ n'.me (!w) = n.me (!w) := by
  cases w
  · simp only [step] at e
    cases ha : act c n.b n.a x with
    | ub => rw [ha] at e; cases e
    | ok s => rw [ha] at e; cases e; exact ⟨ha, rfl⟩
  · simp only [step] at e
    cases ha : act c n.a n.b x with
    | ub => rw [ha] at e; cases e
    | ok s => rw [ha] at e; cases e; exact ⟨ha, rfl⟩

theorem pair_me {c : Conf} {n : Net} (h : Pair c n.a n.b) (w : Bool) : Pair c (n.me w) (n.me (!w)) := by
  cases w
  · exact h.symm
  · exact h

theorem Course.pair {c : Conf} (hop : c.op = opText ∨ c.op = opBinary) {p : Plan} {n : Net}
    (h : Course c p n) (w : Bool) : Pair c (n.me w) (n.me (!w)) ∧ NoFail (n.me w) := by
  obtain ⟨xs, e, hs, -⟩ := h.run
  obtain ⟨n', e', hp, hf⟩ := pair_talk hop xs
  rw [e] at e'
  cases e'
  refine ⟨pair_me hp w, ?_⟩
  cases w
  · exact (hf hs).2
  · exact (hf hs).1

theorem Course.handed {c : Conf} (hop : c.op = opText ∨ c.op = opBinary) {p : Plan} {n : Net}
    (h : Course c p n) (w : Bool) : handedTo c (n.me w) = msgs (n.me w).ins := by
  obtain ⟨hp, hf⟩ := h.pair hop w
  exact hp.mine.all (notStopped c _ (h.mind w).stop) (noFail c _ hf).2.2

/-- More of the history. -/
theorem run_more {c : Conf} {n n' : Net} {ys : List (Bool × Act)}
    (h : ∃ xs, talk c xs = .ok n ∧ Sound xs ∧ Connected xs) (e : history c n ys = .ok n')
    (hs : Sound ys) (hc : Connected ys) : ∃ xs, talk c xs = .ok n' ∧ Sound xs ∧ Connected xs := by
  obtain ⟨xs, h1, h2, h3⟩ := h
  refine ⟨xs ++ ys, ?_, ?_, ?_⟩
  · rw [talk, history_append]
    change (talk c xs).bind _ = _
    rw [h1]; exact e
  · intro w e' hm
    rcases List.mem_append.1 hm with hm | hm
    · exact h2 w e' hm
    · exact hs w e' hm
  · intro w e' hm
    rcases List.mem_append.1 hm with hm | hm
    · exact h3 w e' hm
    · exact hc w e' hm

theorem history_one (c : Conf) (n : Net) (y : Bool × Act) : history c n [y] = step c n y := by
  simp only [history]
  cases step c n y <;> rfl

theorem sends_history (c : Conf) (w : Bool) : ∀ (l : List Msg) (n : Net),
    ∃ n', history c n (l.map (fun m => (w, .send m)) ++ [(w, .start)]) = .ok n'
      ∧ (n'.me w).ins = (n.me w).ins ++ (l.map .send ++ [.start]) ∧ n'.me (!w) = n.me (!w)
  | [], n => by
    cases w <;> exact ⟨_, rfl, rfl, rfl⟩
  | m :: l, n => by
    cases w
    · obtain ⟨n', e, h1, h2⟩ := sends_history c false l { n with b := { n.b with ins := n.b.ins ++ [.send m] } }
      refine ⟨n', e, ?_, h2⟩
      rw [h1]
      simp [Net.me]
    · obtain ⟨n', e, h1, h2⟩ := sends_history c true l { n with a := { n.a with ins := n.a.ins ++ [.send m] } }
      refine ⟨n', e, ?_, h2⟩
      rw [h1]
      simp [Net.me]

theorem minds {p : Plan} {n n' : Net} (w : Bool) (h1 : Mind p w (n'.me w)) (h2 : n'.me (!w) = n.me (!w))
    (h : ∀ w, Mind p w (n.me w)) : ∀ v, Mind p v (n'.me v) := by
  intro v
  by_cases hv : v = w
  · subst hv; exact h1
  · have : v = !w := by cases v <;> cases w <;> simp_all
    subst this
    rw [h2]; exact h _

theorem sends_got (c : Conf) (w : Bool) : ∀ (l : List Msg) (n n' : Net),
    history c n (l.map (fun m => (w, .send m)) ++ [(w, .start)]) = .ok n' → (n'.me w).got = (n.me w).got
  | [], n, n', h => by
    cases w <;> (cases h; rfl)
  | m :: l, n, n', h => by
    cases w
    · exact sends_got c false l { n with b := { n.b with ins := n.b.ins ++ [.send m] } } n' h
    · exact sends_got c true l { n with a := { n.a with ins := n.a.ins ++ [.send m] } } n' h

theorem react_course {c : Conf} (hop : c.op = opText ∨ c.op = opBinary) (p : Plan) {n : Net}
    (h : Course c p n) (w : Bool) (y : Ev) : ∃ n', react c p n w y = .ok n' ∧ Course c p n' := by
  obtain ⟨hp, hf⟩ := h.pair hop w
  have total : ∀ (n : Net), Course c p n → ∀ x, ∃ n', step c n (w, x) = .ok n' := by
    intro n h x
    obtain ⟨hp, -⟩ := h.pair hop w
    obtain ⟨me, e, -⟩ := pair_act hop hp x
    cases w
    · exact ⟨_, by simp only [step]; rw [show act c n.b n.a x = .ok me from e]; rfl⟩
    · exact ⟨_, by simp only [step]; rw [show act c n.a n.b x = .ok me from e]; rfl⟩
  cases y with
  | ready =>
    simp only [react]
    by_cases hst : In.start ∈ (n.me w).ins
    · exact ⟨n, if_pos hst, h⟩
    · obtain ⟨n', e, h1, h2⟩ := sends_history c w (p.messages w) n
      refine ⟨n', by rw [if_neg hst, e], run_more h.run e ?_ ?_, minds w ?_ h2 h.mind⟩
      · intro v er hm
        simp at hm
      · intro v er hm
        simp at hm
      · have hall : ∀ i ∈ (n.me w).ins, i = .wrote := by
          rcases (h.mind w).form with ⟨-, h⟩ | ⟨is, js, e, -, -⟩
          · exact h
          · exact absurd (by rw [e]; simp) hst
        refine ⟨.inr ⟨(n.me w).ins, [], h1, hall, by simp⟩, ?_⟩
        have hm : msgs (n'.me w).ins = [] := by
          rw [h1]
          apply msgs_none
          intro i hi
          simp only [List.mem_append, List.mem_map, List.mem_cons, List.not_mem_nil, or_false] at hi
          rcases hi with hi | ⟨m, -, rfl⟩ | rfl
          · rw [hall i hi]; rfl
          · rfl
          · rfl
        rw [hm, h1]
        simp only [List.mem_append, List.mem_map, List.mem_cons, List.not_mem_nil, or_false, iff_false]
        rintro (hi | ⟨m, -, hi⟩ | hi)
        · cases hall _ hi
        · cases hi
        · cases hi
  | wrote =>
    obtain ⟨n', e⟩ := total n h .wrote
    obtain ⟨ea, h2⟩ := me_step e
    obtain ⟨js, hj, hjs⟩ := act_shape hop hp _ ea
    refine ⟨n', e, run_more h.run ((history_one c n _).trans e) (by intro v er hm; simp at hm)
      (by intro v er hm; simp at hm), minds w ?_ h2 h.mind⟩
    have hw : ∀ i ∈ js, i = .wrote := by
      simp only [act] at ea
      intro i hi
      split at ea
      · simp only [Cpp.ok.injEq] at ea
        rw [← ea] at hj
        have : js = [] := by simpa using hj
        rw [this] at hi; cases hi
      · simp only [Cpp.ok.injEq] at ea
        rw [← ea] at hj
        have : [In.wrote] = js := List.append_cancel_left hj
        rw [← this] at hi
        simpa using hi
    refine (h.mind w).more hj (fun i hi => .inr (.inl (hw i hi))) ?_ ?_
    · rintro ⟨i, hi, hn⟩
      exact absurd (hw i hi) hn
    · rw [msgs_append, msgs_none (l := js) (fun i hi => by rw [hw i hi]; rfl), List.append_nil,
        ← (h.mind w).close]
      simp only [List.mem_append, or_iff_left_iff_imp]
      intro hm
      cases hw _ hm
  | arrive =>
    obtain ⟨n', e⟩ := total n h (.arrive 1)
    obtain ⟨ea, h2⟩ := me_step e
    obtain ⟨js, hj, hjs⟩ := act_shape hop hp _ ea
    have hr : ∀ i ∈ js, isRead i = true := by
      intro i hi
      rcases hjs i hi with h | h
      · exact h
      · cases h
    have hst : js ≠ [] → In.start ∈ (n.me w).ins := by
      intro hn
      apply reading_start c
      apply Classical.byContradiction
      intro hre
      simp only [act, hre] at ea
      simp only [Bool.false_eq_true, if_false, Cpp.ok.injEq] at ea
      rw [← ea] at hj
      exact hn (by simpa using hj)
    have hnc : In.close ∉ js := fun hm => by cases hr _ hm
    have hrun := run_more h.run ((history_one c n _).trans e) (by intro v er hm; simp at hm)
      (by intro v er hm; simp at hm)
    -- what was handed over
    obtain ⟨xs, t1, t2, -⟩ := id hrun
    obtain ⟨n2, t3, hp2, hf2⟩ := pair_talk hop xs
    rw [t1] at t3
    cases t3
    have hstop : In.stop ∉ (n'.me w).ins := by
      rw [hj]
      intro hm
      rcases List.mem_append.1 hm with hm | hm
      · exact (h.mind w).stop hm
      · cases hr _ hm
    have hfw : NoFail (n'.me w) := by
      cases w
      · exact (hf2 t2).2
      · exact (hf2 t2).1
    have hh : handedTo c (n'.me w) = msgs (n.me w).ins ++ msgs js := by
      rw [(pair_me hp2 w).mine.all (notStopped c _ hstop) (noFail c _ hfw).2.2, hj, msgs_append]
    have hd : (handedTo c (n'.me w)).drop (handedTo c (n.me w)).length = msgs js := by
      rw [hh, h.handed hop w, List.drop_left]
    simp only [react, e, Cpp.bind, hd]
    by_cases hb : p.bye ∈ msgs js
    · rw [if_pos hb]
      have hjn : js ≠ [] := by rintro rfl; cases hb
      obtain ⟨n3, e3, h3⟩ : ∃ n3, step c n' (w, .close) = .ok n3
          ∧ (n3.me w).ins = (n'.me w).ins ++ [.close] := by
        cases w <;> exact ⟨_, rfl, rfl⟩
      refine ⟨n3, e3, run_more hrun ((history_one c n' _).trans e3) (by intro v er hm; simp at hm)
        (by intro v er hm; simp at hm), minds w ?_ ((me_step e3).2.trans h2) h.mind⟩
      refine (h.mind w).more (js := js ++ [.close]) (by rw [h3, hj, List.append_assoc]) ?_
        (fun _ => hst hjn) ?_
      · intro i hi
        simp only [List.mem_append, List.mem_singleton] at hi
        rcases hi with hi | hi
        · exact .inl (hr i hi)
        · exact .inr (.inr hi)
      · rw [msgs_append, msgs_append]
        simp [hb]
    · rw [if_neg hb]
      refine ⟨n', rfl, hrun, minds w ?_ h2 h.mind⟩
      refine (h.mind w).more hj (fun i hi => .inl (hr i hi)) ?_ ?_
      · rintro ⟨i, hi, -⟩
        exact hst (by rintro rfl; cases hi)
      · rw [msgs_append]
        simp only [List.mem_append]
        rw [← (h.mind w).close]
        simp [hb, hnc]

theorem course_start (c : Conf) (p : Plan) : Course c p {} := by
  refine ⟨⟨[], rfl, (by intro w e h; cases h), (by intro w e h; cases h)⟩, fun w => ?_⟩
  cases w
  · exact ⟨.inl ⟨by simp [Net.me], by simp [Net.me]⟩, by simp [Net.me, msgs]⟩
  · exact ⟨.inl ⟨by simp [Net.me], by simp [Net.me]⟩, by simp [Net.me, msgs]⟩

theorem farewell_course {c : Conf} (hop : c.op = opText ∨ c.op = opBinary) (p : Plan) :
    ∀ (ys : List (Bool × Ev)) (n : Net), Course c p n → ∃ n', farewell c p n ys = .ok n' ∧ Course c p n'
  | [], n, h => ⟨n, rfl, h⟩
  | (w, y) :: ys, n, h => by
    obtain ⟨n1, e, h1⟩ := react_course hop p h w y
    obtain ⟨n2, e2, h2⟩ := farewell_course hop p ys n1 h1
    exact ⟨n2, by simp only [farewell, e, Cpp.bind]; exact e2, h2⟩

/-! ## The program comes to an end -/

/-- Something happens at a side: it becomes ready, the write in flight succeeds, an octet arrives. -/
def EvMoves (c : Conf) (n : Net) (w : Bool) : Ev → Prop
  | .ready => ¬ Ready (n.me w)
  | .wrote => ¬ Idle c (n.me w)
  | .arrive => step c n (w, .arrive 1) ≠ .ok n

/-- A schedule in which every step does something. -/
def Going (c : Conf) (p : Plan) : Net → List (Bool × Ev) → Prop
  | _, [] => True
  | n, y :: ys => EvMoves c n y.1 y.2 ∧ ∃ n', react c p n y.1 y.2 = .ok n' ∧ Going c p n' ys

/-- What is left to do for both. -/
def work (c : Conf) (n : Net) (w : Bool) : Nat :=
  left c (n.me w) (n.me (!w)) + left c (n.me (!w)) (n.me w)

theorem work_not (c : Conf) (n : Net) (w : Bool) : work c n (!w) = work c n w := by
  simp only [work, Bool.not_not]; omega

theorem work_any (c : Conf) (n : Net) (w v : Bool) : work c n w = work c n v := by
  by_cases h : w = v
  · rw [h]
  · have : w = !v := by cases v <;> cases w <;> simp_all
    rw [this, work_not]

theorem left_close (c : Conf) (me peer : Side) :
    left c ⟨me.ins ++ [.close], me.got⟩ peer ≤ left c me peer
    ∧ left c peer ⟨me.ins ++ [.close], me.got⟩ = left c peer me := by
  refine ⟨?_, rfl⟩
  have hs : sentBy c ⟨me.ins ++ [.close], me.got⟩ = sentBy c me :=
    sent_same c me.ins [.close] me.got me.got (by simp)
  simp only [left, total]
  rw [hs]
  have : (wroteAll (me.seen c)).length ≤ (wroteAll (Side.seen c ⟨me.ins ++ [.close], me.got⟩)).length := by
    simp only [Side.seen, trace_append, wroteAll_append, List.length_append]
    omega
  omega

theorem step_same {c : Conf} {n : Net} {w : Bool} {x : Act} {s : Side}
    (e : act c (n.me w) (n.me (!w)) x = .ok s) : step c n (w, x) = .ok n ↔ s = n.me w := by
  obtain ⟨a, b⟩ := n
  cases w
  · have e' : act c b a x = .ok s := e
    simp [step, e', Cpp.map, Cpp.bind, Net.me]
  · have e' : act c a b x = .ok s := e
    simp [step, e', Cpp.map, Cpp.bind, Net.me]

/-- If octets are on the way, one of them can arrive. -/
theorem arrive_one {c : Conf} (hop : c.op = opText ∨ c.op = opBinary) {me peer : Side}
    (h : Pair c me peer) (k : Nat) (hm : act c me peer (.arrive k) ≠ .ok me) :
    act c me peer (.arrive 1) ≠ .ok me := by
  by_cases hr : (me.state c).reading = true
  · intro h1
    obtain ⟨gs, b, e, -, -, -⟩ := arrive_form hop h.mine hr 1
    rw [h1] at e
    have hgot := congrArg (fun r : Cpp Side => match r with | .ok s => s.got.length | .ub => 0) e
    simp only [List.length_append] at hgot
    have hlen : (((peer.out c).drop me.got.length).take 1).length = 0 := by omega
    have hnil : (peer.out c).drop me.got.length = [] := by
      cases hd : (peer.out c).drop me.got.length with
      | nil => rfl
      | cons x l => rw [hd] at hlen; simp at hlen
    apply hm
    simp only [act, if_pos hr]
    rw [hnil, List.take_nil, List.append_nil, h.mine.rep]
    simp
  · exact absurd (by simp [act, hr]) hm

theorem react_work {c : Conf} (hop : c.op = opText ∨ c.op = opBinary) {p : Plan} {n : Net}
    (h : Course c p n) {w : Bool} {y : Ev} (hy : y ≠ .ready) (hm : EvMoves c n w y) :
    ∃ n', react c p n w y = .ok n' ∧ Course c p n' ∧ (∀ v, Ready (n.me v) → Ready (n'.me v))
      ∧ work c n' w < work c n w := by
  obtain ⟨hp, hf⟩ := h.pair hop w
  obtain ⟨n', e, hc'⟩ := react_course hop p h w y
  have keep : ∀ {m m' : Net} {x : Act}, Pair c (m.me w) (m.me (!w)) →
      step c m (w, x) = .ok m' → ∀ v, Ready (m.me v) → Ready (m'.me v) := by
    intro m m' x hp e v hr
    obtain ⟨ea, h2⟩ := me_step e
    by_cases hv : v = w
    · subst hv
      obtain ⟨js, hj, -⟩ := act_shape hop hp _ ea
      rw [Ready, hj]
      exact List.mem_append_left _ hr
    · have : v = !w := by cases v <;> cases w <;> simp_all
      subst this
      rw [h2]; exact hr
  cases y with
  | ready => exact absurd rfl hy
  | wrote =>
    have e0 : step c n (w, .wrote) = .ok n' := e
    refine ⟨n', e, hc', keep hp e0, ?_⟩
    obtain ⟨ea, h2⟩ := me_step e0
    obtain ⟨e1, l1, l2⟩ := left_wrote (peer := n.me (!w)) hf hm
    rw [ea] at e1
    simp only [Cpp.ok.injEq] at e1
    rw [work, work, h2, e1]
    omega
  | arrive =>
    have hm' : act c (n.me w) (n.me (!w)) (.arrive 1) ≠ .ok (n.me w) := by
      intro e1
      exact hm ((step_same e1).2 rfl)
    obtain ⟨me, e1, l1, l2⟩ := left_arrive hop hp 1 hm'
    obtain ⟨n1, es⟩ : ∃ n1, step c n (w, .arrive 1) = .ok n1 := by
      cases w
      · exact ⟨_, by simp only [step]; rw [show act c n.b n.a (.arrive 1) = .ok me from e1]; rfl⟩
      · exact ⟨_, by simp only [step]; rw [show act c n.a n.b (.arrive 1) = .ok me from e1]; rfl⟩
    obtain ⟨ea, h2⟩ := me_step es
    rw [e1] at ea
    simp only [Cpp.ok.injEq] at ea
    have hr1 := keep hp es
    have hw1 : work c n1 w < work c n w := by
      rw [work, work, h2, ← ea]
      omega
    refine ⟨n', e, hc', ?_⟩
    simp only [react, es, Cpp.bind] at e
    split at e
    · obtain ⟨eb, h3⟩ := me_step e
      have hn' : n'.me w = ⟨(n1.me w).ins ++ [.close], (n1.me w).got⟩ := by
        simp only [act, Cpp.ok.injEq] at eb
        exact eb.symm
      refine ⟨fun v hr => ?_, ?_⟩
      · by_cases hv : v = w
        · subst hv
          rw [Ready, hn']
          exact List.mem_append_left _ (hr1 v hr)
        · have : v = !w := by cases v <;> cases w <;> simp_all
          subst this
          rw [h3]; exact hr1 _ hr
      · obtain ⟨l3, l4⟩ := left_close c (n1.me w) (n1.me (!w))
        have hw2 : work c n' w ≤ work c n1 w := by
          rw [work, work, h3, hn']
          omega
        omega
    · simp only [Cpp.ok.injEq] at e
      subst e
      exact ⟨hr1, hw1⟩

/-- What there will be left to do for a user's messages, when they are sent. -/
def cost (c : Conf) (p : Plan) (w : Bool) : Nat :=
  ((p.messages w).map fun m => (octets c.op (.data m)).length).sum + (p.messages w).length + 1

def owed (c : Conf) (p : Plan) (n : Net) (w : Bool) : Nat := if In.start ∈ (n.me w).ins then 0 else cost c p w

/-- What is left to do for both, with what they will send. -/
def effort (c : Conf) (p : Plan) (n : Net) : Nat := work c n true + owed c p n true + owed c p n false

theorem owed_less {c : Conf} {p : Plan} {n n' : Net} {v : Bool} (h : Ready (n.me v) → Ready (n'.me v)) :
    owed c p n' v ≤ owed c p n v := by
  unfold owed
  by_cases hr : In.start ∈ (n.me v).ins
  · have hr' : In.start ∈ (n'.me v).ins := h hr
    rw [if_pos hr, if_pos hr']
    exact Nat.le_refl _
  · rw [if_neg hr]
    split <;> omega

theorem left_ready {c : Conf} {p : Plan} {w : Bool} {me me' peer : Side} (hf : NoFail me)
    (h : me'.ins = me.ins ++ ((p.messages w).map .send ++ [.start])) (hg : me'.got = me.got) :
    left c me' peer + 1 ≤ left c me peer + cost c p w ∧ left c peer me' = left c peer me := by
  have hf' : NoFail me' := by
    intro e hm
    rw [h] at hm
    simp only [List.mem_append, List.mem_map, List.mem_singleton] at hm
    rcases hm with hm | ⟨m, -, hm⟩ | hm
    · exact hf e hm
    · cases hm
    · cases hm
  have hs : sentBy c me' = sentBy c me ++ p.messages w := by
    rw [sentBy_sends c _ hf', sentBy_sends c _ hf, h, sends_append, sends_append]
    have : sends ((p.messages w).map In.send) = p.messages w := by
      induction p.messages w with
      | nil => rfl
      | cons m l ih => exact congrArg (m :: ·) ih
    rw [this]
    simp [sends]
  have hw : (wroteAll (me.seen c)).length ≤ (wroteAll (me'.seen c)).length := by
    simp only [Side.seen, h, trace_append, wroteAll_append, List.length_append]
    omega
  refine ⟨?_, by simp only [left, hg]⟩
  simp only [left, total, cost, hs, List.map_append, List.sum_append, List.length_append]
  omega

theorem react_effort {c : Conf} (hop : c.op = opText ∨ c.op = opBinary) {p : Plan} {n : Net}
    (h : Course c p n) {w : Bool} {y : Ev} (hm : EvMoves c n w y) :
    ∃ n', react c p n w y = .ok n' ∧ Course c p n' ∧ (∀ v, Ready (n.me v) → Ready (n'.me v))
      ∧ effort c p n' < effort c p n := by
  by_cases hy : y = .ready
  · subst hy
    obtain ⟨n', e, hc'⟩ := react_course hop p h w .ready
    have hst : In.start ∉ (n.me w).ins := hm
    simp only [react, if_neg hst] at e
    obtain ⟨n2, e2, h1, h2⟩ := sends_history c w (p.messages w) n
    rw [e] at e2
    cases e2
    have hg : (n'.me w).got = (n.me w).got := sends_got c w _ _ _ e
    obtain ⟨l1, l2⟩ := left_ready (c := c) (peer := n.me (!w)) (h.pair hop w).2 h1 hg
    have hr' : In.start ∈ (n'.me w).ins := by rw [h1]; simp
    have hk : ∀ v, Ready (n.me v) → Ready (n'.me v) := by
      intro v hv
      by_cases hvw : v = w
      · subst hvw; exact hr'
      · have : v = !w := by cases v <;> cases w <;> simp_all
        subst this
        rw [h2]; exact hv
    refine ⟨n', by simp only [react, if_neg hst]; exact e, hc', hk, ?_⟩
    have o1 : owed c p n' w = 0 := if_pos hr'
    have o2 : owed c p n w = cost c p w := if_neg hst
    have o3 : owed c p n' (!w) = owed c p n (!w) := by unfold owed; rw [h2]
    have hw : work c n' w + 1 ≤ work c n w + cost c p w := by
      rw [work, work, h2]
      omega
    unfold effort
    rw [work_any c n' true w, work_any c n true w]
    cases w
    · have o3 : owed c p n' true = owed c p n true := o3
      omega
    · have o3 : owed c p n' false = owed c p n false := o3
      omega
  · obtain ⟨n', e, hc', hk, hw⟩ := react_work hop h hy hm
    refine ⟨n', e, hc', hk, ?_⟩
    have o1 : owed c p n' true ≤ owed c p n true := owed_less (hk true)
    have o2 : owed c p n' false ≤ owed c p n false := owed_less (hk false)
    unfold effort
    rw [work_any c n' true w, work_any c n true w]
    omega

theorem going_bound {c : Conf} (hop : c.op = opText ∨ c.op = opBinary) (p : Plan) :
    ∀ (ys : List (Bool × Ev)) (n : Net), Course c p n → Going c p n ys → ys.length ≤ effort c p n
  | [], _, _, _ => Nat.zero_le _
  | (w, y) :: ys, n, h, ⟨hm, n1, e1, hg⟩ => by
    obtain ⟨n', e, h', -, hw⟩ := react_effort hop h hm
    simp only at e1
    rw [e] at e1
    simp only [Cpp.ok.injEq] at e1
    subst e1
    have := going_bound hop p ys n' h' hg
    rw [List.length_cons]
    omega

theorem unsettled {c : Conf} (hop : c.op = opText ∨ c.op = opBinary) {p : Plan} {n : Net}
    (h : Course c p n) (hn : ¬ Settled c n) : ∃ w y, EvMoves c n w y := by
  apply Classical.byContradiction
  intro hno
  apply hn
  rintro ⟨w, x⟩ hm
  cases x with
  | wrote =>
    refine hno ⟨w, .wrote, ?_⟩
    cases w
    · exact hm
    · exact hm
  | arrive k =>
    refine hno ⟨w, .arrive, fun e => ?_⟩
    have hp := (h.pair hop w).1
    obtain ⟨s, es, -⟩ := pair_act hop hp (.arrive k)
    obtain ⟨s1, es1, -⟩ := pair_act hop hp (.arrive 1)
    have hm' : step c n (w, .arrive k) ≠ .ok n := by cases w <;> exact hm
    refine arrive_one hop hp k (fun e2 => hm' ?_) ?_
    · exact (step_same e2).2 rfl
    · rw [es1, (step_same es1).1 e]
  | _ => cases w <;> exact hm

theorem can_end {c : Conf} (hop : c.op = opText ∨ c.op = opBinary) (p : Plan) :
    ∀ (k : Nat) (n : Net), effort c p n ≤ k → Course c p n →
      ∃ ys n', Going c p n ys ∧ farewell c p n ys = .ok n' ∧ Settled c n' ∧ ∀ w, Ready (n'.me w)
  | k, n, hk, h => by
    by_cases hs : Settled c n ∧ ∀ w, Ready (n.me w)
    · exact ⟨[], n, trivial, rfl, hs.1, hs.2⟩
    · obtain ⟨w, y, hm⟩ : ∃ w y, EvMoves c n w y := by
        by_cases hs1 : Settled c n
        · obtain ⟨w, hw⟩ := Classical.not_forall.1 (fun hr => hs ⟨hs1, hr⟩)
          exact ⟨w, .ready, hw⟩
        · exact unsettled hop h hs1
      obtain ⟨n1, e, h1, -, hw⟩ := react_effort hop h hm
      cases k with
      | zero => omega
      | succ k =>
        obtain ⟨ys, n2, hg, e2, hs2, hr2⟩ := can_end hop p k n1 (by omega) h1
        exact ⟨(w, y) :: ys, n2, ⟨hm, n1, e, hg⟩, by simp only [farewell, e, Cpp.bind]; exact e2, hs2, hr2⟩

theorem farewell_append (c : Conf) (p : Plan) : ∀ (xs ys : List (Bool × Ev)) (n : Net),
    farewell c p n (xs ++ ys) = (farewell c p n xs).bind fun n => farewell c p n ys
  | [], ys, n => rfl
  | x :: xs, ys, n => by
    simp only [List.cons_append, farewell]
    cases react c p n x.1 x.2 with
    | ub => rfl
    | ok m => simp only [Cpp.bind]; exact farewell_append c p xs ys m

end Nbdl.Link
