import Verif.Session.Farewell

/-!
# Users who take their leave, from the first octet on (C144)
-/

namespace Nbdl.Session
open Nbdl.Link (Side Act Net Msg Plan handedTo plan)
open Nbdl.Handshake
open Nbdl.Endpoint (In Obs Note)

/-- C144: whatever the network does, the program of the two users is defined; the server is told
nothing by the handshake but, once, that it is ready, with the token of the client, the client nothing but,
once, that it is ready, and neither is told of a bad request afterwards. -/
theorem program_sane (k : Conf) (hk : Polite k) (p : Plan) (ys : List (Bool × Happen)) :
    ∃ st, program k p {} ys = .ok st
      ∧ (st.server.told = [] ∨ st.server.told = [.ready k.token])
      ∧ (st.client.told = [] ∨ st.client.told = [.ready []])
      ∧ ∀ w, .ub ∉ (st.me w).side.seen k.link ∧ .note .badRequest ∉ (st.me w).side.seen k.link := by
  obtain ⟨st, e, h⟩ := program_sim hk p ys {} (sim_start k hk p)
  refine ⟨st, e, ?_, ?_, fun w => ?_⟩
  · have : st.server.told = if readyAt k st false then [.ready k.token] else [] := h.news false
    rw [this]
    cases readyAt k st false <;> simp
  · have : st.client.told = if readyAt k st true then [.ready []] else [] := h.news true
    rw [this]
    cases readyAt k st true <;> simp
  · obtain ⟨zs, hz⟩ := h.run
    obtain ⟨n, en, hn⟩ := Link.farewell_sane k.link hk.op p zs
    rw [hz] at en
    cases en
    rw [← net_me]
    exact hn w

/-- C144, in part: when nothing is left to do, both users were told that they are ready, the server with the
token of the client, then of messages and then of the close, once or twice, and of nothing else; each was
handed a beginning of the other's messages — exactly those which were written —, everyone who called
`send_close` was handed all of them, and at least one did. Missing: that both were handed all of them, and that both were told of the close only once; see
`program_lost_violated` and `program_twice_violated`. -/
theorem program_partial (k : Conf) (hk : Polite k) (p : Plan) (hp : p.Proper) (ys : List (Bool × Happen)) (st : St)
    (e : program k p {} ys = .ok st) (hr : AtRest k st) :
    st.server.told = [.ready k.token] ∧ st.client.told = [.ready []]
    ∧ (∀ w, (∃ n, (n = 1 ∨ n = 2) ∧ Link.notes ((st.me w).side.seen k.link)
        = (handedTo k.link (st.me w).side).map .message ++ List.replicate n .close)
      ∧ handedTo k.link (st.me w).side <+: p.messages (!w)
      ∧ handedTo k.link (st.me w).side = Endpoint.Spec.written ((st.me (!w)).side.seen k.link)
      ∧ (.closeRequested ∈ (st.me w).side.seen k.link → handedTo k.link (st.me w).side = p.messages (!w)))
    ∧ ∃ w, handedTo k.link (st.me w).side = p.messages (!w) := by
  obtain ⟨st', e', h⟩ := program_sim hk p ys {} (sim_start k hk p)
  rw [e] at e'
  cases e'
  have hq := rest_ready hk h hr
  have t1 := h.news false
  have t2 := h.news true
  rw [hq false] at t1
  rw [hq true] at t2
  refine ⟨t1, t2, ?_⟩
  obtain ⟨zs, hz⟩ := h.run
  have hres := Link.farewell_partial k.link hk.op p hp zs (net st) hz
    (fun w => by rw [Link.Ready, net_me]; exact h.started w (hq w)) (rest_settled hk h hr)
  simp only [net_me] at hres
  exact hres

/-- C144: at any moment the program has only finitely many things left to do, in whatever order they are
done, and can do them. -/
theorem program_ends (k : Conf) (hk : Polite k) (p : Plan) (ys : List (Bool × Happen)) (st : St)
    (e : program k p {} ys = .ok st) :
    (∃ bound, ∀ zs, Going k p st zs → zs.length ≤ bound)
    ∧ ∃ zs st', Going k p st zs ∧ program k p {} (ys ++ zs) = .ok st' ∧ AtRest k st' := by
  obtain ⟨st', e', h⟩ := program_sim hk p ys {} (sim_start k hk p)
  rw [e] at e'
  cases e'
  refine ⟨⟨_, fun zs hg => going_bound hk p zs st h hg⟩, ?_⟩
  obtain ⟨zs, st', hg, e', hs⟩ := can_rest hk p _ st (Nat.le_refl _) h
  exact ⟨zs, st', hg, by rw [program_append, e]; exact e', hs⟩

theorem pipeline_messages : ∀ (l : List (Note Msg)) (g : Bool), (∀ x ∈ l, ∃ m, x = .message m) →
    pipeline g l = .ok g
  | [], _, _ => rfl
  | x :: l, g, h => by
    obtain ⟨m, rfl⟩ := h x (by simp)
    exact pipeline_messages l g (fun y hy => h y (by simp [hy]))

theorem pipeline_append : ∀ (l t : List (Note Msg)) (g : Bool),
    pipeline g (l ++ t) = (pipeline g l).bind fun g => pipeline g t
  | [], _, _ => rfl
  | .message _ :: l, t, g => pipeline_append l t g
  | .close :: l, t, g | .badRequest :: l, t, g | .error _ :: l, t, g => by
    cases g
    · exact pipeline_append l t true
    · rfl

/-- C144, in part: when nothing is left to do, the pipeline of a user was released, once, and not used after
that, exactly if the user was told of the close once. Missing: the other case, see
`program_twice_violated`. -/
theorem program_released_partial (k : Conf) (hk : Polite k) (p : Plan) (hp : p.Proper) (ys : List (Bool × Happen))
    (st : St) (e : program k p {} ys = .ok st) (hr : AtRest k st) (w : Bool) :
    pipeline false (Link.notes ((st.me w).side.seen k.link)) = .ok true
    ↔ (Link.notes ((st.me w).side.seen k.link)).count .close = 1 := by
  obtain ⟨-, -, h, -⟩ := program_partial k hk p hp ys st e hr
  obtain ⟨⟨n, hn, e⟩, -⟩ := h w
  have hm : ∀ x ∈ (handedTo k.link (st.me w).side).map (Note.message : Msg → Note Msg), ∃ m, x = .message m := by
    intro x hx
    obtain ⟨m, -, rfl⟩ := List.mem_map.1 hx
    exact ⟨m, rfl⟩
  have h0 : ((handedTo k.link (st.me w).side).map (Note.message : Msg → Note Msg)).count .close = 0 := by
    rw [List.count_eq_zero]
    intro hx
    obtain ⟨m, hm⟩ := hm _ hx
    cases hm
  rw [e, pipeline_append, pipeline_messages _ _ hm, List.count_append, h0, List.count_replicate_self]
  rcases hn with rfl | rfl <;> simp [Cpp.bind, pipeline, List.replicate]

/-! ## Schedules -/

/-- The handshake, in pieces. -/
def opening : List (Bool × Happen) := [(false, .hear 20), (true, .hear 5), (false, .hear 1000), (true, .hear 7), (true, .hear 1000)]

def reps (n : Nat) (w : Bool) (y : Happen) : List (Bool × Happen) := List.replicate n (w, y)

/-- A schedule in which all goes well. -/
def wellEvs : List (Bool × Happen) :=
  opening ++ reps 3 true .wrote ++ reps 2 false .wrote ++ reps 9 false .arrive ++ reps 1 false .wrote
  ++ reps 6 true .arrive ++ reps 1 true .wrote ++ reps 2 true .arrive ++ reps 2 false .arrive

/-- A schedule in which the client hears the farewell while its own messages are still in the queue. -/
def hastyEvs : List (Bool × Happen) :=
  opening ++ reps 2 false .wrote ++ reps 6 true .arrive ++ reps 2 true .wrote ++ reps 5 false .arrive
  ++ reps 1 false .wrote ++ reps 2 true .arrive

/-- A schedule in which both close at once. -/
def atOnceEvs : List (Bool × Happen) :=
  opening ++ reps 3 true .wrote ++ reps 2 false .wrote ++ reps 9 false .arrive ++ reps 8 true .arrive
  ++ reps 1 true .wrote ++ reps 1 false .wrote ++ reps 2 false .arrive

/-- A handshake that is over, no writes, and nobody who reads. -/
theorem at_rest {k : Conf} {st : St} (hq : ∀ w, readyAt k st w = true)
    (hi : ∀ w, Endpoint.Spec.inFlight none ((st.me w).side.seen k.link) = none)
    (hr : ∀ w, ((st.me w).side.state k.link).reading = false) : AtRest k st := by
  intro w y hm
  cases y with
  | hear n =>
    apply hm
    cases w
    · have : isReady (serverAt k st) = true := hq false
      rw [step, if_neg]
      rintro ⟨h, -⟩
      rw [h] at this; cases this
    · have : isEqual (clientAt st) = true := hq true
      rw [step, if_neg]
      rintro ⟨h, -⟩
      rw [h] at this; cases this
  | wrote => exact hm (hi w)
  | arrive =>
    apply hm
    cases w
    · have h1 : isReady (serverAt k st) = true := hq false
      have h2 : (st.server.side.state k.link).reading = false := hr false
      simp [step, actAt, h1, readMore, h2, Cpp.map, Cpp.bind]
    · have h1 : isEqual (clientAt st) = true := hq true
      have h2 : (st.client.side.state k.link).reading = false := hr true
      simp [step, actAt, h1, readMore, h2, Cpp.map, Cpp.bind]

/-- The check of a concrete history. -/
def restCheck (k : Conf) (st : St) : Bool :=
  [true, false].all fun w => readyAt k st w
    && (Endpoint.Spec.inFlight none ((st.me w).side.seen k.link)).isNone
    && !((st.me w).side.state k.link).reading

theorem restCheck_rest {k : Conf} {st : St} (h : restCheck k st = true) : AtRest k st := by
  simp only [restCheck, List.all_cons, List.all_nil, Bool.and_eq_true, Option.isNone_iff_eq_none,
    Bool.not_eq_true', Bool.and_true] at h
  obtain ⟨⟨⟨h1, h2⟩, h3⟩, ⟨h4, h5⟩, h6⟩ := h
  exact at_rest (fun w => match w with | true => h1 | false => h4) (fun w => match w with | true => h2 | false => h5)
    (fun w => match w with | true => h3 | false => h6)

/-- `program_partial`, and all that C144 asks for: a schedule in which all goes well. -/
example : ∃ st, program sample plan {} wellEvs = .ok st ∧ AtRest sample st ∧ Polite sample ∧ plan.Proper
    ∧ AsExpected sample plan st true ∧ AsExpected sample plan st false := by
  have h : check (program sample plan {} wellEvs) (fun st => restCheck sample st
      && decide (AsExpected sample plan st true) && decide (AsExpected sample plan st false)) = true := by
    decide +kernel
  unfold check at h
  split at h
  · rename_i st e
    simp only [Bool.and_eq_true, decide_eq_true_eq] at h
    exact ⟨st, e, restCheck_rest h.1.1, sample_polite, Link.plan_proper, h.1.2, h.2⟩
  · cases h

/-- C144 does not hold: when the client hears the farewell of the server while its own messages are still
queued, its close frame overtakes them, and the server gets one message of three. -/
theorem program_lost_violated : ∃ ys st, program sample plan {} ys = .ok st ∧ AtRest sample st
    ∧ Polite sample ∧ plan.Proper ∧ plan.messages true = [[1#8], [2#8], [9#8]]
    ∧ handedTo sample.link st.server.side = [[1#8]]
    ∧ Link.notes (st.server.side.seen sample.link) = [.message [1#8], .close]
    ∧ ¬ AsExpected sample plan st false := by
  have h : check (program sample plan {} hastyEvs) (fun st => restCheck sample st
      && decide (handedTo sample.link st.server.side = [[1#8]])
      && decide (Link.notes (st.server.side.seen sample.link) = [.message [1#8], .close])
      && decide (¬ AsExpected sample plan st false)) = true := by
    decide +kernel
  unfold check at h
  split at h
  · rename_i st e
    simp only [Bool.and_eq_true, decide_eq_true_eq] at h
    exact ⟨_, st, e, restCheck_rest h.1.1.1, sample_polite, Link.plan_proper, rfl, h.1.1.2, h.1.2, h.2⟩
  · cases h

/-- C144 does not hold: when both hear the farewell at the same time, the client is told of the close
twice, and its handler resolves a promise that was deleted. -/
theorem program_twice_violated : ∃ ys st, program sample plan {} ys = .ok st ∧ AtRest sample st
    ∧ Polite sample ∧ plan.Proper
    ∧ Link.notes (st.client.side.seen sample.link) = [.message [3#8], .message [9#8], .close, .close]
    ∧ pipeline false (Link.notes (st.client.side.seen sample.link)) = .ub
    ∧ ¬ AsExpected sample plan st true := by
  have h : check (program sample plan {} atOnceEvs) (fun st => restCheck sample st
      && decide (Link.notes (st.client.side.seen sample.link) = [.message [3#8], .message [9#8], .close, .close])
      && decide (¬ AsExpected sample plan st true)) = true := by
    decide +kernel
  unfold check at h
  split at h
  · rename_i st e
    simp only [Bool.and_eq_true, decide_eq_true_eq] at h
    exact ⟨_, st, e, restCheck_rest h.1.1, sample_polite, Link.plan_proper, h.1.2, by rw [h.1.2]; rfl, h.2⟩
  · cases h

/-- `program_ends`: in the middle of the handshake there is something left to do. -/
example : check (program sample plan {} [(false, .hear 20)]) (fun st =>
    decide (st.server.got.length = 20) && decide (effort sample plan st > 0)
    && check (step sample st (.hear false 1)) (fun st' => st'.server.got != st.server.got)) = true := by
  decide +kernel

end Nbdl.Session
