import Verif.Session.Props
import Verif.Link.FarewellProps

/-!
# Users who take their leave, from the first octet on (C144)

The whole program of `/repo/test/nbdl/websocket/endpoint.cpp` (104-240): a client and a server of the
library are connected, each user sends its messages when its handler is told that the endpoint is ready,
the last of them a farewell, and closes when it is handed the farewell of the other.
-/

namespace Nbdl.Session
open Nbdl.Link (Side Act Net Msg Plan handedTo)
open Nbdl.Handshake
open Nbdl.Endpoint (In Obs Note)

/-! ## Model -/

/-- One of the two; `true` is the client. -/
def St.me (st : St) (w : Bool) : Peer := if w then st.client else st.server

/-- What the network does. -/
inductive Happen
  /-- at most `n` octets of the handshake arrive -/
  | hear (n : Nat)
  /-- the write in flight succeeds -/
  | wrote
  /-- one more octet arrives behind the handshake -/
  | arrive

def isReadyTold : Told → Bool
  | .ready _ => true
  | _ => false

/-- What a user calls in `on_ready`: all messages are sent and messaging is started,
`endpoint.cpp` 125-132 and 166-173 (of the test). -/
def onReady (p : Plan) (w : Bool) : List Ev :=
  ((p.messages w).map Act.send ++ [Act.start]).map (Ev.act w)

/-- One step of the program. `on_ready` is called from within the handshake, `on_message` from within
the reader, `endpoint.cpp` 134-141 and 175-182 (of the test): before anything else is done. Simplifications:
behind the handshake octets are read one by one; a larger piece is several of these in a row. `on_close`
and the other handlers, 142-144 and 183-185, do nothing to the endpoint; what they do to the pipeline is
`pipeline`. -/
def react (k : Conf) (p : Plan) (st : St) (w : Bool) : Happen → Cpp St
  | .hear n => (step k st (.hear w n)).bind fun st' =>
    if ((st'.me w).told.drop (st.me w).told.length).any isReadyTold then run k st' (onReady p w)
    else .ok st'
  | .wrote => step k st (.act w .wrote)
  | .arrive => (step k st (.act w (.arrive 1))).bind fun st' =>
    if p.bye ∈ (handedTo k.link (st'.me w).side).drop (handedTo k.link (st.me w).side).length then
      step k st' (.act w .close)
    else .ok st'

/-- Any schedule. -/
def program (k : Conf) (p : Plan) (st : St) : List (Bool × Happen) → Cpp St
  | [] => .ok st
  | y :: ys => (react k p st y.1 y.2).bind fun st => program k p st ys

/-- What the handlers of the other events do, `save_and_close`, `endpoint.cpp` 69-76 (of the test): they
resolve the promise of `hold_lazy`, the last one of the pipeline, which is then deleted (run_async.hpp:34-38)
together with that promise; the endpoint, and the handlers, live on as long as operations of the endpoint are
under way (C127). The result is whether the pipeline is gone; to resolve a promise that is gone is
undefined. -/
def pipeline (gone : Bool) : List (Note Msg) → Cpp Bool
  | [] => .ok gone
  | .message _ :: t => pipeline gone t
  | _ :: t => if gone then .ub else pipeline true t

/-! ## Specification -/

/-- The network has something to do: octets of the handshake arrive, a write is in flight, an octet
arrives. -/
def Moves (k : Conf) (st : St) (w : Bool) : Happen → Prop
  | .hear n => step k st (.hear w n) ≠ .ok st
  | .wrote => Endpoint.Spec.inFlight none ((st.me w).side.seen k.link) ≠ none
  | .arrive => step k st (.act w (.arrive 1)) ≠ .ok st

/-- Nothing is left to do. -/
def AtRest (k : Conf) (st : St) : Prop := ∀ w y, ¬ Moves k st w y

/-- A schedule in which every step does something. -/
def Going (k : Conf) (p : Plan) : St → List (Bool × Happen) → Prop
  | _, [] => True
  | st, y :: ys => Moves k st y.1 y.2 ∧ ∃ st', react k p st y.1 y.2 = .ok st' ∧ Going k p st' ys

/-- What the test expects of a user: ready (the server with the token), all the messages of the other
user, then one close, `endpoint.cpp` 213-239 (of the test). -/
def AsExpected (k : Conf) (p : Plan) (st : St) (w : Bool) : Prop :=
  (st.me w).told = [.ready (if w then [] else k.token)]
  ∧ Link.notes ((st.me w).side.seen k.link) = (p.messages (!w)).map .message ++ [.close]

instance (k : Conf) (p : Plan) (st : St) (w : Bool) : Decidable (AsExpected k p st w) :=
  inferInstanceAs (Decidable (_ ∧ _))

/-! ## One step -/

def net (st : St) : Net := ⟨st.client.side, st.server.side⟩

def readyAt (k : Conf) (st : St) : Bool → Bool
  | true => isEqual (clientAt st)
  | false => isReady (serverAt k st)

theorem net_me (st : St) (w : Bool) : (net st).me w = (st.me w).side := by cases w <;> rfl

def Same (st st' : St) : Prop :=
  ∀ v, (st'.me v).got = (st.me v).got ∧ (st'.me v).told = (st.me v).told ∧ (st'.me v).failed = (st.me v).failed

theorem Same.refl (st : St) : Same st st := fun _ => ⟨rfl, rfl, rfl⟩

theorem Same.trans {a b c : St} (h : Same a b) (g : Same b c) : Same a c := fun v =>
  ⟨(g v).1.trans (h v).1, (g v).2.1.trans (h v).2.1, (g v).2.2.trans (h v).2.2⟩

theorem Same.ready {k : Conf} {st st' : St} (h : Same st st') (w : Bool) : readyAt k st' w = readyAt k st w := by
  have h1 : st'.client.got = st.client.got := (h true).1
  have h2 : st'.server.got = st.server.got := (h false).1
  cases w
  · simp only [readyAt, serverAt, h2]
  · simp only [readyAt, clientAt, h1]

theorem act_sim {k : Conf} (hk : Polite k) {st : St} (hi : ∃ es xs, Inv k es st xs) (w : Bool) (x : Act)
    (hx : x ≠ .stop) (hr : readyAt k st w = true) :
    ∃ st', step k st (.act w x) = .ok st' ∧ (∃ es xs, Inv k es st' xs)
      ∧ Link.step k.link (net st) (w, x) = .ok (net st') ∧ Same st st' := by
  obtain ⟨es, xs, hi⟩ := hi
  obtain ⟨st', ys, e, hi'⟩ := inv_step k hk es st xs hi (.act w x)
  have rest := rest_exact hk hi
  have hstop : stops x = [] := by cases x <;> first | rfl | exact absurd rfl hx
  refine ⟨st', e, ⟨_, _, hi'⟩, ?_⟩
  cases w with
  | true =>
    have hr' : isEqual (clientAt st) = true := hr
    rw [step, actAt_eq _ _ _ _ _ _ rest.2 (by rw [hr']; simp)] at e
    cases ea : Link.act k.link st.client.side st.server.side x with
    | ub => rw [ea] at e; cases e
    | ok s =>
      rw [ea] at e
      cases e
      refine ⟨by simp only [Link.step, net, ea]; rfl, fun v => ?_⟩
      cases v
      · exact ⟨rfl, rfl, rfl⟩
      · exact ⟨rfl, by simp [St.me, hstop], rfl⟩
  | false =>
    have hr' : isReady (serverAt k st) = true := hr
    rw [step, actAt_eq _ _ _ _ _ _ rest.1 (by rw [hr']; simp)] at e
    cases ea : Link.act k.link st.server.side st.client.side x with
    | ub => rw [ea] at e; cases e
    | ok s =>
      rw [ea] at e
      cases e
      refine ⟨by simp only [Link.step, net, ea]; rfl, fun v => ?_⟩
      cases v
      · exact ⟨rfl, by simp [St.me, hstop], rfl⟩
      · exact ⟨rfl, rfl, rfl⟩

theorem acts_sim {k : Conf} (hk : Polite k) (w : Bool) (l : List Act) (st : St) (hi : ∃ es xs, Inv k es st xs)
    (hs : ∀ x ∈ l, x ≠ .stop) (hr : readyAt k st w = true) :
    ∃ st', run k st (l.map (Ev.act w)) = .ok st' ∧ (∃ es xs, Inv k es st' xs)
      ∧ Link.history k.link (net st) (l.map fun x => (w, x)) = .ok (net st') ∧ Same st st' := by
  induction l generalizing st with
  | nil => exact ⟨st, rfl, hi, rfl, Same.refl st⟩
  | cons x l ih =>
    obtain ⟨st1, e1, hi1, l1, s1⟩ := act_sim hk hi w x (hs x (by simp)) hr
    obtain ⟨st2, e2, hi2, l2, s2⟩ := ih st1 hi1 (fun y hy => hs y (by simp [hy])) (by rw [s1.ready]; exact hr)
    refine ⟨st2, ?_, hi2, ?_, s1.trans s2⟩
    · simp only [List.map_cons, run, e1, Cpp.bind]; exact e2
    · simp only [List.map_cons, Link.history, l1, Cpp.bind]; exact l2

/-- Nothing but a call of the user happens to an endpoint that is not ready. -/
theorem act_unready {k : Conf} {st : St} {w : Bool} {x : Act} (hr : readyAt k st w = false)
    (he : early x = false) : step k st (.act w x) = .ok st := by
  cases w with
  | true =>
    have hr' : isEqual (clientAt st) = false := hr
    have : ∀ rest peer, actAt k.link st.client peer (isEqual (clientAt st)) rest x = .ok st.client := fun rest peer => by
      unfold actAt; exact if_pos ⟨hr', he⟩
    rw [step, this]; rfl
  | false =>
    have hr' : isReady (serverAt k st) = false := hr
    have : ∀ rest peer, actAt k.link st.server peer (isReady (serverAt k st)) rest x = .ok st.server := fun rest peer => by
      unfold actAt; exact if_pos ⟨hr', he⟩
    rw [step, this]; rfl

/-- What is left of the handshake. -/
def ahead (k : Conf) (st : St) : Nat :=
  ((request k.origin k.token).length - st.server.got.length)
  + (if isEqual (clientAt st) then 0 else expectedResponse.length - st.client.got.length)

theorem Same.ahead {k : Conf} {st st' : St} (h : Same st st') : ahead k st' = ahead k st := by
  have h1 : st'.client.got = st.client.got := (h true).1
  have h2 : st'.server.got = st.server.got := (h false).1
  unfold Session.ahead clientAt
  rw [h1, h2]

/-- Octets of the handshake arrive: nothing happens, or there is less left of the handshake, and the user
is told that the endpoint is ready if and only if it is, and was not before. -/
theorem hear_sim {k : Conf} (hk : Polite k) {st : St} (hi : ∃ es xs, Inv k es st xs)
    (hf : ∀ v, (st.me v).failed = false) (w : Bool) (n : Nat) :
    ∃ st', step k st (.hear w n) = .ok st' ∧ (∃ es xs, Inv k es st' xs) ∧ net st' = net st
      ∧ (∀ v, (st'.me v).failed = false) ∧ (∀ v, .stopped ∈ (st'.me v).told → .stopped ∈ (st.me v).told)
      ∧ (∀ v, v ≠ w → readyAt k st' v = readyAt k st v)
      ∧ (((st'.me w).told.drop (st.me w).told.length).any isReadyTold = true ↔
          readyAt k st w = false ∧ readyAt k st' w = true)
      ∧ (readyAt k st w = true → readyAt k st' w = true)
      ∧ (st' = st ∨ ahead k st' < ahead k st) := by
  obtain ⟨es, xs, hi⟩ := hi
  obtain ⟨st', ys, e, hi'⟩ := inv_step k hk es st xs hi (.hear w n)
  refine ⟨st', e, ⟨_, _, hi'⟩, ?_⟩
  have stay : st' = st → net st' = net st
      ∧ (∀ v, (st'.me v).failed = false) ∧ (∀ v, .stopped ∈ (st'.me v).told → .stopped ∈ (st.me v).told)
      ∧ (∀ v, v ≠ w → readyAt k st' v = readyAt k st v)
      ∧ (((st'.me w).told.drop (st.me w).told.length).any isReadyTold = true ↔
          readyAt k st w = false ∧ readyAt k st' w = true)
      ∧ (readyAt k st w = true → readyAt k st' w = true)
      ∧ (st' = st ∨ ahead k st' < ahead k st) := by
    rintro rfl
    refine ⟨rfl, hf, fun v h => h, fun v _ => rfl, ?_, id, .inl rfl⟩
    rw [List.drop_length]
    simp only [List.any_nil, Bool.false_eq_true, false_iff]
    rintro ⟨h1, h2⟩
    rw [h1] at h2; cases h2
  cases w with
  | true =>
    have fc : st.client.failed = false := hf true
    rcases client_at hk hi.sGot hi.cGot with ⟨h1, hlen⟩ | ⟨m, h1, -⟩
    · rw [step, if_pos ⟨h1, fc⟩] at e
      generalize hg : st.client.got ++ ((serverStream k st).drop st.client.got.length).take n = g at e
      simp only [Cpp.ok.injEq] at e
      have ht : (st'.me true).told.drop (st.me true).told.length = clientTells (client g) := by
        rw [← e]; simp [St.me]
      have hgl : st.client.got.length ≤ g.length := by rw [← hg, List.length_append]; omega
      have ha : ahead k st = ((request k.origin k.token).length - st.server.got.length)
          + (expectedResponse.length - st.client.got.length) := by
        rw [ahead, h1]; rfl
      have hr0 : readyAt k st true = false := by rw [readyAt, h1]; rfl
      by_cases hsame : g = st.client.got
      · refine stay ?_
        have : client g = .waiting := by rw [hsame]; exact h1
        rw [← e, this, hsame]
        simp [clientTells]
      · have hlt : st.client.got.length < g.length := by
          rcases Nat.lt_or_ge st.client.got.length g.length with h | h
          · exact h
          · exfalso
            have hp : st.client.got <+: g := by rw [← hg]; exact List.prefix_append _ _
            exact hsame (hp.eq_of_length_le h).symm
        refine ⟨by rw [← e]; rfl, ?_, ?_, ?_, ?_, ?_, .inr ?_⟩
        · intro v; rw [← e]; cases v
          · exact hf false
          · exact fc
        · intro v hv; rw [← e] at hv; cases v
          · exact hv
          · simp only [St.me, if_true, List.mem_append] at hv
            rcases hv with hv | hv
            · exact hv
            · revert hv
              cases client g <;> simp [clientTells]
        · intro v hv
          cases v
          · rw [← e]; rfl
          · exact absurd rfl hv
        · rw [ht]
          have : readyAt k st' true = isEqual (client g) := by rw [← e]; rfl
          rw [hr0, this]
          cases client g <;> simp [clientTells, isReadyTold, isEqual]
        · rw [hr0]; intro h; cases h
        · rw [ha]
          have hs : st'.server.got = st.server.got := by rw [← e]
          have hc : st'.client.got = g := by rw [← e]
          rw [ahead, hs, hc]
          split <;> omega
    · rw [step, if_neg (by rw [h1]; simp)] at e
      exact stay (Cpp.ok.inj e).symm
  | false =>
    have fs : st.server.failed = false := hf false
    rcases server_at hk hi.sGot with ⟨h1, hne⟩ | ⟨h1, h2⟩
    · rw [step, if_pos ⟨h1, fs⟩] at e
      generalize hg : st.server.got ++ ((clientStream k st).drop st.server.got.length).take n = g at e
      simp only [Cpp.ok.injEq] at e
      have ht : (st'.me false).told.drop (st.me false).told.length = serverTells (server k.nul k.sched g) := by
        rw [← e]; simp [St.me]
      have hgl : st.server.got.length ≤ g.length := by rw [← hg, List.length_append]; omega
      have hr0 : readyAt k st false = false := by rw [readyAt, h1]; rfl
      have hs : st'.server.got = g := by rw [← e]
      have hc : st'.client = st.client := by rw [← e]
      by_cases hsame : g = st.server.got
      · refine stay ?_
        have : server k.nul k.sched g = .waiting := by rw [hsame]; exact h1
        rw [← e, this, hsame]
        simp [serverTells]
      · have hlt : st.server.got.length < g.length := by
          rcases Nat.lt_or_ge st.server.got.length g.length with h | h
          · exact h
          · exfalso
            have hp : st.server.got <+: g := by rw [← hg]; exact List.prefix_append _ _
            exact hsame (hp.eq_of_length_le h).symm
        have hgr : g.length ≤ (request k.origin k.token).length := by
          have := hi'.sGot.length_le
          rw [hs] at this; exact this
        refine ⟨by rw [← e]; rfl, ?_, ?_, ?_, ?_, ?_, .inr ?_⟩
        · intro v; rw [← e]; cases v
          · exact fs
          · exact hf true
        · intro v hv; rw [← e] at hv; cases v
          · simp only [St.me, Bool.false_eq_true, if_false, List.mem_append] at hv
            rcases hv with hv | hv
            · exact hv
            · revert hv
              cases server k.nul k.sched g <;> simp [serverTells]
          · exact hv
        · intro v hv
          cases v
          · exact absurd rfl hv
          · rw [readyAt, clientAt, hc]; rfl
        · rw [ht]
          have : readyAt k st' false = isReady (server k.nul k.sched g) := by rw [readyAt, serverAt, hs]
          rw [hr0, this]
          cases server k.nul k.sched g <;> simp [serverTells, isReadyTold, isReady]
        · rw [hr0]; intro h; cases h
        · rw [ahead, ahead, hs, clientAt, hc]
          have : clientAt st = client st.client.got := rfl
          rw [this]
          omega
    · rw [step, if_neg (by rw [h1]; simp)] at e
      exact stay (Cpp.ok.inj e).symm

/-! ## The program is a course of `Link.farewell` -/

structure Sim (k : Conf) (p : Plan) (st : St) : Prop where
  inv : ∃ es xs, Inv k es st xs
  fine : ∀ w, (st.me w).failed = false
  told : ∀ w, .stopped ∉ (st.me w).told
  started : ∀ w, readyAt k st w = true → In.start ∈ (st.me w).side.ins
  run : ∃ ys, Link.farewell k.link p {} ys = .ok (net st)

theorem Sim.unstarted {k : Conf} {p : Plan} {st : St} (h : Sim k p st) {w : Bool} (hr : readyAt k st w = false) :
    In.start ∉ (st.me w).side.ins := by
  obtain ⟨es, xs, hi⟩ := h.inv
  cases w
  · exact hi.sStart hr
  · exact hi.cStart hr

theorem run_snoc {c : Link.Conf} {p : Plan} {n n' : Net} {w : Bool} {y : Link.Ev}
    (h : ∃ ys, Link.farewell c p {} ys = .ok n) (e : Link.react c p n w y = .ok n') :
    ∃ ys, Link.farewell c p {} ys = .ok n' := by
  obtain ⟨ys, h⟩ := h
  refine ⟨ys ++ [(w, y)], ?_⟩
  rw [Link.farewell_append, h]
  simp only [Cpp.bind, Link.farewell, e]

/-- What a step of the program is for the endpoints: nothing, or a step of `Link.farewell`. -/
def Steps (k : Conf) (p : Plan) (st st' : St) (w : Bool) : Happen → Prop
  | .hear _ => (net st' = net st ∨ (readyAt k st w = false ∧ Link.react k.link p (net st) w .ready = .ok (net st')))
      ∧ (st' = st ∨ ahead k st' < ahead k st)
  | .wrote => (readyAt k st w = false ∧ st' = st)
      ∨ (readyAt k st w = true ∧ Same st st' ∧ Link.react k.link p (net st) w .wrote = .ok (net st'))
  | .arrive => (readyAt k st w = false ∧ st' = st)
      ∨ (readyAt k st w = true ∧ Same st st' ∧ Link.react k.link p (net st) w .arrive = .ok (net st'))

theorem started_same {k : Conf} {p : Plan} {st st' : St} {w : Bool} {y : Link.Ev} (hk : Polite k)
    (h : Sim k p st) (hs : Same st st') (e : Link.react k.link p (net st) w y = .ok (net st'))
    (hm : ∀ v, Link.Ready ((net st).me v) → Link.Ready ((net st').me v)) (hi : ∃ es xs, Inv k es st' xs) :
    Sim k p st' := by
  refine ⟨hi, fun v => (hs v).2.2.trans (h.fine v), fun v => by rw [(hs v).2.1]; exact h.told v, fun v hv => ?_,
    run_snoc h.run e⟩
  rw [hs.ready] at hv
  have := hm v
  rw [net_me, net_me] at this
  exact this (h.started v hv)

/-- A step keeps what was started. -/
theorem step_started {c : Link.Conf} {n n' : Net} {w : Bool} {x : Act} (e : Link.step c n (w, x) = .ok n') (v : Bool)
    (h : Link.Ready (n.me v)) : Link.Ready (n'.me v) := by
  cases w with
  | true =>
    cases ea : Link.act c n.a n.b x with
    | ub => simp [Link.step, ea, Cpp.map, Cpp.bind] at e
    | ok s =>
      simp only [Link.step, ea, Cpp.map, Cpp.bind, Cpp.ok.injEq] at e
      subst e
      cases v
      · exact h
      · obtain ⟨is, hs⟩ := act_ins ea
        have h : In.start ∈ n.a.ins := h
        show In.start ∈ s.ins
        rw [hs]; exact List.mem_append_left _ h
  | false =>
    cases ea : Link.act c n.b n.a x with
    | ub => simp [Link.step, ea, Cpp.map, Cpp.bind] at e
    | ok s =>
      simp only [Link.step, ea, Cpp.map, Cpp.bind, Cpp.ok.injEq] at e
      subst e
      cases v
      · obtain ⟨is, hs⟩ := act_ins ea
        have h : In.start ∈ n.b.ins := h
        show In.start ∈ s.ins
        rw [hs]; exact List.mem_append_left _ h
      · exact h

theorem react_sim {k : Conf} (hk : Polite k) {p : Plan} {st : St} (h : Sim k p st) (w : Bool) (y : Happen) :
    ∃ st', react k p st w y = .ok st' ∧ Sim k p st' ∧ Steps k p st st' w y := by
  cases y with
  | hear n =>
    obtain ⟨st1, e1, hi1, n1, f1, t1, o1, r1, k1, a1⟩ := hear_sim hk h.inv h.fine w n
    by_cases hr : ((st1.me w).told.drop (st.me w).told.length).any isReadyTold = true
    · obtain ⟨q0, q1⟩ := r1.1 hr
      obtain ⟨st2, e2, hi2, l2, s2⟩ := acts_sim hk w ((p.messages w).map Act.send ++ [.start]) st1 hi1
        (by
          intro x hx
          simp only [List.mem_append, List.mem_map, List.mem_singleton] at hx
          rcases hx with ⟨m, -, rfl⟩ | rfl <;> simp) q1
      have hun : In.start ∉ ((net st).me w).ins := by rw [net_me]; exact h.unstarted q0
      have er : Link.react k.link p (net st) w .ready = .ok (net st2) := by
        rw [Link.react, if_neg hun, ← l2, n1]
        simp [Function.comp_def]
      refine ⟨st2, ?_, ?_, .inr ⟨q0, er⟩, ?_⟩
      · rw [react, e1]
        simp only [Cpp.bind, if_pos hr]
        exact e2
      · refine ⟨hi2, fun v => (s2 v).2.2.trans (f1 v), fun v hv => ?_, fun v hv => ?_, run_snoc h.run er⟩
        · rw [(s2 v).2.1] at hv
          exact h.told v (t1 v hv)
        · obtain ⟨n', en, hn1, hn2⟩ := Link.sends_history k.link w (p.messages w) (net st)
          rw [Link.react, if_neg hun, en] at er
          have er := Cpp.ok.inj er
          subst er
          by_cases hvw : v = w
          · subst hvw
            rw [← net_me, hn1]; simp
          · have hv2 : v = !w := by cases v <;> cases w <;> simp_all
            rw [s2.ready, o1 v hvw] at hv
            have := h.started v hv
            rw [← net_me] at this ⊢
            subst hv2
            rw [hn2]; exact this
      · right
        rw [s2.ahead]
        rcases a1 with rfl | a1
        · rw [q0] at q1; cases q1
        · exact a1
    · refine ⟨st1, ?_, ⟨hi1, f1, fun v hv => h.told v (t1 v hv), fun v hv => ?_, by rw [n1]; exact h.run⟩,
        .inl n1, a1⟩
      · rw [react, e1]
        simp only [Cpp.bind, if_neg hr]
      · have : readyAt k st v = true := by
          by_cases hvw : v = w
          · subst hvw
            cases hq : readyAt k st v
            · exact absurd (r1.2 ⟨hq, hv⟩) hr
            · rfl
          · rw [← o1 v hvw]; exact hv
        have := h.started v this
        rw [← net_me] at this ⊢
        rw [n1]; exact this
  | wrote =>
    cases hr : readyAt k st w with
    | false => exact ⟨st, act_unready hr rfl, h, .inl ⟨hr, rfl⟩⟩
    | true =>
      obtain ⟨st1, e1, hi1, l1, s1⟩ := act_sim hk h.inv w .wrote (by simp) hr
      exact ⟨st1, e1, started_same hk h s1 (w := w) (y := .wrote) l1 (step_started l1) hi1, .inr ⟨hr, s1, l1⟩⟩
  | arrive =>
    cases hr : readyAt k st w with
    | false =>
      refine ⟨st, ?_, h, .inl ⟨hr, rfl⟩⟩
      rw [react, act_unready hr rfl]
      simp [Cpp.bind]
    | true =>
      obtain ⟨st1, e1, hi1, l1, s1⟩ := act_sim hk h.inv w (.arrive 1) (by simp) hr
      by_cases hb : p.bye ∈ (handedTo k.link (st1.me w).side).drop (handedTo k.link (st.me w).side).length
      · obtain ⟨st2, e2, hi2, l2, s2⟩ := act_sim hk hi1 w .close (by simp) (by rw [s1.ready]; exact hr)
        have er : Link.react k.link p (net st) w .arrive = .ok (net st2) := by
          rw [Link.react, l1]
          simp only [Cpp.bind, net_me, if_pos hb]
          exact l2
        refine ⟨st2, ?_, started_same hk h (s1.trans s2) er (fun v hv => step_started l2 v (step_started l1 v hv)) hi2,
          .inr ⟨hr, s1.trans s2, er⟩⟩
        rw [react, e1]
        simp only [Cpp.bind, if_pos hb]
        exact e2
      · have er : Link.react k.link p (net st) w .arrive = .ok (net st1) := by
          rw [Link.react, l1]
          simp only [Cpp.bind, net_me, if_neg hb]
        refine ⟨st1, ?_, started_same hk h s1 er (step_started l1) hi1, .inr ⟨hr, s1, er⟩⟩
        rw [react, e1]
        simp only [Cpp.bind, if_neg hb]

theorem sim_start (k : Conf) (hk : Polite k) (p : Plan) : Sim k p {} := by
  obtain ⟨st, xs, e, hi⟩ := inv_run k hk []
  cases e
  refine ⟨⟨_, _, hi⟩, fun w => by cases w <;> rfl, fun w => by cases w <;> simp [St.me], ?_, ⟨[], rfl⟩⟩
  intro w hr
  have h1 := hi.cTold
  have h2 := hi.sTold
  cases w
  · have hr : isReady (serverAt k {}) = true := hr
    rw [hr] at h2; cases h2
  · have hr : isEqual (clientAt {}) = true := hr
    rw [hr] at h1; cases h1

theorem program_sim {k : Conf} (hk : Polite k) (p : Plan) : ∀ (ys : List (Bool × Happen)) (st : St), Sim k p st →
    ∃ st', program k p st ys = .ok st' ∧ Sim k p st'
  | [], st, h => ⟨st, rfl, h⟩
  | (w, y) :: ys, st, h => by
    obtain ⟨st1, e1, h1, -⟩ := react_sim hk h w y
    obtain ⟨st2, e2, h2⟩ := program_sim hk p ys st1 h1
    exact ⟨st2, by simp only [program, e1, Cpp.bind]; exact e2, h2⟩

theorem Sim.course {k : Conf} (hk : Polite k) {p : Plan} {st : St} (h : Sim k p st) :
    Link.Course k.link p (net st) := by
  obtain ⟨ys, e⟩ := h.run
  obtain ⟨n, e', hc⟩ := Link.farewell_course hk.op p ys {} (Link.course_start k.link p)
  rw [e] at e'
  cases e'
  exact hc

/-- What the users were told, exactly. -/
theorem Sim.news {k : Conf} {p : Plan} {st : St} (h : Sim k p st) (w : Bool) :
    (st.me w).told = if readyAt k st w then [.ready (if w then [] else k.token)] else [] := by
  obtain ⟨es, xs, hi⟩ := h.inv
  have hn : Session.news (st.me w).told = (st.me w).told := by
    unfold Session.news
    rw [List.filter_eq_self]
    intro t ht
    have := h.told w
    simp only [ne_eq, decide_eq_true_eq]
    rintro rfl
    exact this ht
  rw [← hn]
  have hf := h.fine w
  cases w
  · have hf : st.server.failed = false := hf
    have := hi.sTold
    rw [hf] at this
    simp only [Bool.false_eq_true, if_false] at this ⊢
    exact this
  · have hf : st.client.failed = false := hf
    have := hi.cTold
    rw [hf] at this
    simp only [Bool.false_eq_true, if_false] at this ⊢
    exact this

/-! ## At rest, and on the way there -/

theorem inflight_start (c : Link.Conf) (s : Side) (h : In.start ∉ s.ins) :
    Endpoint.Spec.inFlight none (s.seen c) = none := by
  have key : ∀ (is : List (In Msg)) (st : Endpoint.St Msg), In.start ∉ is → st.started = false →
      st.inflight = none → st.reading = false → st.broken = false →
      (Endpoint.exec c.conv st is).1.inflight = none := by
    intro is
    induction is with
    | nil => intro st _ _ h _ _; exact h
    | cons i is ih =>
      intro st hn h1 h2 h3 h4
      have hn' : In.start ∉ is := fun hm => hn (by simp [hm])
      have hi : i ≠ In.start := by rintro rfl; exact hn (by simp)
      have : ∃ st', (Endpoint.step c.conv st i).1 = st' ∧ st'.started = false ∧ st'.inflight = none
          ∧ st'.reading = false ∧ st'.broken = false := by
        refine ⟨_, rfl, ?_⟩
        cases i <;> simp_all [Endpoint.step, Endpoint.startSendQueue]
      obtain ⟨st', e, g1, g2, g3, g4⟩ := this
      simp only [Endpoint.exec]
      rw [e]
      exact ih st' hn' g1 g2 g3 g4
  rw [(Link.shape c s).inv.cur]
  exact key s.ins {} h rfl rfl rfl rfl

/-- What is left to do. -/
def effort (k : Conf) (p : Plan) (st : St) : Nat := Link.effort k.link p (net st) + ahead k st

theorem moves_effort {k : Conf} (hk : Polite k) {p : Plan} {st : St} (h : Sim k p st) {w : Bool} {y : Happen}
    (hm : Moves k st w y) : ∃ st', react k p st w y = .ok st' ∧ Sim k p st' ∧ effort k p st' < effort k p st := by
  obtain ⟨st', e, h', hs⟩ := react_sim hk h w y
  refine ⟨st', e, h', ?_⟩
  have hc := h.course hk
  have less : ∀ {z : Link.Ev}, Link.EvMoves k.link (net st) w z → Link.react k.link p (net st) w z = .ok (net st') →
      Link.effort k.link p (net st') < Link.effort k.link p (net st) := by
    intro z hz ez
    obtain ⟨n', e', -, -, hl⟩ := Link.react_effort hk.op hc hz
    rw [ez] at e'
    cases e'
    exact hl
  cases y with
  | hear n =>
    obtain ⟨hn, ha⟩ := hs
    have ha : ahead k st' < ahead k st := by
      rcases ha with rfl | ha
      · exfalso
        obtain ⟨st1, e1, -, n1, -, -, -, r1, k1, a1⟩ := hear_sim hk h.inv h.fine w n
        rcases a1 with rfl | a1
        · exact hm e1
        · rw [react, e1] at e
          simp only [Cpp.bind] at e
          split at e
          · rename_i hr
            obtain ⟨q0, q1⟩ := r1.1 hr
            have := h'.unstarted q0
            rcases hn with hn | ⟨-, hn⟩
            · obtain ⟨st2, e2, -, l2, s2⟩ := acts_sim hk w ((p.messages w).map Act.send ++ [.start]) st1
                (by
                  obtain ⟨es, xs, hi⟩ := h.inv
                  obtain ⟨q, ys, e1', hq⟩ := inv_step k hk es st' xs hi (.hear w n)
                  rw [e1] at e1'
                  cases e1'
                  exact ⟨_, _, hq⟩)
                (by
                  intro x hx
                  simp only [List.mem_append, List.mem_map, List.mem_singleton] at hx
                  rcases hx with ⟨m, -, rfl⟩ | rfl <;> simp) q1
              rw [onReady, e2] at e
              cases e
              rw [s2.ready, q1] at q0
              cases q0
            · have hz : Link.EvMoves k.link (net st') w .ready := by
                show ¬ Link.Ready _
                rw [net_me]; exact this
              have := less hz hn
              omega
          · cases e
            omega
      · exact ha
    have hn : Link.effort k.link p (net st') ≤ Link.effort k.link p (net st) := by
      rcases hn with hn | ⟨q0, hn⟩
      · rw [hn]; exact Nat.le_refl _
      · refine Nat.le_of_lt (less ?_ hn)
        show ¬ Link.Ready _
        rw [net_me]; exact h.unstarted q0
    unfold effort
    omega
  | wrote =>
    rcases hs with ⟨q, rfl⟩ | ⟨q, s, er⟩
    · exact absurd (inflight_start _ _ (h.unstarted q)) hm
    · have := less (z := .wrote) (by show ¬ Link.Idle _ _; rw [net_me]; exact hm) er
      unfold effort
      rw [s.ahead]
      omega
  | arrive =>
    rcases hs with ⟨q, rfl⟩ | ⟨q, s, er⟩
    · exact absurd (act_unready q rfl) hm
    · have := less (z := .arrive) (by
        obtain ⟨st1, e1, -, l1, s1⟩ := act_sim hk h.inv w (.arrive 1) (by simp) q
        show Link.step _ _ _ ≠ _
        rw [l1]
        intro he
        apply hm
        rw [e1]
        have he := Cpp.ok.inj he
        have hcl : st1.client = st.client := by
          have g := s1 true
          have he : st1.client.side = st.client.side := congrArg Net.a he
          simp only [St.me, if_true] at g
          cases hx : st1.client; cases hy : st.client
          simp_all
        have hsv : st1.server = st.server := by
          have g := s1 false
          have he : st1.server.side = st.server.side := congrArg Net.b he
          simp only [St.me, Bool.false_eq_true, if_false] at g
          cases hx : st1.server; cases hy : st.server
          simp_all
        cases hx : st1; cases hy : st
        simp_all) er
      unfold effort
      rw [s.ahead]
      omega

theorem going_bound {k : Conf} (hk : Polite k) (p : Plan) : ∀ (ys : List (Bool × Happen)) (st : St), Sim k p st →
    Going k p st ys → ys.length ≤ effort k p st
  | [], _, _, _ => Nat.zero_le _
  | (w, y) :: ys, st, h, ⟨hm, st1, e1, hg⟩ => by
    obtain ⟨st', e, h', hw⟩ := moves_effort hk h hm
    simp only at e1
    rw [e] at e1
    cases e1
    have := going_bound hk p ys st1 h' hg
    rw [List.length_cons]
    omega

theorem can_rest {k : Conf} (hk : Polite k) (p : Plan) (b : Nat) (st : St) (hb : effort k p st ≤ b)
    (h : Sim k p st) : ∃ ys st', Going k p st ys ∧ program k p st ys = .ok st' ∧ AtRest k st' := by
  induction b generalizing st with
  | zero =>
    refine ⟨[], st, trivial, rfl, fun w y hm => ?_⟩
    obtain ⟨st1, e, h1, hw⟩ := moves_effort hk h hm
    omega
  | succ b ih =>
    by_cases hs : AtRest k st
    · exact ⟨[], st, trivial, rfl, hs⟩
    · obtain ⟨w, hs⟩ := Classical.not_forall.1 hs
      obtain ⟨y, hs⟩ := Classical.not_forall.1 hs
      have hm := Classical.not_not.1 hs
      obtain ⟨st1, e, h1, hw⟩ := moves_effort hk h hm
      obtain ⟨ys, st2, hg, e2, hs2⟩ := ih st1 (by omega) h1
      exact ⟨(w, y) :: ys, st2, ⟨hm, st1, e, hg⟩, by simp only [program, e, Cpp.bind]; exact e2, hs2⟩

theorem program_append (k : Conf) (p : Plan) : ∀ (xs ys : List (Bool × Happen)) (st : St),
    program k p st (xs ++ ys) = (program k p st xs).bind fun st => program k p st ys
  | [], _, _ => rfl
  | x :: xs, ys, st => by
    simp only [List.cons_append, program]
    cases react k p st x.1 x.2 with
    | ub => rfl
    | ok m => exact program_append k p xs ys m

/-- At rest both are ready. -/
theorem rest_ready {k : Conf} (hk : Polite k) {p : Plan} {st : St} (h : Sim k p st) (hr : AtRest k st) (w : Bool) :
    readyAt k st w = true := by
  obtain ⟨es, xs, hi⟩ := h.inv
  have hs : serverAt k st = .ready k.token expectedResponse [] := by
    rcases server_at hk hi.sGot with ⟨h1, hne⟩ | ⟨h1, -⟩
    · exfalso
      refine hr false (.hear (clientStream k st).length) (fun e => ?_)
      have fs : st.server.failed = false := h.fine false
      rw [step, if_pos ⟨h1, fs⟩] at e
      have e := congrArg (fun s : St => s.server.got.length) (Cpp.ok.inj e)
      have hl := hi.sGot.length_le
      have hne' : st.server.got.length ≠ (request k.origin k.token).length := fun e => hne (hi.sGot.eq_of_length e)
      simp only [clientStream, List.length_append, List.length_take, List.length_drop] at e
      omega
    · exact h1
  cases w with
  | false => rw [readyAt, hs]; rfl
  | true =>
    rcases client_at hk hi.sGot hi.cGot with ⟨h1, hl⟩ | ⟨m, h1, -⟩
    · exfalso
      refine hr true (.hear (serverStream k st).length) (fun e => ?_)
      have fc : st.client.failed = false := h.fine true
      rw [step, if_pos ⟨h1, fc⟩] at e
      have e := congrArg (fun s : St => s.client.got.length) (Cpp.ok.inj e)
      have h3 : serverStream k st = expectedResponse ++ st.server.side.out k.link := by
        unfold serverStream; rw [hs]
      simp only [h3, List.length_append, List.length_take, List.length_drop] at e
      omega
    · rw [readyAt, h1]; rfl

/-- At rest the endpoints have nothing left to do. -/
theorem rest_settled {k : Conf} (hk : Polite k) {p : Plan} {st : St} (h : Sim k p st) (hr : AtRest k st) :
    Link.Settled k.link (net st) := by
  apply Classical.byContradiction
  intro hn
  obtain ⟨w, y, hm⟩ := Link.unsettled hk.op (h.course hk) hn
  have hq := rest_ready hk h hr w
  cases y with
  | ready =>
    refine hm ?_
    show In.start ∈ _
    rw [net_me]; exact h.started w hq
  | wrote =>
    refine hr w .wrote ?_
    have hm : ¬ Link.Idle k.link ((net st).me w) := hm
    rw [net_me] at hm
    exact hm
  | arrive =>
    refine hr w .arrive (fun e => ?_)
    obtain ⟨st1, e1, -, l1, s1⟩ := act_sim hk h.inv w (.arrive 1) (by simp) hq
    rw [e] at e1
    cases e1
    exact hm l1

end Nbdl.Session
