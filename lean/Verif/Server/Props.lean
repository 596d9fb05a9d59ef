import Verif.Server.Spec
/-!
# Servers
-/
namespace Nbdl.Server
open Spec

/-! ## C86: a message sent downstream reaches every connection -/

theorem sendAll_ok {M} (ends : Nat → Bool) (h : ∀ c, ends c = false) (m : M) (cs : List Nat) :
    ∀ s : C M, sendAll ends m cs s = .ok ⟨s.connections, s.sent ++ cs.map fun c => (c, m)⟩ := by
  induction cs with
  | nil => intro s; simp [sendAll]
  | cons c cs ih => intro s; simp [sendAll, h, ih]

theorem erase_filter (l : List Nat) (h : l.Nodup) (c : Nat) :
    l.erase c = l.filter fun i => i ≠ c := by
  rw [h.erase_eq_filter]
  apply List.filter_congr
  intro i _
  by_cases h : i = c <;> simp [h]

theorem connRun_ok {M} (ends : Nat → Bool) (h : ∀ c, ends c = false) (os : List (Op M)) :
    ∀ (s : C M), s.connections.Nodup → Once os s.connections →
    connRun ends os s = .ok ⟨present os s.connections, s.sent ++ sends os s.connections⟩ := by
  induction os with
  | nil => intro s _ _; simp [connRun, present, sends]
  | cons o os ih =>
    intro s hn ho
    cases o with
    | register c =>
      simp only [Once] at ho
      have hn' : (s.connections ++ [c]).Nodup := by
        rw [List.nodup_append]
        refine ⟨hn, by simp, ?_⟩
        intro a ha b hb
        simp at hb; subst hb
        rintro rfl; exact ho.1 ha
      simp only [connRun, connStep, Cpp.bind, present, sends]
      exact ih ⟨s.connections ++ [c], s.sent⟩ hn' ho.2
    | unregister c =>
      simp only [Once] at ho
      simp only [connRun, connStep, Cpp.bind, present, sends]
      rw [erase_filter _ hn]
      exact ih ⟨s.connections.filter fun i => i ≠ c, s.sent⟩ (hn.filter _) ho
    | send m =>
      simp only [Once] at ho
      simp only [connRun, connStep, sendAll_ok ends h, Cpp.bind, present, sends]
      rw [ih ⟨s.connections, s.sent ++ s.connections.map fun c => (c, m)⟩ hn ho]
      simp

/-- C86.  For every history of connections coming and going and of messages: each message is given
once to each connection which is there at the time, in the order in which they came.  Assumed: no
connection is ended by the sending itself (see below). -/
theorem broadcast_partial {M} (ends : Nat → Bool) (h : ∀ c, ends c = false) (os : List (Op M))
    (ho : Once os []) :
    connRun ends os (⟨[], []⟩ : C M) = .ok ⟨present os [], sends os []⟩ := by
  have := connRun_ok ends h os (⟨[], []⟩ : C M) (by simp) ho
  simpa using this

/-- A history. -/
def exOps : List (Op Nat) :=
  [.register 1, .send 10, .register 2, .register 3, .send 11, .unregister 2, .send 12]

example : Once exOps [] := by simp [exOps, Once]
example : sends exOps [] = [(1, 10), (1, 11), (2, 11), (3, 11), (1, 12), (3, 12)] := by decide

/-- C86 fails where sending ends one of the connections at once: it is taken out of the vector which
is being looped over, whichever of the connections it is. -/
theorem broadcast_end_violated {M} (ends : Nat → Bool) (s : C M) (m : M) (c : Nat)
    (hc : c ∈ s.connections) (h : ends c = true) : connStep ends s (.send m) = .ub := by
  have : ∀ (cs : List Nat), c ∈ cs → ∀ s : C M, sendAll ends m cs s = .ub := by
    intro cs
    induction cs with
    | nil => intro h; simp at h
    | cons d cs ih =>
      intro hm s
      by_cases hd : ends d = true
      · simp [sendAll, hd]
      · have : c ∈ cs := by
          rcases List.mem_cons.mp hm with rfl | h'
          · exact absurd h hd
          · exact h'
        simp [sendAll, hd, ih this]
  exact this _ hc s

example : (2 : Nat) ∈ (⟨[1, 2, 3], []⟩ : C Nat).connections := by decide

/-! ## C87: every client is served by itself -/

theorem accept_silent {R} (parse : List Byte → Parsed R) (upgrade : R → Bool) (c : Nat)
    (es : List Ev) (hs : ∀ bs, Ev.data c bs ∉ es) (hh : Ev.hangup c ∉ es) :
    ∀ a : A R, a.reading = some c →
    ∃ a', acceptRun parse upgrade es a = .ok a' ∧ a'.reading = some c ∧ a'.served = a.served := by
  induction es with
  | nil => intro a h; exact ⟨a, rfl, h, rfl⟩
  | cons e es ih =>
    intro a h
    have ih' := ih (fun bs hm => hs bs (List.mem_cons_of_mem _ hm))
      (fun hm => hh (List.mem_cons_of_mem _ hm))
    cases e with
    | connect d =>
      have : acceptAll parse upgrade (a.backlog ++ [d]) a =
          .ok { a with backlog := a.backlog ++ [d] } := by
        cases hb : a.backlog <;> simp [acceptAll, h]
      simp only [acceptRun, acceptStep, this, Cpp.bind]
      exact ih' { a with backlog := a.backlog ++ [d] } h
    | data d bs =>
      have hd : ¬ a.reading = some d := by
        rw [h]; intro e; injection e with e; subst e; exact hs bs (by simp)
      simp only [acceptRun, acceptStep, hd, if_false, Cpp.bind]
      exact ih' _ h
    | hangup d =>
      have hd : ¬ a.reading = some d := by
        rw [h]; intro e; injection e with e; subst e; exact hh (by simp)
      simp only [acceptRun, acceptStep, hd, if_false, Cpp.bind]
      exact ih' _ h

/-- C87 fails: requests are read one after the other, without a time limit.  If the first client to
connect sends nothing, then whatever the others do, none of them is ever served. -/
theorem accept_silent_violated {R} (parse : List Byte → Parsed R) (upgrade : R → Bool)
    (h0 : parse [] = .more) (c : Nat) (es : List Ev) (hs : ∀ bs, Ev.data c bs ∉ es)
    (hh : Ev.hangup c ∉ es) :
    ∃ a, acceptRun parse upgrade (.connect c :: es) (accept0 : A R) = .ok a ∧ a.served = [] := by
  obtain ⟨a, h1, _, h2⟩ := accept_silent parse upgrade c es hs hh
    { (accept0 : A R) with reading := some c } rfl
  refine ⟨a, ?_, h2⟩
  have : acceptAll parse upgrade [c] (accept0 : A R) =
      .ok { (accept0 : A R) with reading := some c } := by
    simp [acceptAll, accept0, parseMore, h0, Cpp.bind]
  simp only [acceptRun, acceptStep]
  have hb : (accept0 : A R).backlog ++ [c] = [c] := rfl
  rw [hb, this]
  exact h1

/-- C87 fails: the second request is read into the object which holds the first, which
`boost::beast` leaves undefined; so is every history in which two clients make a request. -/
theorem accept_second_violated {R} (parse : List Byte → Parsed R) (upgrade : R → Bool)
    (h0 : parse [] = .more) (b1 b2 : List Byte) (r1 r2 : R) (h1 : parse b1 = .done r1 [])
    (h2 : parse b2 = .done r2 []) (u2 : upgrade r2 = true) :
    let es := [Ev.connect 1, .data 1 b1, .connect 2, .data 2 b2]
    acceptRun parse upgrade es (accept0 : A R) = .ub ∧ Deserves parse upgrade es 2 r2 := by
  constructor
  · simp [acceptRun, acceptStep, accept0, acceptAll, parseMore, h0, h1, h2, Cpp.bind]
  · refine ⟨by simp, ⟨[], ?_⟩, u2⟩
    simp [sentBy, h2]

/-- C87 fails: what a client sends after the place of an error stays in the buffer, and is taken for
the beginning of the next client's request. -/
theorem accept_leftover_violated {R} (parse : List Byte → Parsed R) (upgrade : R → Bool)
    (h0 : parse [] = .more) (b1 b2 rest rest' : List Byte) (r2 : R) (h1 : parse b1 = .bad rest)
    (hr : parse rest = .more) (h2 : parse b2 = .done r2 []) (u2 : upgrade r2 = true)
    (h3 : parse (rest ++ b2) = .bad rest') :
    let es := [Ev.connect 1, .data 1 b1, .connect 2, .data 2 b2]
    (∃ a, acceptRun parse upgrade es (accept0 : A R) = .ok a ∧ a.served = []) ∧
    Deserves parse upgrade es 2 r2 := by
  constructor
  · simp [acceptRun, acceptStep, accept0, acceptAll, parseMore, h0, h1, hr, h3, Cpp.bind]
  · refine ⟨by simp, ⟨[], ?_⟩, u2⟩
    simp [sentBy, h2]

/-- What is true of the loop in every history: only the clients in `l` have connected. -/
structure Serves {R} (upgrade : R → Bool) (l : List Nat) (a : A R) : Prop where
  none : a.request = none → a.served = []
  one : a.served.length ≤ 1
  who : ∀ x ∈ a.served, x.1 ∈ l ∧ upgrade x.2 = true
  reading : ∀ c, a.reading = some c → c ∈ l
  backlog : ∀ c ∈ a.backlog, c ∈ l

theorem parseMore_serves {R} (parse : List Byte → Parsed R) (upgrade : R → Bool) (l : List Nat) (c : Nat)
    (bs : List Byte) (a a' : A R) (h : Serves upgrade l a) (hc : c ∈ l)
    (e : parseMore parse upgrade c bs a = .ok a') : Serves upgrade l a' := by
  unfold parseMore at e
  split at e
  · split at e <;> injection e with e <;> subst e
    · exact ⟨h.none, h.one, h.who, (fun _ hx => nomatch hx), h.backlog⟩
    · exact ⟨h.none, h.one, h.who, (fun x hx => by injection hx with hx; exact hx ▸ hc), h.backlog⟩
  · injection e with e
    subst e
    exact ⟨h.none, h.one, h.who, (fun _ hx => nomatch hx), h.backlog⟩
  · rename_i r rest hp
    cases hr : a.request with
    | some x => rw [hr] at e; exact nomatch e
    | none =>
      rw [hr] at e
      injection e with e
      subst e
      refine ⟨(fun hx => nomatch hx), ?_, ?_, (fun _ hx => nomatch hx), h.backlog⟩
      · cases hu : upgrade r <;> simp [h.none hr]
      · intro x hx
        cases hu : upgrade r with
        | false => simp [hu, h.none hr] at hx
        | true => simp [hu, h.none hr] at hx; subst hx; exact ⟨hc, hu⟩

theorem acceptAll_serves {R} (parse : List Byte → Parsed R) (upgrade : R → Bool) (l : List Nat) :
    ∀ (cs : List Nat) (a a' : A R), Serves upgrade l a → (∀ c ∈ cs, c ∈ l) →
      acceptAll parse upgrade cs a = .ok a' → Serves upgrade l a'
  | [], a, a', h, _, e => by
    rw [acceptAll] at e
    injection e with e
    subst e
    exact ⟨h.none, h.one, h.who, h.reading, by simp⟩
  | c :: cs, a, a', h, hc, e => by
    rw [acceptAll] at e
    split at e
    · injection e with e
      subst e
      exact ⟨h.none, h.one, h.who, h.reading, hc⟩
    · cases hp : parseMore parse upgrade c (a.inbox c) a with
      | ub => rw [hp] at e; exact nomatch e
      | ok b =>
        rw [hp] at e
        exact acceptAll_serves parse upgrade l cs b a'
          (parseMore_serves parse upgrade l c _ a b h (hc c (by simp)) hp) (fun x hx => hc x (by simp [hx])) e

theorem acceptStep_serves {R} (parse : List Byte → Parsed R) (upgrade : R → Bool) (l : List Nat) (a a' : A R)
    (ev : Ev) (h : Serves upgrade l a) (e : acceptStep parse upgrade a ev = .ok a') :
    Serves upgrade (l ++ clients [ev]) a' := by
  cases ev with
  | connect c =>
    refine acceptAll_serves parse upgrade _ _ a a' ?_ ?_ e
    · exact ⟨h.none, h.one, fun x hx => ⟨by simp [(h.who x hx).1], (h.who x hx).2⟩,
        fun x hx => by simp [h.reading x hx], fun x hx => by simp [h.backlog x hx]⟩
    · intro x hx
      rcases List.mem_append.1 hx with hx | hx
      · simp [h.backlog x hx]
      · simp [clients, List.mem_singleton.1 hx]
  | data c bs =>
    have hl : l ++ clients [Ev.data c bs] = l := by simp [clients]
    rw [hl]
    rw [acceptStep] at e
    split at e
    · rename_i hr
      cases hp : parseMore parse upgrade c bs a with
      | ub => rw [hp] at e; exact nomatch e
      | ok b =>
        rw [hp] at e
        have hb := parseMore_serves parse upgrade l c bs a b h (h.reading c hr) hp
        exact acceptAll_serves parse upgrade l _ b a' hb hb.backlog e
    · injection e with e
      subst e
      exact ⟨h.none, h.one, h.who, h.reading, h.backlog⟩
  | hangup c =>
    have hl : l ++ clients [Ev.hangup c] = l := by simp [clients]
    rw [hl]
    rw [acceptStep] at e
    split at e
    · exact acceptAll_serves parse upgrade l _ { a with reading := none } a'
        ⟨h.none, h.one, h.who, (fun _ hx => nomatch hx), h.backlog⟩ h.backlog e
    · injection e with e
      subst e
      exact ⟨h.none, h.one, h.who, h.reading, h.backlog⟩

theorem acceptRun_serves {R} (parse : List Byte → Parsed R) (upgrade : R → Bool) :
    ∀ (es : List Ev) (l : List Nat) (a a' : A R), Serves upgrade l a → acceptRun parse upgrade es a = .ok a' →
      Serves upgrade (l ++ clients es) a'
  | [], l, a, a', h, e => by injection e with e; subst e; simpa [clients] using h
  | ev :: es, l, a, a', h, e => by
    rw [acceptRun] at e
    cases hs : acceptStep parse upgrade a ev with
    | ub => rw [hs] at e; exact nomatch e
    | ok b =>
      rw [hs] at e
      have := acceptRun_serves parse upgrade es _ b a' (acceptStep_serves parse upgrade l a b ev h hs) e
      rw [List.append_assoc] at this
      have hc : clients (ev :: es) = clients [ev] ++ clients es := by
        rw [show ev :: es = [ev] ++ es from rfl]; exact List.filterMap_append
      rwa [hc]

/-- C87 fails for all clients but one: in every history, whatever the clients do, at most one of them is
ever served, before the process runs into undefined behaviour. -/
theorem accept_one_violated {R} (parse : List Byte → Parsed R) (upgrade : R → Bool) (es : List Ev) (a : A R)
    (h : acceptRun parse upgrade es accept0 = .ok a) :
    a.served.length ≤ 1 ∧ ∀ x ∈ a.served, x.1 ∈ clients es ∧ upgrade x.2 = true := by
  have := acceptRun_serves parse upgrade es [] accept0 a
    ⟨fun _ => rfl, by simp [accept0], by simp [accept0], by simp [accept0], by simp [accept0]⟩ h
  rw [List.nil_append] at this
  exact ⟨this.one, this.who⟩

theorem first_chunks {R} (parse : List Byte → Parsed R) (upgrade : R → Bool) (c : Nat)
    (r : R) (rest : List Byte) (cs : List (List Byte)) : ∀ (a : A R),
    a.reading = some c → a.request = none → a.backlog = [] → a.hung c = false →
    (∀ pre post, cs = pre ++ post → post ≠ [] → parse (a.buffer ++ pre.flatten) = .more) →
    parse (a.buffer ++ cs.flatten) = .done r rest → cs ≠ [] →
    ∃ a', acceptRun parse upgrade (cs.map (Ev.data c)) a = .ok a' ∧
      a'.served = a.served ++ if upgrade r then [(c, r)] else [] := by
  induction cs with
  | nil => intro a _ _ _ _ _ _ h; exact absurd rfl h
  | cons b cs ih =>
    intro a h1 h2 h3 h4 hm hd _
    cases cs with
    | nil =>
      simp at hd
      simp [acceptRun, acceptStep, h1, parseMore, hd, h2, Cpp.bind, h3, acceptAll]
      split <;> simp
    | cons b' cs =>
      have hb : parse (a.buffer ++ b) = .more := by
        have := hm [b] (b' :: cs) rfl (by simp)
        simpa using this
      have hs : acceptStep parse upgrade a (.data c b) =
          .ok { a with buffer := a.buffer ++ b, reading := some c, backlog := [] } := by
        simp [acceptStep, h1, parseMore, hb, h4, Cpp.bind, h3, acceptAll]
      have := ih { a with buffer := a.buffer ++ b, reading := some c, backlog := [] } rfl h2 rfl h4
        (fun pre post he hp => by
          have := hm (b :: pre) post (by rw [he]; rfl) hp
          simpa using this)
        (by simpa using hd) (by simp)
      rw [List.map_cons, acceptRun, hs]
      exact this

/-- C87, as far as it holds: the first client is served with the request it makes, in whatever
pieces the request comes.  Missing: every other client (violated, above). -/
theorem accept_first_partial {R} (parse : List Byte → Parsed R) (upgrade : R → Bool) (c : Nat)
    (cs : List (List Byte)) (r : R) (rest : List Byte) (hc : cs ≠ [])
    (hm : ∀ pre post, cs = pre ++ post → post ≠ [] → parse pre.flatten = .more)
    (hd : parse cs.flatten = .done r rest) (hu : upgrade r = true) :
    ∃ a, acceptRun parse upgrade (.connect c :: cs.map (Ev.data c)) (accept0 : A R) = .ok a ∧
      a.served = [(c, r)] := by
  have h0 : parse [] = .more := hm [] cs rfl hc
  have hs : acceptStep parse upgrade (accept0 : A R) (.connect c) =
      .ok { (accept0 : A R) with reading := some c } := by
    simp [acceptStep, accept0, acceptAll, parseMore, h0, Cpp.bind]
  obtain ⟨a, h1, h2⟩ := first_chunks parse upgrade c r rest cs
    { (accept0 : A R) with reading := some c } rfl rfl rfl rfl
    (by simpa [accept0] using hm) (by simpa [accept0] using hd) hc
  refine ⟨a, ?_, ?_⟩
  · rw [acceptRun, hs]; exact h1
  · rw [h2]; simp [accept0, hu]

/-- The loop as long as nobody has sent anything; `p` is what has happened. -/
structure Quiet {R} (p : List Ev) (a : A R) : Prop where
  request : a.request = none
  buffer : a.buffer = []
  served : a.served = []
  inbox : ∀ c, a.inbox c = []
  next : a.reading = none → a.backlog = []
  live : ∀ c, a.reading = some c → Ev.hangup c ∉ p
  gone : ∀ c, Ev.hangup c ∈ p → a.hung c = true ∨ (c ∈ clients p ∧ c ∉ a.backlog)
  hung : ∀ c, a.hung c = true → Ev.hangup c ∈ p
  known : (a.reading.toList ++ a.backlog).Sublist (clients p)

theorem acceptAll_quiet {R} (parse : List Byte → Parsed R) (upgrade : R → Bool)
    (h0 : parse [] = .more) : ∀ (cs : List Nat) (a : A R), a.reading = none → a.buffer = [] →
    (∀ c, a.inbox c = []) → acceptAll parse upgrade cs a = .ok (match cs.dropWhile a.hung with
      | [] => { a with backlog := [] }
      | d :: ds => { a with reading := some d, backlog := ds })
  | [], a, _, _, _ => rfl
  | c :: cs, a, hr, hb, hi => by
    rw [acceptAll]
    simp only [hr, parseMore, hb, hi, List.append_nil, h0]
    cases hc : a.hung c with
    | true =>
      rw [if_pos rfl, Cpp.bind, List.dropWhile_cons_of_pos hc]
      have e : ({ a with buffer := [], reading := none } : A R) = a := by
        cases a; simp_all
      rw [e, acceptAll_quiet parse upgrade h0 cs a hr hb hi, hb, hr]
    | false =>
      rw [if_neg (by simp), Cpp.bind, List.dropWhile_cons_of_neg (by simp [hc])]
      cases cs with
      | nil => simp only [acceptAll]
      | cons d ds => simp only [acceptAll]

theorem advance {R} (parse : List Byte → Parsed R) (upgrade : R → Bool) (h0 : parse [] = .more)
    (p : List Ev) (a : A R) (cs : List Nat) (h1 : a.request = none) (h2 : a.buffer = [])
    (h3 : a.served = []) (h4 : ∀ c, a.inbox c = []) (h5 : a.reading = none)
    (h6 : ∀ c, Ev.hangup c ∈ p → a.hung c = true ∨ (c ∈ clients p ∧ c ∉ cs))
    (h7 : ∀ c, a.hung c = true → Ev.hangup c ∈ p) (h8 : cs.Sublist (clients p)) :
    ∃ a', acceptAll parse upgrade cs a = .ok a' ∧ Quiet p a' := by
  rw [acceptAll_quiet parse upgrade h0 cs a h5 h2 h4]
  have hsub : (cs.dropWhile a.hung).Sublist cs := List.dropWhile_sublist _
  cases hd : cs.dropWhile a.hung with
  | nil =>
    refine ⟨_, rfl, h1, h2, h3, h4, fun _ => rfl, ?_, ?_, h7, ?_⟩
    · intro c hc; rw [h5] at hc; cases hc
    · intro c hc
      rcases h6 c hc with h | h
      · exact Or.inl h
      · exact Or.inr ⟨h.1, by simp⟩
    · rw [h5]; exact List.nil_sublist _
  | cons d ds =>
    rw [hd] at hsub
    have hf : a.hung d = false := by
      have := List.head_dropWhile_not a.hung (l := cs) (by rw [hd]; simp)
      simpa [hd] using this
    refine ⟨_, rfl, h1, h2, h3, h4, (fun h => nomatch h), ?_, ?_, h7, ?_⟩
    · intro c hc hm
      injection hc with hc
      subst hc
      rcases h6 d hm with h | h
      · rw [hf] at h; cases h
      · exact h.2 (hsub.subset (by simp))
    · intro c hc
      rcases h6 c hc with h | h
      · exact Or.inl h
      · exact Or.inr ⟨h.1, fun hx => h.2 (hsub.subset (by simp [show c ∈ ds from hx]))⟩
    · exact hsub.trans h8

theorem accept_quiet {R} (parse : List Byte → Parsed R) (upgrade : R → Bool) (h0 : parse [] = .more) :
    ∀ (es p : List Ev) (a : A R), Quiet p a → (∀ c bs, Ev.data c bs ∉ es) → (clients (p ++ es)).Nodup →
    ∃ a', acceptRun parse upgrade es a = .ok a' ∧ Quiet (p ++ es) a'
  | [], p, a, h, _, _ => ⟨a, rfl, by simpa using h⟩
  | e :: es, p, a, h, hd, hn => by
    have hn' : (clients (p ++ [e])).Nodup := by
      refine List.Nodup.sublist ?_ hn
      have : clients (p ++ e :: es) = clients (p ++ [e]) ++ clients es := by
        rw [List.append_cons]; exact List.filterMap_append
      rw [this]
      exact List.sublist_append_left _ _
    have key : ∃ a', acceptStep parse upgrade a e = .ok a' ∧ Quiet (p ++ [e]) a' := by
      cases e with
      | data c bs => exact absurd (by simp) (hd c bs)
      | connect c =>
        have hcl : clients (p ++ [.connect c]) = clients p ++ [c] := by simp [clients]
        have hnot : c ∉ clients p := by
          rw [hcl] at hn'
          intro hm
          exact (List.nodup_append.1 hn').2.2 c hm c (by simp) rfl
        have hg : ∀ x, Ev.hangup x ∈ p ++ [Ev.connect c] →
            a.hung x = true ∨ (x ∈ clients (p ++ [.connect c]) ∧ x ∉ a.backlog ++ [c]) := by
          intro x hm
          rcases h.gone x (by simpa using hm) with g | g
          · exact Or.inl g
          · refine Or.inr ⟨by rw [hcl]; exact List.mem_append_left _ g.1, ?_⟩
            intro hx
            rcases List.mem_append.1 hx with hx | hx
            · exact g.2 hx
            · exact hnot (by rw [← List.mem_singleton.1 hx]; exact g.1)
        cases hr : a.reading with
        | some d =>
          refine ⟨{ a with backlog := a.backlog ++ [c] }, ?_, ?_⟩
          · simp only [acceptStep]
            cases hb : a.backlog <;> simp [acceptAll, hr]
          · refine ⟨h.request, h.buffer, h.served, h.inbox, by simp [hr], ?_, hg, ?_, ?_⟩
            · intro x hx hm
              refine h.live x hx ?_
              simpa using hm
            · intro x hx; exact List.mem_append_left _ (h.hung x hx)
            · rw [hcl, ← List.append_assoc]
              exact h.known.append (List.Sublist.refl _)
        | none =>
          refine advance parse upgrade h0 _ a _ h.request h.buffer h.served h.inbox hr hg ?_ ?_
          · intro x hx; exact List.mem_append_left _ (h.hung x hx)
          · rw [hcl, h.next hr]; exact List.sublist_append_right _ _
      | hangup c =>
        have hcl : clients (p ++ [.hangup c]) = clients p := by simp [clients]
        rw [hcl] at hn'
        by_cases hr : a.reading = some c
        · have hk : (c :: a.backlog).Sublist (clients p) := by
            have := h.known; rwa [hr] at this
          simp only [acceptStep, hr, if_true]
          refine advance parse upgrade h0 _ { a with reading := none } _ h.request h.buffer
            h.served h.inbox rfl ?_ ?_ ?_
          · intro x hm
            rw [hcl]
            rcases List.mem_append.1 hm with hm | hm
            · exact h.gone x hm
            · have : x = c := by simpa using hm
              subst this
              exact Or.inr ⟨hk.subset (by simp), (List.nodup_cons.1 (hk.nodup hn')).1⟩
          · intro x hx; exact List.mem_append_left _ (h.hung x hx)
          · rw [hcl]; exact (List.sublist_cons_self c a.backlog).trans hk
        · simp only [acceptStep, hr, if_false]
          refine ⟨_, rfl, h.request, h.buffer, h.served, h.inbox, h.next, ?_, ?_, ?_, ?_⟩
          · intro x hx hm
            rcases List.mem_append.1 hm with hm | hm
            · exact h.live x hx hm
            · have : x = c := by simpa using hm
              subst this
              exact hr hx
          · intro x hm
            by_cases hxc : x = c
            · exact Or.inl (by simp [hxc])
            · rw [hcl]
              rcases h.gone x (by simpa [hxc] using hm) with g | g
              · exact Or.inl (by simp [g])
              · exact Or.inr g
          · intro x hx
            by_cases hxc : x = c
            · simp [hxc]
            · exact List.mem_append_left _ (h.hung x (by simpa [hxc] using hx))
          · rw [hcl]; exact h.known
    obtain ⟨a', e1, h1⟩ := key
    obtain ⟨a'', e2, h2⟩ := accept_quiet parse upgrade h0 es (p ++ [e]) a' h1
      (fun c bs hm => hd c bs (by simp [hm])) (by simpa using hn)
    exact ⟨a'', by simp only [acceptRun, e1, Cpp.bind]; exact e2, by simpa using h2⟩

theorem acceptRun_append {R} (parse : List Byte → Parsed R) (upgrade : R → Bool) :
    ∀ (xs ys : List Ev) (a : A R), acceptRun parse upgrade (xs ++ ys) a =
      (acceptRun parse upgrade xs a).bind (acceptRun parse upgrade ys)
  | [], _, _ => rfl
  | x :: xs, ys, a => by
    rw [List.cons_append, acceptRun, acceptRun]
    cases acceptStep parse upgrade a x with
    | ub => rfl
    | ok b => exact acceptRun_append parse upgrade xs ys b

/-- C87, as far as it holds: clients which came before and went without a word, in whatever order
they came and went, do not stand in the way: the next client is served with the request it makes, in
whatever pieces it comes.  Missing: a client which comes after one that made a request, or whose
predecessor is still there (violated, above). -/
theorem accept_after_silent_partial {R} (parse : List Byte → Parsed R) (upgrade : R → Bool)
    (pre : List Ev) (c : Nat) (cs : List (List Byte)) (r : R) (rest : List Byte)
    (hsay : ∀ d bs, Ev.data d bs ∉ pre) (honce : (clients pre).Nodup)
    (hleft : ∀ d, Ev.connect d ∈ pre → Ev.hangup d ∈ pre) (hnew : Ev.hangup c ∉ pre)
    (hc : cs ≠ []) (hm : ∀ p q, cs = p ++ q → q ≠ [] → parse p.flatten = .more)
    (hd : parse cs.flatten = .done r rest) (hu : upgrade r = true) :
    ∃ a, acceptRun parse upgrade (pre ++ .connect c :: cs.map (Ev.data c)) (accept0 : A R) = .ok a ∧
      a.served = [(c, r)] := by
  have h0 : parse [] = .more := hm [] cs rfl hc
  have q0 : Quiet [] (accept0 : A R) :=
    ⟨rfl, rfl, rfl, fun _ => rfl, fun _ => rfl, by simp, by simp, by simp [accept0],
      by simp [accept0]⟩
  obtain ⟨a, ha, q⟩ := accept_quiet parse upgrade h0 pre [] accept0 q0 hsay (by simpa using honce)
  rw [List.nil_append] at q
  have hmem : ∀ d, d ∈ clients pre → Ev.connect d ∈ pre := by
    intro d hd
    simp only [clients, List.mem_filterMap] at hd
    obtain ⟨e, he, h⟩ := hd
    cases e <;> simp at h
    subst h; exact he
  have hr : a.reading = none := by
    cases hr : a.reading with
    | none => rfl
    | some d =>
      exfalso
      refine q.live d hr (hleft d (hmem d (q.known.subset ?_)))
      simp [hr]
  have hh : a.hung c = false := by
    cases h : a.hung c with
    | false => rfl
    | true => exact absurd (q.hung c h) hnew
  have hs : acceptStep parse upgrade a (.connect c) = .ok { a with reading := some c } := by
    have hb := q.next hr
    rw [acceptStep, hb, acceptAll_quiet parse upgrade h0 _ a hr q.buffer q.inbox]
    rw [List.nil_append, List.dropWhile_cons_of_neg (by simp [hh])]
  obtain ⟨a', h1, h2⟩ := first_chunks parse upgrade c r rest cs { a with reading := some c } rfl
    q.request (q.next hr) hh (by simpa [q.buffer] using hm) (by simpa [q.buffer] using hd) hc
  refine ⟨a', ?_, ?_⟩
  · rw [acceptRun_append, ha, Cpp.bind, acceptRun, hs]; exact h1
  · rw [h2]; simp [q.served, hu]

/-- C87, as far as it holds: a client whose request cannot be read is turned away, and if nothing of
what it sent is left over the next client is served.  Missing: what is left over (violated,
above). -/
theorem accept_after_bad_partial {R} (parse : List Byte → Parsed R) (upgrade : R → Bool)
    (d : Nat) (b : List Byte) (c : Nat) (cs : List (List Byte)) (r : R) (rest : List Byte)
    (hbad : parse b = .bad []) (hc : cs ≠ [])
    (hm : ∀ p q, cs = p ++ q → q ≠ [] → parse p.flatten = .more)
    (hd : parse cs.flatten = .done r rest) (hu : upgrade r = true) :
    ∃ a, acceptRun parse upgrade (.connect d :: .data d b :: .connect c :: cs.map (Ev.data c))
      (accept0 : A R) = .ok a ∧ a.served = [(c, r)] := by
  have h0 : parse [] = .more := hm [] cs rfl hc
  obtain ⟨a, h1, h2⟩ := first_chunks parse upgrade c r rest cs
    { (accept0 : A R) with reading := some c } rfl rfl rfl rfl
    (by simpa [accept0] using hm) (by simpa [accept0] using hd) hc
  refine ⟨a, ?_, by rw [h2]; simp [accept0, hu]⟩
  rw [← h1]
  simp [acceptRun, acceptStep, accept0, acceptAll, parseMore, h0, hbad, Cpp.bind]

/-- A toy protocol for the examples: a request is `U` and then a newline; the parser stops at the
first byte which cannot be. -/
def exParse : List Byte → Parsed Nat
  | [] => .more
  | [a] => if a = 85 then .more else .bad []
  | a :: b :: rest => if a ≠ 85 then .bad (b :: rest) else if b = 10 then .done 1 rest else .bad rest

example : exParse [] = .more ∧ exParse [85, 10] = .done 1 [] ∧
    exParse [0, 85] = .bad [85] ∧ exParse [85] = .more ∧ exParse ([85] ++ [85, 10]) = .bad [10] := by
  decide
example : ∀ pre post, [[85], [10, 7]] = pre ++ post → post ≠ [] →
    exParse pre.flatten = .more := by
  intro pre post h hp
  match pre, h with
  | [], _ => rfl
  | [x], h => simp at h; obtain ⟨rfl, _⟩ := h; decide
  | x :: y :: t, h =>
    simp at h
    exact absurd h.2.2.2 hp
example : exParse [[85], [10, 7]].flatten = .done 1 [7] := by decide
/-- Three clients came and went, the second while the first was being read; the fourth is served. -/
def exPre : List Ev := [.connect 1, .connect 2, .hangup 2, .connect 3, .hangup 1, .hangup 3]
example : (∀ d bs, Ev.data d bs ∉ exPre) ∧ (clients exPre).Nodup ∧
    (∀ d, Ev.connect d ∈ exPre → Ev.hangup d ∈ exPre) ∧ Ev.hangup 4 ∉ exPre := by
  refine ⟨fun d bs => by simp [exPre], by decide, fun d h => ?_, by decide⟩
  simp [exPre] at h ⊢
  omega
example : exParse [7] = .bad [] := by decide

/-! ## C88: the JavaScript server -/

theorem jsSend_all {X M} (m : M) (cs : List Nat) : ∀ s : J X M,
    (∀ c ∈ cs, s.opened c = true) →
    jsSend m cs s = { s with sent := s.sent ++ cs.map fun c => (c, m) } := by
  induction cs with
  | nil => intro s _; simp [jsSend]
  | cons c cs ih =>
    intro s h
    have h1 := h c (by simp)
    simp only [jsSend, h1, if_true]
    rw [ih { s with sent := s.sent ++ [(c, m)] } (fun d hd => h d (List.mem_cons_of_mem _ hd))]
    simp

theorem jsRun_ok {D X M} (read : D → Option (Option X)) (es : List (JsEv D M)) :
    ∀ (s : J X M) (seen : List Nat), s.running = true → (∀ c ∈ s.connections, s.opened c = true) →
    Polite read es seen →
    (jsRun read es s).running = true ∧
    (jsRun read es s).sent = s.sent ++ jsSends read es s.connections ∧
    (jsRun read es s).received = s.received ++ jsReceives read es := by
  induction es with
  | nil => intro s _ h _ _; simp [jsRun, jsSends, jsReceives, h]
  | cons e es ih =>
    intro s seen hr ho hp
    cases e with
    | connect c =>
      simp only [Polite] at hp
      have := ih (jsStep read s (.connect c)) (c :: seen) (by simp [jsStep, hr])
        (by
          intro d hd
          simp [jsStep, hr] at hd ⊢
          rcases hd with hd | hd
          · exact .inr (ho d hd)
          · exact .inl hd)
        hp.2
      simp [jsRun, jsSends, jsReceives] at this ⊢
      refine ⟨this.1, ?_, ?_⟩
      · rw [this.2.1]; simp [jsStep, hr]
      · rw [this.2.2]; simp [jsStep, hr]
    | message c d =>
      simp only [Polite] at hp
      cases hd : read d with
      | none => exact absurd hd hp.1
      | some x =>
        cases x with
        | none =>
          have := ih (jsStep read s (.message c d)) seen (by simp [jsStep, hr, hd])
            (by
              intro i hi
              simp [jsStep, hr, hd] at hi ⊢
              exact ⟨hi.2, ho i hi.1⟩)
            hp.2
          simp [jsRun, jsSends, jsReceives, hd] at this ⊢
          refine ⟨this.1, ?_, ?_⟩
          · rw [this.2.1]; simp [jsStep, hr, hd]
          · rw [this.2.2]; simp [jsStep, hr, hd]
        | some x =>
          have := ih (jsStep read s (.message c d)) seen (by simp [jsStep, hr, hd])
            (by simpa [jsStep, hr, hd] using ho) hp.2
          simp [jsRun, jsSends, jsReceives, hd] at this ⊢
          refine ⟨this.1, ?_, ?_⟩
          · rw [this.2.1]; simp [jsStep, hr, hd]
          · rw [this.2.2]; simp [jsStep, hr, hd]
    | clientClose c => simp [Polite] at hp
    | send m =>
      simp only [Polite] at hp
      have hs : jsStep read s (.send m) =
          { s with sent := s.sent ++ s.connections.map fun c => (c, m) } := by
        simp [jsStep, hr, jsSend_all m s.connections s ho]
      have := ih (jsStep read s (.send m)) seen (by rw [hs]; exact hr)
        (by rw [hs]; exact ho) hp
      simp [jsRun, jsSends, jsReceives] at this ⊢
      refine ⟨this.1, ?_, ?_⟩
      · rw [this.2.1, hs]; simp
      · rw [this.2.2, hs]

/-- C88, as far as it holds: while no client closes its connection or sends what is not JSON, each
message sent downstream goes once to each connection there at the time, and each readable message of
a client goes once, in order, to the context; a client whose message cannot be read is dropped.
Missing: the two cases below. -/
theorem js_server_partial {D X M} (read : D → Option (Option X)) (es : List (JsEv D M))
    (hp : Polite read es []) :
    (jsRun read es (js0 : J X M)).running = true ∧
    (jsRun read es (js0 : J X M)).sent = jsSends read es [] ∧
    (jsRun read es (js0 : J X M)).received = jsReceives read es := by
  simpa [js0] using jsRun_ok read es (js0 : J X M) [] rfl (by simp [js0]) hp

/-- A reader: `0` is not JSON, `1` cannot be deserialized. -/
def exRead (d : Nat) : Option (Option Nat) :=
  if d = 0 then none else if d = 1 then some none else some (some d)

/-- A history. -/
def exEvs : List (JsEv Nat Nat) :=
  [.connect 1, .connect 2, .send 10, .message 2 7, .message 1 1, .send 11, .connect 3, .send 12]

example : Polite exRead exEvs [] := by simp [exEvs, Polite, exRead]
example : jsSends exRead exEvs [] = [(1, 10), (2, 10), (2, 11), (2, 12), (3, 12)] ∧
    jsReceives exRead exEvs = [(2, 7)] := by decide

/-- C88 fails: a connection closed by its client stays in the list, and sending to it throws; so
from then on no message reaches a connection made after it, for as long as messages are sent. -/
theorem js_server_close_violated {D X M} (read : D → Option (Option X)) (a b : Nat) (hab : a ≠ b)
    (ms : List M) :
    let es := [JsEv.connect (D := D) a, .connect b, .clientClose a] ++ ms.map .send
    (jsRun read es (js0 : J X M)).sent = [] ∧
    (jsRun read es (js0 : J X M)).connections = [a, b] ∧
    jsSends read es [] = ms.map fun m => (b, m) := by
  have hrun : ∀ (ms : List M) (s : J X M), s.running = true → s.connections = [a, b] →
      s.opened a = false → s.sent = [] →
      (jsRun read (ms.map (JsEv.send (D := D))) s).sent = [] ∧
      (jsRun read (ms.map (JsEv.send (D := D))) s).connections = [a, b] := by
    intro ms
    induction ms with
    | nil => intro s _ h _ h'; exact ⟨h', h⟩
    | cons m ms ih =>
      intro s h1 h2 h3 h4
      have : jsStep read s (JsEv.send (D := D) m) = s := by
        simp [jsStep, h1, h2, jsSend, h3]
      simp only [List.map_cons, jsRun, this]
      exact ih s h1 h2 h3 h4
  have hspec : ∀ (ms : List M), jsSends read (ms.map (JsEv.send (D := D))) [b] =
      ms.map fun m => (b, m) := by
    intro ms
    induction ms with
    | nil => rfl
    | cons m ms ih => simp [jsSends, ih]
  refine ⟨?_, ?_, ?_⟩
  · simp only [List.cons_append, List.nil_append, jsRun]
    exact (hrun ms _ (by simp [jsStep, js0]) (by simp [jsStep, js0]) (by simp [jsStep, js0])
      (by simp [jsStep, js0])).1
  · simp only [List.cons_append, List.nil_append, jsRun]
    exact (hrun ms _ (by simp [jsStep, js0]) (by simp [jsStep, js0]) (by simp [jsStep, js0])
      (by simp [jsStep, js0])).2
  · have hba : b ≠ a := fun e => hab e.symm
    simp [jsSends, hba, hspec]

/-- C88 fails: a message which is not JSON ends the server, for every client. -/
theorem js_server_json_violated {D X M} (read : D → Option (Option X)) (d : D) (h : read d = none)
    (es : List (JsEv D M)) (c : Nat) (s : J X M) (hr : s.running = true) :
    let s' := jsRun read (.message c d :: es) s
    s'.running = false ∧ s'.sent = s.sent ∧ s'.received = s.received := by
  have : ∀ (es : List (JsEv D M)) (s : J X M), s.running = false → jsRun read es s = s := by
    intro es
    induction es with
    | nil => intro s _; rfl
    | cons e es ih => intro s hs; simp [jsRun, jsStep, hs, ih]
  have h1 : jsStep read s (JsEv.message (M := M) c d) = { s with running := false } := by
    simp [jsStep, hr, h]
  simp only [jsRun, h1]
  rw [this es _ rfl]
  simp

example : exRead 0 = none := by decide

end Nbdl.Server
