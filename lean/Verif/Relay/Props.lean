import Verif.Relay.Lemmas
/-!
# C139: a server that echoes tells everyone everything, in one order
-/
namespace Nbdl.Relay
open MapStore (Msg Payload)
open Spec (told sent taken order up confirmed ofClient Interleaves)

variable {P V : Type}

theorem start_proper (n : Nat) : Proper (start n : Sys P V) := by
  intro c hc
  rw [start, List.mem_replicate] at hc
  rw [hc.2]
  exact ⟨fun w hw => absurd hw List.not_mem_nil, fun w hw => absurd hw List.not_mem_nil⟩

theorem start_at {n i : Nat} (hi : i < n) : (start n : Sys P V)[i]? = some ⟨.fresh, [], [], []⟩ := by
  rw [start, List.getElem?_replicate, if_pos hi]

theorem run_proper {s : Sys P V} (hp : Proper s) (h : List (Step P V)) : Proper (run s h) := by
  induction h generalizing s with
  | nil => exact hp
  | cons x h ih => exact ih (step_proper hp x)

theorem run_append (s : Sys P V) (a b : List (Step P V)) : run s (a ++ b) = run (run s a) b := by
  induction a generalizing s with
  | nil => rfl
  | cons x a ih => exact ih _

theorem order_append (s : Sys P V) (a b : List (Step P V)) : order s (a ++ b) = order s a ++ order (run s a) b := by
  induction a generalizing s with
  | nil => rfl
  | cons x a ih =>
    rw [List.cons_append, order, ih, order, run, List.append_assoc]

theorem sent_cons (i : Nat) (x : Step P V) (h : List (Step P V)) : sent i (x :: h) = sent i [x] ++ sent i h := by
  cases x with
  | send j t r =>
    simp only [sent]
    split <;> rfl
  | _ => rfl

theorem ofClient_append (i : Nat) (a b : List (Nat × Wire P V)) : ofClient i (a ++ b) = ofClient i a ++ ofClient i b := by
  simp [ofClient]

/-- What has been sent has been read or is waiting. -/
theorem step_outbox {s : Sys P V} (hp : Proper s) (x : Step P V) {i : Nat} {c : Client P V} (hc : s[i]? = some c) :
    c.outbox ++ (sent i [x]).map up = ofClient i (taken s x) ++ (local' s x i c).outbox := by
  cases x with
  | send j t r =>
    by_cases e : j = i
    · simp [sent, local', e, taken, ofClient, up]
    · simp [sent, local', e, taken, ofClient]
  | accept j =>
    unfold local'
    dsimp only
    split <;> simp [sent, taken, ofClient]
  | leave j =>
    unfold local'
    dsimp only
    split <;> simp [sent, taken, ofClient]
  | deliver j =>
    unfold local'
    dsimp only
    split
    · split <;> simp [sent, taken, ofClient]
    · simp [sent, taken, ofClient]
  | serve j =>
    unfold local'
    dsimp only
    cases hr : taken s (.serve j) with
    | nil => simp [sent, ofClient]
    | cons y l =>
      obtain ⟨rest, ib, hd, e, e1, e2⟩ := read_serve (s := s) (i := j) (x := y) (by rw [hr]; exact List.mem_cons_self)
      rw [hr] at e2
      rw [e2]
      rcases y with ⟨j', w⟩
      dsimp only at e e1 ⊢
      subst e1
      have hb : ∀ (ws : List (Wire P V)) (d : Client P V), (broadcast ws d).outbox = d.outbox := by
        intro ws d
        unfold broadcast
        split <;> rfl
      rw [hb]
      by_cases ej : j' = i
      · subst ej
        rw [hc] at e
        simp only [Option.some.injEq] at e
        subst e
        simp [sent, ofClient]
      · simp [sent, ofClient, ej]

theorem run_outbox {s : Sys P V} (hp : Proper s) (h : List (Step P V)) {i : Nat} {c : Client P V}
    (hc : s[i]? = some c) :
    ∃ c', (run s h)[i]? = some c' ∧ c.outbox ++ (sent i h).map up = ofClient i (order s h) ++ c'.outbox := by
  induction h generalizing s c with
  | nil => exact ⟨c, hc, by simp [sent, order, ofClient]⟩
  | cons x h ih =>
    have hl : (step s x)[i]? = some (local' s x i c) := by rw [step_local hp, hc]; rfl
    obtain ⟨c', h1, h2⟩ := ih (step_proper hp x) hl
    refine ⟨c', h1, ?_⟩
    rw [sent_cons, List.map_append, ← List.append_assoc, step_outbox hp x hc, order, ofClient_append, List.append_assoc,
      h2, List.append_assoc]

/-- Every message read while a client is registered is on its way to it. -/
theorem step_open {s : Sys P V} (x : Step P V) {i : Nat} {c : Client P V}
    (ho : c.conn = .opened) (hl : x ≠ .leave i) :
    (local' s x i c).conn = .opened ∧
    (local' s x i c).handed ++ (local' s x i c).inbox
      = c.handed ++ c.inbox ++ (taken s x).map fun y => confirmed y.2 := by
  cases x with
  | send j t r =>
    unfold local'
    dsimp only
    split <;> simp [ho, taken]
  | accept j =>
    unfold local'
    dsimp only
    rw [if_neg (fun h => by rw [ho] at h; cases h.2)]
    simp [ho, taken]
  | leave j =>
    unfold local'
    dsimp only
    rw [if_neg (fun h => hl (by rw [h.1]))]
    simp [ho, taken]
  | deliver j =>
    unfold local'
    dsimp only
    split
    · split
      · simp [ho, taken]
      · rename_i w rest e
        simp [ho, taken, e]
    · simp [ho, taken]
  | serve j =>
    unfold local'
    dsimp only
    cases hr : taken s (.serve j) with
    | nil => simp [ho]
    | cons y l =>
      obtain ⟨rest, ib, hd, e, e1, e2⟩ := read_serve (s := s) (i := j) (x := y) (by rw [hr]; exact List.mem_cons_self)
      rw [hr] at e2
      rw [e2]
      rcases y with ⟨j', w⟩
      dsimp only
      split
      · simp [broadcast, ho]
      · simp [broadcast, ho]

theorem run_open {s : Sys P V} (hp : Proper s) (h : List (Step P V)) {i : Nat} {c : Client P V}
    (hc : s[i]? = some c) (ho : c.conn = .opened) (hl : Step.leave i ∉ h) :
    ∃ c', (run s h)[i]? = some c' ∧ c'.conn = .opened ∧
      c'.handed ++ c'.inbox = c.handed ++ c.inbox ++ (order s h).map fun y => confirmed y.2 := by
  induction h generalizing s c with
  | nil => exact ⟨c, hc, ho, by simp [order]⟩
  | cons x h ih =>
    have e : (step s x)[i]? = some (local' s x i c) := by rw [step_local hp, hc]; rfl
    have hx : x ≠ .leave i := fun e => hl (e ▸ List.mem_cons_self)
    obtain ⟨h1, h2⟩ := step_open (s := s) x ho hx
    obtain ⟨c', h3, h4, h5⟩ := ih (step_proper hp x) e h1 (fun m => hl (List.mem_cons_of_mem _ m))
    refine ⟨c', h3, h4, ?_⟩
    rw [h5, h2, order, List.map_append, List.append_assoc]

/-- Nothing is sent to, or read from, one that is not. -/
theorem step_shut {s : Sys P V} (x : Step P V) {i : Nat} {c : Client P V} (hc : s[i]? = some c)
    (ho : c.conn ≠ .opened) (ha : x = .accept i → c.conn = .closed) :
    (local' s x i c).conn = c.conn ∧
    (local' s x i c).handed ++ (local' s x i c).inbox = c.handed ++ c.inbox ∧ ofClient i (taken s x) = [] := by
  cases x with
  | send j t r =>
    unfold local'
    dsimp only
    split <;> simp [taken, ofClient]
  | accept j =>
    unfold local'
    dsimp only
    rw [if_neg (fun h => by rw [ha (by rw [h.1])] at h; cases h.2)]
    simp [taken, ofClient]
  | leave j =>
    unfold local'
    dsimp only
    rw [if_neg (fun h => ho h.2)]
    simp [taken, ofClient]
  | deliver j =>
    unfold local'
    dsimp only
    split
    · split
      · simp [taken, ofClient]
      · rename_i w rest e
        simp [taken, ofClient, e]
    · simp [taken, ofClient]
  | serve j =>
    unfold local'
    dsimp only
    cases hr : taken s (.serve j) with
    | nil => simp [ofClient]
    | cons y l =>
      obtain ⟨rest, ib, hd, e, e1, e2⟩ := read_serve (s := s) (i := j) (x := y) (by rw [hr]; exact List.mem_cons_self)
      rw [hr] at e2
      rw [e2]
      rcases y with ⟨j', w⟩
      dsimp only at e e1 ⊢
      subst e1
      have hne : j' ≠ i := by
        intro h
        subst h
        rw [hc] at e
        simp only [Option.some.injEq] at e
        subst e
        exact ho rfl
      rw [if_neg hne]
      refine ⟨?_, ?_, by simp [ofClient, hne]⟩
      · unfold broadcast
        split <;> rfl
      · unfold broadcast
        split
        · rename_i h
          exact absurd h ho
        · rfl

theorem run_shut {s : Sys P V} (hp : Proper s) (h : List (Step P V)) {i : Nat} {c : Client P V}
    (hc : s[i]? = some c) (ho : c.conn ≠ .opened) (ha : Step.accept i ∈ h → c.conn = .closed) :
    ∃ c', (run s h)[i]? = some c' ∧ c'.conn = c.conn ∧ c'.handed ++ c'.inbox = c.handed ++ c.inbox ∧
      ofClient i (order s h) = [] := by
  induction h generalizing s c with
  | nil => exact ⟨c, hc, rfl, rfl, rfl⟩
  | cons x h ih =>
    have e : (step s x)[i]? = some (local' s x i c) := by rw [step_local hp, hc]; rfl
    obtain ⟨h1, h2, h6⟩ := step_shut (s := s) x hc ho (fun m => ha (m ▸ List.mem_cons_self))
    obtain ⟨c', h3, h4, h5, h7⟩ := ih (step_proper hp x) e (by rw [h1]; exact ho)
      (fun m => by rw [h1]; exact ha (List.mem_cons_of_mem _ m))
    exact ⟨c', h3, by rw [h4, h1], by rw [h5, h2], by rw [order, ofClient_append, h6, h7]; rfl⟩

/-- A client of a history from the start, before it is registered. -/
theorem before {n i : Nat} (hi : i < n) (h : List (Step P V)) (ha : Step.accept i ∉ h) :
    ∃ c, (run (start n) h)[i]? = some c ∧ c.conn = .fresh ∧ c.handed ++ c.inbox = [] ∧
      ofClient i (order (start n) h) = [] := by
  obtain ⟨c, h1, h2, h3, h4⟩ := run_shut (start_proper n) h (start_at hi) (by simp) (fun m => absurd m ha)
  exact ⟨c, h1, h2, h3, h4⟩

theorem accepted {s : Sys P V} (hp : Proper s) {i : Nat} {c : Client P V} (hc : s[i]? = some c)
    (hf : c.conn = .fresh) :
    (step s (.accept i))[i]? = some ⟨.opened, c.outbox, c.inbox, c.handed⟩ := by
  rw [step_local hp, hc]
  simp [local', hf]

theorem left {s : Sys P V} (hp : Proper s) {i : Nat} {c : Client P V} (hc : s[i]? = some c)
    (hf : c.conn = .opened) :
    (step s (.leave i))[i]? = some ⟨.closed, c.outbox, c.inbox, c.handed⟩ := by
  rw [step_local hp, hc]
  simp [local', hf]

/-- **C139.** In every history of any number of clients: what each client has sent is read by the server once and in
order, as far as it has been read, and the rest is waiting. -/
theorem senders_in_order (n : Nat) (h : List (Step P V)) {i : Nat} (hi : i < n) :
    ∃ c, (run (start n) h)[i]? = some c ∧ (sent i h).map up = ofClient i (order (start n) h) ++ c.outbox := by
  obtain ⟨c, h1, h2⟩ := run_outbox (start_proper n) h (start_at hi)
  exact ⟨c, h1, by simpa using h2⟩

/-- **C139.** A client that is registered and has not left has been handed, or is going to be handed, what has been read
since it was registered: all of it, in the order in which it was read, nothing else, each message once; a client that
is not registered has been handed nothing. -/
theorem heard_exact (n : Nat) (h₁ h₂ : List (Step P V)) {i : Nat} (hi : i < n)
    (ha : Step.accept i ∉ h₁) (hl : Step.leave i ∉ h₂) :
    (∃ c, (run (start n) h₁)[i]? = some c ∧ c.handed = [] ∧ c.inbox = []) ∧
    ∃ c, (run (start n) (h₁ ++ .accept i :: h₂))[i]? = some c ∧
      c.handed ++ c.inbox =
        ((order (start n) (h₁ ++ .accept i :: h₂)).drop (order (start n) h₁).length).map fun y => confirmed y.2 := by
  obtain ⟨c, h1, h2, h3, _⟩ := before hi h₁ ha
  refine ⟨⟨c, h1, (List.append_eq_nil_iff.1 h3).1, (List.append_eq_nil_iff.1 h3).2⟩, ?_⟩
  have hp := run_proper (start_proper (P := P) (V := V) n) h₁
  obtain ⟨c', h4, _, h6⟩ := run_open (step_proper hp (.accept i)) h₂ (accepted hp h1 h2) rfl hl
  refine ⟨c', by rw [run_append]; exact h4, ?_⟩
  have e : order (run (start n) h₁) (.accept i :: h₂) = order (step (run (start n) h₁) (.accept i)) h₂ := rfl
  rw [order_append, List.drop_left, e, h6]
  have h3' : c.handed ++ c.inbox = [] := h3
  simp only [h3', List.nil_append]

/-- **C139.** A client that has left is handed, at most, what was read while it was registered. -/
theorem left_exact (n : Nat) (h₁ h₂ h₃ : List (Step P V)) {i : Nat} (hi : i < n)
    (ha : Step.accept i ∉ h₁) (hl : Step.leave i ∉ h₂) :
    ∃ c, (run (start n) (h₁ ++ .accept i :: h₂ ++ .leave i :: h₃))[i]? = some c ∧
      c.handed ++ c.inbox =
        ((order (start n) (h₁ ++ .accept i :: h₂)).drop (order (start n) h₁).length).map fun y => confirmed y.2 := by
  obtain ⟨c, h1, h2, h3, _⟩ := before hi h₁ ha
  have hp := run_proper (start_proper (P := P) (V := V) n) h₁
  obtain ⟨c', h4, h5, h6⟩ := run_open (step_proper hp (.accept i)) h₂ (accepted hp h1 h2) rfl hl
  have hp2 := run_proper (step_proper hp (.accept i)) h₂
  obtain ⟨c'', h7, _, h9, _⟩ := run_shut (step_proper hp2 (.leave i)) h₃ (left hp2 h4 h5) (by simp) (fun _ => rfl)
  refine ⟨c'', by rw [run_append, run_append]; exact h7, ?_⟩
  have e : order (run (start n) h₁) (.accept i :: h₂) = order (step (run (start n) h₁) (.accept i)) h₂ := rfl
  rw [order_append, List.drop_left, e, h9]
  have h3' : c.handed ++ c.inbox = [] := h3
  simpa only [h3', List.nil_append] using h6

/-- Everyone who is read is a client. -/
theorem order_bound (s : Sys P V) (h : List (Step P V)) : ∀ x ∈ order s h, x.1 < s.length := by
  induction h generalizing s with
  | nil => intro x hx; cases hx
  | cons y h ih =>
    intro x hx
    rw [order, List.mem_append] at hx
    rcases hx with hx | hx
    · cases y with
      | serve i =>
        obtain ⟨_, _, _, e, e1, _⟩ := read_serve hx
        rw [e1]
        exact (List.getElem?_eq_some_iff.1 e).1
      | send i t r => cases hx
      | accept i => cases hx
      | leave i => cases hx
      | deliver i => cases hx
    · have := ih (step s y) x hx
      rwa [step_length] at this

/-- Nothing is left to do. -/
def Drained (s : Sys P V) : Prop := ∀ c ∈ s, c.outbox = [] ∧ c.inbox = []

/-- **C139.** When nothing is on its way any more, a client that was registered before anyone was read, and has not left,
has been handed every message that anyone has sent, each once, confirmed, and those of each sender in the order in which
they were sent; and two such clients have been handed the same messages in the same order. -/
theorem everyone_hears (n : Nat) (h : List (Step P V)) (hd : Drained (run (start n) h)) :
    ∃ R : List (Nat × Wire P V), Interleaves R n (fun j => (sent j h).map up) ∧
      ∀ i, i < n → ∀ h₁ h₂ : List (Step P V), h = h₁ ++ .accept i :: h₂ → order (start n) h₁ = [] →
        Step.accept i ∉ h₁ → Step.leave i ∉ h₂ →
        ∃ c, (run (start n) h)[i]? = some c ∧ c.handed = R.map fun y => confirmed y.2 := by
  refine ⟨order (start n) h, ⟨fun x hx => ?_, fun j hj => ?_⟩, ?_⟩
  · have := order_bound (start n) h x hx
    rwa [start, List.length_replicate] at this
  · obtain ⟨c, h1, h2⟩ := senders_in_order n h hj
    rw [(hd c (List.mem_of_getElem? h1)).1, List.append_nil] at h2
    exact h2.symm
  · intro i hi h₁ h₂ e ho ha hl
    obtain ⟨c, h1, h2⟩ := (heard_exact n h₁ h₂ hi ha hl).2
    rw [← e] at h1 h2
    rw [(hd c (List.mem_of_getElem? h1)).2, List.append_nil, ho] at h2
    exact ⟨c, h1, h2⟩

/-- **C139.** A client that has not left hears all of its own messages, in order: the server reads none of them before the
client is registered. -/
theorem own_heard (n : Nat) (h₁ h₂ : List (Step P V)) {i : Nat} (hi : i < n)
    (ha : Step.accept i ∉ h₁) (hl : Step.leave i ∉ h₂)
    (hd : Drained (run (start n) (h₁ ++ .accept i :: h₂))) :
    ∃ (R : List (Nat × Wire P V)) (c : Client P V), (run (start n) (h₁ ++ .accept i :: h₂))[i]? = some c ∧
      c.handed = (R.map fun y => confirmed y.2) ∧ ofClient i R = (sent i (h₁ ++ .accept i :: h₂)).map up := by
  obtain ⟨c, h1, h2⟩ := (heard_exact n h₁ h₂ hi ha hl).2
  obtain ⟨c', h3, h4⟩ := senders_in_order n (h₁ ++ .accept i :: h₂) hi
  obtain ⟨_, _, _, _, h5⟩ := before hi h₁ ha
  rw [h1] at h3
  simp only [Option.some.injEq] at h3
  subst h3
  rw [(hd c (List.mem_of_getElem? h1)).1, List.append_nil] at h4
  rw [(hd c (List.mem_of_getElem? h1)).2, List.append_nil] at h2
  refine ⟨_, c, h1, h2, ?_⟩
  rw [h4, order_append, List.drop_left, ofClient_append, h5, List.nil_append]

/-! ## It ends -/

/-- A step of the io loop. -/
def IsWork : Step P V → Prop
  | .serve _ => True
  | .deliver _ => True
  | _ => False

/-- What is still to be done. -/
def work (n : Nat) : Sys P V → Nat
  | [] => 0
  | c :: s => c.outbox.length * (n + 1) + c.inbox.length + work n s

theorem work_map_broadcast (n : Nat) (w : Wire P V) (s : Sys P V) :
    work n (s.map (broadcast [w])) ≤ work n s + s.length := by
  induction s with
  | nil => simp [work]
  | cons c s ih =>
    have : (broadcast [w] c).outbox = c.outbox ∧ (broadcast [w] c).inbox.length ≤ c.inbox.length + 1 := by
      unfold broadcast
      split <;> simp
    simp only [List.map_cons, work, List.length_cons, this.1]
    omega

theorem work_modify (n : Nat) {s : Sys P V} {i : Nat} {c : Client P V} (hc : s[i]? = some c)
    (f : Client P V → Client P V) :
    work n (s.modify i f) + (c.outbox.length * (n + 1) + c.inbox.length)
      = work n s + ((f c).outbox.length * (n + 1) + (f c).inbox.length) := by
  induction s generalizing i with
  | nil => cases hc
  | cons d s ih =>
    cases i with
    | zero =>
      simp only [List.getElem?_cons_zero, Option.some.injEq] at hc
      subst hc
      simp only [List.modify_zero_cons, work]
      omega
    | succ i =>
      simp only [List.getElem?_cons_succ] at hc
      have := ih hc
      simp only [List.modify_succ_cons, work]
      omega

/-- **C139.** Every step of the io loop leaves less to be done, or does nothing. -/
theorem work_decreases {s : Sys P V} (hp : Proper s) (x : Step P V) (hx : IsWork x) :
    step s x = s ∨ work s.length (step s x) < work s.length s := by
  cases x with
  | send i t r => cases hx
  | accept i => cases hx
  | leave i => cases hx
  | deliver i =>
    cases hc : s[i]? with
    | none =>
      refine .inl ?_
      unfold step
      have : s.length ≤ i := List.getElem?_eq_none_iff.1 hc
      exact List.modify_eq_self this
    | some c =>
      cases hb : c.inbox with
      | nil =>
        refine .inl (List.ext_getElem? fun j => ?_)
        rw [step_local hp]
        by_cases e : i = j
        · subst e
          rw [hc]
          simp [local', hb]
        · cases s[j]? <;> simp [local', e]
      | cons w rest =>
        refine .inr ?_
        have h1 := work_modify s.length hc clientRead
        rcases w with ⟨t, m⟩
        obtain ⟨r, er⟩ := (hp c (List.mem_of_getElem? hc)).2 (t, m) (by rw [hb]; exact List.mem_cons_self)
        dsimp only at er
        subst er
        have h2 : (clientRead c).outbox = c.outbox ∧ (clientRead c).inbox = rest := by
          unfold clientRead
          rw [hb]
          simp [clientPush, (client_hears t r).2]
        rw [h2.1, h2.2, hb] at h1
        simp only [List.length_cons] at h1
        have : step s (.deliver i) = s.modify i clientRead := rfl
        rw [this]
        omega
  | serve i =>
    cases hr : taken s (.serve i) with
    | nil => exact .inl (serve_eq hr)
    | cons y l =>
      obtain ⟨rest, ib, hd, e, e1, e2⟩ := read_serve (s := s) (i := i) (x := y) (by rw [hr]; exact List.mem_cons_self)
      rcases y with ⟨i', t, m⟩
      dsimp only at e e1
      obtain ⟨r, er⟩ := (hp _ (List.mem_of_getElem? e)).1 (t, m) (by exact List.mem_cons_self)
      dsimp only at er
      subst er
      refine .inr ?_
      have es : step s (.serve i) =
          (s.modify i fun c => ⟨c.conn, rest, c.inbox, c.handed⟩).map (broadcast (answers t r.msg)) := by
        unfold step
        dsimp only
        rw [e]
      rw [es, (server_pushed t r).2]
      have h1 := work_map_broadcast s.length (t, told r) (s.modify i fun c => ⟨c.conn, rest, c.inbox, c.handed⟩)
      have h2 := work_modify s.length e (fun c => ⟨c.conn, rest, c.inbox, c.handed⟩)
      simp only [List.length_cons, List.length_modify, Nat.add_mul] at h1 h2
      omega

/-- The io loop runs, and each of its steps does something. -/
def Busy (s : Sys P V) : List (Step P V) → Prop
  | [] => True
  | x :: h => IsWork x ∧ step s x ≠ s ∧ Busy (step s x) h

/-- **C139.** The io loop comes to rest: it takes at most as many steps as there is work. -/
theorem loop_ends {s : Sys P V} (hp : Proper s) (h : List (Step P V)) (hb : Busy s h) :
    h.length ≤ work s.length s := by
  induction h generalizing s with
  | nil => exact Nat.zero_le _
  | cons x h ih =>
    have h1 := (work_decreases hp x hb.1).resolve_left hb.2.1
    have h2 := ih (step_proper hp x) hb.2.2
    rw [step_length] at h2
    rw [List.length_cons]
    omega

/-- **C139.** When the io loop can do nothing, nothing is on its way between the server and the clients that are
registered. -/
theorem stuck_drained {s : Sys P V} (hp : Proper s) (h : ∀ x, IsWork x → step s x = s) :
    ∀ c ∈ s, c.inbox = [] ∧ (c.conn = .opened → c.outbox = []) := by
  intro c hc
  obtain ⟨i, hi⟩ := List.getElem?_of_mem hc
  constructor
  · have h1 := step_local hp (.deliver i) i
    rw [h (.deliver i) trivial, hi] at h1
    simp only [local', if_true, Option.map_some, Option.some.injEq] at h1
    cases hb : c.inbox with
    | nil => rfl
    | cons w rest =>
      rw [hb] at h1
      dsimp only at h1
      have : c.inbox = rest := by rw [h1]
      rw [hb] at this
      exact absurd (congrArg List.length this) (by simp)
  · intro ho
    cases hb : c.outbox with
    | nil => rfl
    | cons w rest =>
      rcases c with ⟨cn, ob, ib, hd⟩
      dsimp only at ho hb
      subst ho hb
      have hr : taken s (.serve i) = [(i, w)] := by
        unfold Spec.taken
        dsimp only
        rw [hi]
      have h1 := step_outbox hp (.serve i) hi
      have h2 := step_local hp (.serve i) i
      rw [h (.serve i) trivial, hi] at h2
      simp only [Option.map_some, Option.some.injEq] at h2
      rw [← h2, hr] at h1
      have := congrArg List.length h1
      simp [sent, ofClient] at this

/-! ## The project's test, server_client.cpp -/

/-- **C139.** One client, and whatever the program sends: however the loops take turns, once nothing is on its way the
consumer has been handed exactly what was sent, in order. -/
theorem test_passes (h : List (Step P V)) (hd : Drained (run (start 1) h))
    (ha : Step.accept 0 ∈ h) (hl : Step.leave 0 ∉ h) :
    ∃ c, (run (start 1) h)[0]? = some c ∧ c.handed = (sent 0 h).map fun x => (x.1, told x.2) := by
  have : ∃ h₁ h₂, h = h₁ ++ Step.accept 0 :: h₂ ∧ Step.accept 0 ∉ h₁ := by
    clear hd hl
    induction h with
    | nil => cases ha
    | cons x h ih =>
      by_cases e : x = Step.accept 0
      · exact ⟨[], h, by rw [e]; rfl, fun m => by cases m⟩
      · rcases List.mem_cons.1 ha with m | m
        · exact absurd m.symm e
        · obtain ⟨a, b, h1, h2⟩ := ih m
          refine ⟨x :: a, b, by rw [h1]; rfl, fun m => ?_⟩
          rcases List.mem_cons.1 m with m | m
          · exact e m.symm
          · exact h2 m
  obtain ⟨h₁, h₂, e, hn⟩ := this
  have hl2 : Step.leave 0 ∉ h₂ := fun m => hl (by rw [e]; exact List.mem_append_right _ (List.mem_cons_of_mem _ m))
  have ho : order (start 1) h₁ = [] := by
    obtain ⟨_, _, _, _, h5⟩ := before (n := 1) (i := 0) (by decide) h₁ hn
    have hb := order_bound (start 1) h₁
    cases hx : order (start 1) h₁ with
    | nil => rfl
    | cons y l =>
      rw [hx] at hb h5
      have h0 : y.1 = 0 := by
        have := hb y List.mem_cons_self
        simp [start] at this
        exact this
      simp [ofClient, h0] at h5
  obtain ⟨R, ⟨hR1, hR2⟩, hR3⟩ := everyone_hears 1 h hd
  obtain ⟨c, h1, h2⟩ := hR3 0 (by decide) h₁ h₂ e ho hn hl2
  refine ⟨c, h1, ?_⟩
  have hf : R.filter (fun x => decide (x.1 = 0)) = R := by
    rw [List.filter_eq_self]
    intro x hx
    have := hR1 x hx
    simp
    omega
  have h3 := hR2 0 (by decide)
  unfold ofClient at h3
  rw [hf] at h3
  have h4 : (R.map fun y => confirmed y.2) = (R.map Prod.snd).map confirmed := by rw [List.map_map]; rfl
  rw [h2, h4, h3, List.map_map]
  apply List.map_congr_left
  intro x _
  exact confirmed_up x.1 x.2

/-! ## Instances -/

/-- The program of the test: six messages sent before anything else. -/
def testSends : List (Step Unit String) :=
  ["message #1", "message #2", "message #3", "message #4", "Hello, world!", "close"].map fun x => .send 0 0 (.create () x)

/-- One schedule: the connection is made, one answer comes back before the last messages are read. -/
def testRun : List (Step Unit String) :=
  testSends ++ [.accept 0, .serve 0, .serve 0, .deliver 0, .serve 0, .serve 0, .serve 0, .deliver 0, .serve 0,
    .deliver 0, .deliver 0, .deliver 0, .deliver 0]

instance (s : Sys Unit String) : Decidable (Drained s) :=
  inferInstanceAs (Decidable (∀ c ∈ s, c.outbox = [] ∧ c.inbox = []))

example : Drained (run (start 1) testRun) ∧
    ((run (start 1) testRun)[0]?.map fun c => c.handed.map fun w => w.2) =
      some (["message #1", "message #2", "message #3", "message #4", "Hello, world!", "close"].map fun x =>
        .downCreate () (.value x)) := by decide +kernel

/-- Three clients: one comes late, one leaves. -/
def threeRun : List (Step Nat Nat) :=
  [.send 0 0 (.create 1 10), .send 1 0 (.update 1 11), .accept 1, .serve 1, .accept 0, .send 1 0 (.delete 1), .serve 0,
    .accept 2, .serve 1, .deliver 1, .leave 2, .deliver 0, .deliver 2, .deliver 1, .deliver 0, .deliver 1]

example : (run (start 3) threeRun).map (fun c => (c.outbox, c.inbox, c.handed)) =
    [([], [], [(0, .downCreate 1 (.value 10)), (0, .downDelete 1)]),
     ([], [], [(0, .downUpdate 1 (.value 11)), (0, .downCreate 1 (.value 10)), (0, .downDelete 1)]),
     ([], [], [(0, .downDelete 1)])] := by decide +kernel

example : order (start 3) threeRun = [(1, 0, .upUpdate 1 11), (0, 0, .upCreate 1 10), (1, 0, .upDelete 1)] := by
  decide +kernel

example : work 3 (run (start 3) (threeRun.take 6)) = 9 ∧ work 3 (run (start 3) (threeRun.take 7)) = 7 := by decide +kernel

end Nbdl.Relay
