import Verif.Relay.Spec
/-! # Lemmas about the server that echoes -/
namespace Nbdl.Relay
open MapStore (Msg Payload)
open Spec (told sent taken order up confirmed ofClient)

variable {P V : Type}

/-- The server's context comes to rest, and what it has sent to every connection is what everyone is to be told. -/
theorem server_pushed (t : Nat) (r : Req P V) :
    (pushed (serverCode (P := P) (V := V)) [] t r.msg).tasks = [] ∧ answers t r.msg = [(t, told r)] := by
  cases r <;> exact ⟨rfl, rfl⟩

/-- A client's context comes to rest; what goes upstream is sent, and nothing is handed to the consumer. -/
theorem client_sends (t : Nat) (r : Req P V) :
    (pushed (clientCode (P := P) (V := V)) ([], []) t r.msg).tasks = [] ∧
    (pushed (clientCode (P := P) (V := V)) ([], []) t r.msg).world.vars = ([(t, r.msg)], []) := by
  cases r <;> exact ⟨rfl, rfl⟩

theorem client_hears (t : Nat) (r : Req P V) :
    (pushed (clientCode (P := P) (V := V)) ([], []) t (told r)).tasks = [] ∧
    (pushed (clientCode (P := P) (V := V)) ([], []) t (told r)).world.vars = ([], [(t, told r)]) := by
  cases r <;> exact ⟨rfl, rfl⟩

theorem confirmed_up (t : Nat) (r : Req P V) : confirmed (t, r.msg) = (t, told r) := by cases r <;> rfl

/-- What is on the connections. -/
def Proper (s : Sys P V) : Prop :=
  ∀ c ∈ s, (∀ w ∈ c.outbox, ∃ r : Req P V, w.2 = r.msg) ∧ (∀ w ∈ c.inbox, ∃ r : Req P V, w.2 = told r)

/-- What a step does to one client. -/
def local' (s : Sys P V) (x : Step P V) (j : Nat) (c : Client P V) : Client P V :=
  match x with
  | .send i t r => if i = j then ⟨c.conn, c.outbox ++ [(t, r.msg)], c.inbox, c.handed⟩ else c
  | .accept i => if i = j ∧ c.conn = .fresh then ⟨.opened, c.outbox, c.inbox, c.handed⟩ else c
  | .leave i => if i = j ∧ c.conn = .opened then ⟨.closed, c.outbox, c.inbox, c.handed⟩ else c
  | .serve i =>
    match taken s (.serve i) with
    | [] => c
    | (_, w) :: _ =>
      broadcast [confirmed w] (if i = j then ⟨c.conn, c.outbox.tail, c.inbox, c.handed⟩ else c)
  | .deliver i =>
    if i = j then
      match c.inbox with
      | [] => c
      | w :: rest => ⟨c.conn, c.outbox, rest, c.handed ++ [w]⟩
    else c

theorem read_serve {s : Sys P V} {i : Nat} {x} (h : x ∈ taken s (.serve i)) :
    ∃ rest ib hd, s[i]? = some ⟨.opened, x.2 :: rest, ib, hd⟩ ∧ x.1 = i ∧ taken s (.serve i) = [x] := by
  unfold Spec.taken at h ⊢
  dsimp only at h ⊢
  split at h
  · rename_i w rest ib hd e
    rw [e]
    rw [List.mem_singleton] at h
    subst h
    exact ⟨rest, ib, hd, rfl, rfl, rfl⟩
  · cases h

theorem serve_eq {s : Sys P V} {i : Nat} (h : taken s (.serve i) = []) : step s (.serve i) = s := by
  unfold Spec.taken at h
  unfold step
  dsimp only at h ⊢
  split at h
  · cases h
  · rename_i hn
    split
    · rename_i t m rest ib hd e
      exact absurd e (hn _ _ _ _)
    · rfl

theorem step_local {s : Sys P V} (hp : Proper s) (x : Step P V) (j : Nat) :
    (step s x)[j]? = (s[j]?).map (local' s x j) := by
  have keep : (s[j]?).map (fun c : Client P V => c) = s[j]? := by cases s[j]? <;> rfl
  cases x with
  | send i t r =>
    unfold step
    rw [List.getElem?_modify]
    by_cases e : i = j
    · cases s[j]? <;> simp [local', clientPush, e, (client_sends t r).2]
    · cases s[j]? <;> simp [local', e]
  | accept i =>
    unfold step
    rw [List.getElem?_modify]
    by_cases e : i = j
    · cases s[j]? <;> simp [local', e]
    · cases s[j]? <;> simp [local', e]
  | leave i =>
    unfold step
    rw [List.getElem?_modify]
    by_cases e : i = j
    · cases s[j]? <;> simp [local', e]
    · cases s[j]? <;> simp [local', e]
  | deliver i =>
    unfold step
    rw [List.getElem?_modify]
    by_cases e : i = j
    · cases hc : s[j]? with
      | none => rfl
      | some c =>
        have hi := (hp c (List.mem_of_getElem? hc)).2
        simp only [Option.map_eq_map, Option.map_some, e, if_true, local']
        unfold clientRead
        cases hb : c.inbox with
        | nil => rfl
        | cons w rest =>
          rcases w with ⟨t, m⟩
          obtain ⟨r, er⟩ := hi (t, m) (by rw [hb]; exact List.mem_cons_self)
          dsimp only at er ⊢
          subst er
          simp [clientPush, (client_hears t r).2]
    · cases s[j]? <;> simp [local', e]
  | serve i =>
    cases hr : taken s (.serve i) with
    | nil =>
      rw [serve_eq hr]
      unfold local'
      dsimp only
      rw [hr]
      exact keep.symm
    | cons y l =>
      obtain ⟨rest, ib, hd, e, e1, e2⟩ := read_serve (s := s) (i := i) (x := y) (by rw [hr]; exact List.mem_cons_self)
      rcases y with ⟨i', t, m⟩
      dsimp only at e e1
      obtain ⟨r, er⟩ := (hp _ (List.mem_of_getElem? e)).1 (t, m) (by exact List.mem_cons_self)
      dsimp only at er
      subst er
      have es : step s (.serve i) =
          (s.modify i fun c => ⟨c.conn, rest, c.inbox, c.handed⟩).map (broadcast (answers t r.msg)) := by
        unfold step
        dsimp only
        rw [e]
      rw [es, List.getElem?_map, List.getElem?_modify, (server_pushed t r).2]
      unfold local'
      dsimp only
      rw [hr]
      dsimp only
      rw [confirmed_up]
      by_cases ej : i = j
      · subst ej
        rw [e]
        rfl
      · cases s[j]? <;> simp [ej]

theorem step_length (s : Sys P V) (x : Step P V) : (step s x).length = s.length := by
  cases x with
  | serve i =>
    unfold step
    dsimp only
    split <;> simp
  | _ => simp [step]

theorem run_length (s : Sys P V) (h : List (Step P V)) : (run s h).length = s.length := by
  induction h generalizing s with
  | nil => rfl
  | cons x h ih => rw [run, ih, step_length]

/-- A step keeps what is on the connections proper. -/
theorem step_proper {s : Sys P V} (hp : Proper s) (x : Step P V) : Proper (step s x) := by
  intro c' hc'
  obtain ⟨j, hj⟩ := List.getElem?_of_mem hc'
  rw [step_local hp] at hj
  cases hc : s[j]? with
  | none => rw [hc] at hj; cases hj
  | some c =>
    rw [hc] at hj
    simp only [Option.map_some, Option.some.injEq] at hj
    have h0 := hp c (List.mem_of_getElem? hc)
    subst hj
    cases x with
    | send i t r =>
      unfold local'
      dsimp only
      split
      · refine ⟨fun w hw => ?_, h0.2⟩
        rcases List.mem_append.1 hw with hw | hw
        · exact h0.1 w hw
        · rw [List.mem_singleton] at hw
          exact ⟨r, by rw [hw]⟩
      · exact h0
    | accept i =>
      unfold local'
      dsimp only
      split <;> exact h0
    | leave i =>
      unfold local'
      dsimp only
      split <;> exact h0
    | deliver i =>
      unfold local'
      dsimp only
      split
      · split
        · exact h0
        · rename_i w rest e
          refine ⟨h0.1, fun w' hw' => h0.2 w' ?_⟩
          rw [e]
          exact List.mem_cons_of_mem _ hw'
      · exact h0
    | serve i =>
      unfold local'
      dsimp only
      cases hr : taken s (.serve i) with
      | nil => exact h0
      | cons y l =>
        obtain ⟨rest, ib, hd, e, e1, e2⟩ := read_serve (s := s) (i := i) (x := y) (by rw [hr]; exact List.mem_cons_self)
        rcases y with ⟨i', t, m⟩
        dsimp only at e e1 ⊢
        obtain ⟨r, er⟩ := (hp _ (List.mem_of_getElem? e)).1 (t, m) (by exact List.mem_cons_self)
        dsimp only at er
        subst er
        rw [confirmed_up]
        have h1 : (∀ w ∈ (if i = j then (⟨c.conn, c.outbox.tail, c.inbox, c.handed⟩ : Client P V) else c).outbox, ∃ r : Req P V, w.2 = r.msg) ∧
            (∀ w ∈ (if i = j then (⟨c.conn, c.outbox.tail, c.inbox, c.handed⟩ : Client P V) else c).inbox, ∃ r : Req P V, w.2 = told r) := by
          split
          · exact ⟨fun w hw => h0.1 w (List.mem_of_mem_tail hw), h0.2⟩
          · exact h0
        unfold broadcast
        split
        · refine ⟨h1.1, fun w hw => ?_⟩
          rcases List.mem_append.1 hw with hw | hw
          · exact h1.2 w hw
          · rw [List.mem_singleton] at hw
            exact ⟨r, by rw [hw]⟩
        · exact h1

end Nbdl.Relay
