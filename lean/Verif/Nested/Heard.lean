import Verif.Nested.Lemmas
/-! Listening stores are shown each message once, and what they mark is made known. -/
namespace Nbdl.Nested
open MapStore (Msg View Payload)
open Context (Config Actor StoreOps Event setStore pushMain Lawful actorsWith)
open Spec
variable {A S P V : Type}

/-- The listening stores that are still to be shown the message of push `i`. -/
def toShow (i : Nat) (ts : List (Task A P V)) : List (Nat × Nat × Msg P V) :=
  ts.filterMap fun x => match x with
    | .listen j l t m => if j = i then some (l, t, m) else none
    | _ => none

/-- The calls still to be made because store `l` was shown the message of push `i`. -/
def toCall (i l : Nat) (ts : List (Task A P V)) : List (Call P V) :=
  ts.filterMap fun x => match x with
    | .call j (some l') a => if j = i ∧ l' = l then some a else none
    | _ => none

theorem shownFor_append (i : Nat) (a b : List (Entry S P V)) : shownFor i (a ++ b) = shownFor i a ++ shownFor i b :=
  List.filterMap_append
theorem callsFrom_append (i l : Nat) (a b : List (Entry S P V)) :
    callsFrom i l (a ++ b) = callsFrom i l a ++ callsFrom i l b := List.filterMap_append
theorem toShow_append (i : Nat) (a b : List (Task A P V)) : toShow i (a ++ b) = toShow i a ++ toShow i b :=
  List.filterMap_append
theorem toCall_append (i l : Nat) (a b : List (Task A P V)) : toCall i l (a ++ b) = toCall i l a ++ toCall i l b :=
  List.filterMap_append

theorem toShow_listen_same (i t : Nat) (m : Msg P V) (ls : List Nat) :
    toShow i (ls.map (fun l => Task.listen (A := A) i l t m)) = ls.map fun l => (l, t, m) := by
  induction ls with
  | nil => rfl
  | cons a ls ih =>
    have : toShow i (Task.listen (A := A) i a t m :: ls.map (fun l => Task.listen i l t m))
        = (a, t, m) :: toShow i (ls.map (fun l => Task.listen (A := A) i l t m)) := by
      simp only [toShow, List.filterMap_cons, if_true]
    rw [List.map_cons, this, ih, List.map_cons]

theorem toShow_listen_other (i j t : Nat) (h : j ≠ i) (m : Msg P V) (ls : List Nat) :
    toShow i (ls.map (fun l => Task.listen (A := A) j l t m)) = [] := by
  induction ls with
  | nil => rfl
  | cons a ls ih =>
    have : toShow i (Task.listen (A := A) j a t m :: ls.map (fun l => Task.listen j l t m))
        = toShow i (ls.map (fun l => Task.listen (A := A) j l t m)) := by
      simp only [toShow, List.filterMap_cons, if_neg h]
    rw [List.map_cons, this, ih]

theorem toShow_calls (i j : Nat) (src : Option Nat) (cs : List (Call P V)) :
    toShow i (cs.map (Task.call (A := A) j src)) = [] := by
  induction cs with
  | nil => rfl
  | cons a cs ih => exact ih

theorem toCall_none (i l j : Nat) (cs : List (Call P V)) : toCall i l (cs.map (Task.call (A := A) j none)) = [] := by
  induction cs with
  | nil => rfl
  | cons a cs ih => exact ih

theorem toCall_listen (i k j t : Nat) (m : Msg P V) (ls : List Nat) :
    toCall i k (ls.map (fun l => Task.listen (A := A) j l t m)) = [] := by
  induction ls with
  | nil => rfl
  | cons a cs ih => exact ih

theorem toCall_same (i l : Nat) (cs : List (Call P V)) : toCall i l (cs.map (Task.call (A := A) i (some l))) = cs := by
  induction cs with
  | nil => rfl
  | cons a cs ih =>
    have : toCall i l (Task.call (A := A) i (some l) a :: cs.map (Task.call i (some l)))
        = a :: toCall i l (cs.map (Task.call (A := A) i (some l))) := by
      simp only [toCall, List.filterMap_cons, and_self, if_true]
    rw [List.map_cons, this, ih]

theorem toCall_other (i l j k : Nat) (h : ¬(j = i ∧ k = l)) (cs : List (Call P V)) :
    toCall i l (cs.map (Task.call (A := A) j (some k))) = [] := by
  induction cs with
  | nil => rfl
  | cons a cs ih =>
    have : toCall i l (Task.call (A := A) j (some k) a :: cs.map (Task.call j (some k)))
        = toCall i l (cs.map (Task.call (A := A) j (some k))) := by
      simp only [toCall, List.filterMap_cons, if_neg h]
    rw [List.map_cons, this, ih]

/-- What a step adds. -/
theorem exec_log (c : Config S P V) (code : Code A P V) (w : World A S P V) (x : Task A P V) :
    ∃ es, (exec c code w x).1.log = w.log ++ es
      ∧ (∀ i t m st, Entry.pushed i t m st ∈ es → x = .push t m ∧ i = w.next ∧ st = w.stores)
      ∧ (∀ i t m, Entry.submitted i t m ∈ es → x = .submit t m ∧ i = w.next)
      ∧ (∀ i l t m st, Entry.heard i l t m st ∈ es → x = .listen i l t m ∧ st = w.stores)
      -- the listening stores
      ∧ (∀ i, (∀ t m, x = .push t m → i ≠ w.next) →
          shownFor i es ++ toShow i (exec c code w x).2 = toShow i [x])
      ∧ (∀ t m, x = .push t m → shownFor w.next es ++ toShow w.next (exec c code w x).2
          = (c.listeners t).map fun l => (l, t, m))
      -- their calls
      ∧ (∀ i l, (∀ t m, x ≠ .listen i l t m) → callsFrom i l es ++ toCall i l (exec c code w x).2 = toCall i l [x])
      ∧ (∀ i l t m, x = .listen i l t m → callsFrom i l es ++ toCall i l (exec c code w x).2
          = ((c.ops l).foreign (w.stores l) t m).2.flatMap (notifyCalls c l)) := by
  match x with
  | .prog .done =>
    exact ⟨[], (List.append_nil _).symm, nofun, nofun, nofun, fun _ _ => rfl, nofun, fun _ _ _ => rfl, nofun⟩
  | .prog (.get k) =>
    exact ⟨[], (List.append_nil _).symm, nofun, nofun, nofun, fun _ _ => rfl, nofun, fun _ _ _ => rfl, nofun⟩
  | .prog (.put a k) =>
    exact ⟨[], (List.append_nil _).symm, nofun, nofun, nofun, fun _ _ => rfl, nofun, fun _ _ _ => rfl, nofun⟩
  | .prog (.push t m k) =>
    exact ⟨[], (List.append_nil _).symm, nofun, nofun, nofun, fun _ _ => rfl, nofun, fun _ _ _ => rfl, nofun⟩
  | .prog (.submit t m k) =>
    exact ⟨[], (List.append_nil _).symm, nofun, nofun, nofun, fun _ _ => rfl, nofun, fun _ _ _ => rfl, nofun⟩
  | .prog (.look t p k) =>
    by_cases hv : (c.ops t).view (w.stores t) p = .triggerRead
    · rw [exec_look_trigger c code w t p k hv]
      exact ⟨[], (List.append_nil _).symm, nofun, nofun, nofun, fun _ _ => rfl, nofun, fun _ _ _ => rfl, nofun⟩
    · rw [exec_look_other c code w t p k hv]
      exact ⟨[], (List.append_nil _).symm, nofun, nofun, nofun, fun _ _ => rfl, nofun, fun _ _ _ => rfl, nofun⟩
  | .submit t m =>
    refine ⟨[.submitted w.next t m], rfl, ?_, ?_, ?_, fun _ _ => rfl, nofun, fun _ _ _ => rfl, nofun⟩
    · intro i t' m' st h; cases List.mem_singleton.1 h
    · intro i t' m' h
      injection List.mem_singleton.1 h with h1 h2 h3
      exact ⟨by rw [h2, h3], h1⟩
    · intro i l t' m' st h; cases List.mem_singleton.1 h
  | .push t m =>
    have e : (exec c code w (.push t m)).2 = (mainCalls c w.stores t m).map (.call w.next none)
      ++ (c.listeners t).map (fun l => Task.listen w.next l t m) := rfl
    refine ⟨[.pushed w.next t m w.stores], rfl, ?_, ?_, ?_, ?_, ?_, ?_, nofun⟩
    · intro i t' m' st h
      injection List.mem_singleton.1 h with h1 h2 h3 h4
      exact ⟨by rw [h2, h3], h1, h4⟩
    · intro i t' m' h; cases List.mem_singleton.1 h
    · intro i l t' m' st h; cases List.mem_singleton.1 h
    · intro i h2
      have hi : w.next ≠ i := fun h => h2 t m rfl h.symm
      rw [e, toShow_append, toShow_calls, toShow_listen_other i w.next t hi]
      rfl
    · intro t' m' h
      injection h with h1 h2
      subst h1 h2
      rw [e, toShow_append, toShow_calls, toShow_listen_same]
      rfl
    · intro i l _
      rw [e, toCall_append, toCall_none, toCall_listen]
      rfl
  | .call j src a =>
    refine ⟨[.called j src a w.stores], rfl, ?_, ?_, ?_, fun _ _ => rfl, nofun, ?_, nofun⟩
    · intro i t' m' st h; cases List.mem_singleton.1 h
    · intro i t' m' h; cases List.mem_singleton.1 h
    · intro i l t' m' st h; cases List.mem_singleton.1 h
    · intro i l _
      have e : (exec c code w (.call j src a)).2 = [.prog (code a)] := rfl
      rw [e, show toCall i l [Task.prog (code a)] = [] from rfl, List.append_nil]
      cases src with
      | none => rfl
      | some k => rfl
  | .listen j k t m =>
    have e : (exec c code w (.listen j k t m)).2
      = (((c.ops k).foreign (w.stores k) t m).2.flatMap (notifyCalls c k)).map (.call j (some k)) := rfl
    refine ⟨[.heard j k t m w.stores], rfl, ?_, ?_, ?_, ?_, nofun, ?_, ?_⟩
    · intro i t' m' st h; cases List.mem_singleton.1 h
    · intro i t' m' h; cases List.mem_singleton.1 h
    · intro i l t' m' st h
      injection List.mem_singleton.1 h with h1 h2 h3 h4 h5
      exact ⟨by rw [h1, h2, h3, h4], h5⟩
    · intro i _
      rw [e, toShow_calls, List.append_nil]
      rfl
    · intro i l h
      have hjl : ¬(j = i ∧ k = l) := by
        rintro ⟨rfl, rfl⟩
        exact h t m rfl
      rw [e, toCall_other i l j k hjl]
      rfl
    · intro i l t' m' h
      injection h with h1 h2 h3 h4
      subst h1 h2 h3 h4
      rw [e, toCall_same]
      rfl

/-- The invariant for listening stores. -/
structure Shown (c : Config S P V) (s : State A S P V) : Prop where
  new : ∀ i, s.world.next ≤ i → shownFor i s.world.log = [] ∧ toShow i s.tasks = []
  sub : ∀ i t m, Entry.submitted i t m ∈ s.world.log → shownFor i s.world.log ++ toShow i s.tasks = []
  push : ∀ i t m st, Entry.pushed i t m st ∈ s.world.log →
    shownFor i s.world.log ++ toShow i s.tasks = (c.listeners t).map fun l => (l, t, m)

theorem exec_counts (c : Config S P V) (code : Code A P V) (w : World A S P V) (x : Task A P V) :
    (exec c code w x).1.next = w.next ∧ (∀ t m, x ≠ .push t m) ∧ (∀ t m, x ≠ .submit t m)
    ∨ (exec c code w x).1.next = w.next + 1 := by
  match x with
  | .prog .done => exact .inl ⟨rfl, nofun, nofun⟩
  | .prog (.get k) => exact .inl ⟨rfl, nofun, nofun⟩
  | .prog (.put a k) => exact .inl ⟨rfl, nofun, nofun⟩
  | .prog (.push t m k) => exact .inl ⟨rfl, nofun, nofun⟩
  | .prog (.submit t m k) => exact .inl ⟨rfl, nofun, nofun⟩
  | .prog (.look t p k) =>
    by_cases hv : (c.ops t).view (w.stores t) p = .triggerRead
    · rw [exec_look_trigger c code w t p k hv]; exact .inl ⟨rfl, nofun, nofun⟩
    · rw [exec_look_other c code w t p k hv]; exact .inl ⟨rfl, nofun, nofun⟩
  | .push t m => exact .inr rfl
  | .submit t m => exact .inr rfl
  | .call i src a => exact .inl ⟨rfl, nofun, nofun⟩
  | .listen i l t m => exact .inl ⟨rfl, nofun, nofun⟩

theorem shown_exec (c : Config S P V) (code : Code A P V) (w : World A S P V) (x : Task A P V)
    (r : List (Task A P V)) (hi : Inv c ⟨w, x :: r⟩) (h : Shown c ⟨w, x :: r⟩) :
    Shown c ⟨(exec c code w x).1, (exec c code w x).2 ++ r⟩ := by
  obtain ⟨es, hlog, hp, hs, hh, hoth, hbeg, -, -⟩ := exec_log c code w x
  have hx1 : ∀ i, toShow i (x :: r) = toShow i [x] ++ toShow i r := fun i => toShow_append i [x] r
  -- a push that is not begun by this step
  have keep : ∀ i, (∀ t m, x = .push t m → i ≠ w.next) →
      shownFor i (exec c code w x).1.log ++ toShow i ((exec c code w x).2 ++ r)
        = shownFor i w.log ++ toShow i (x :: r) := by
    intro i hne
    rw [hlog, shownFor_append, toShow_append, List.append_assoc, ← List.append_assoc (shownFor i es),
      hoth i hne, hx1]
  have hnle : w.next ≤ (exec c code w x).1.next := by
    rcases exec_counts c code w x with ⟨h1, -⟩ | h1 <;> omega
  refine ⟨?_, ?_, ?_⟩
  · intro i hle
    have hle' : (exec c code w x).1.next ≤ i := hle
    have hne : ∀ t m, x = .push t m → i ≠ w.next := by
      intro t m hx
      rcases exec_counts c code w x with ⟨-, h2, -⟩ | h1
      · exact absurd hx (h2 t m)
      · omega
    have := keep i hne
    rw [(h.new i (Nat.le_trans hnle hle')).1, (h.new i (Nat.le_trans hnle hle')).2] at this
    exact List.append_eq_nil_iff.1 this
  · intro i t m hm
    have hm' : Entry.submitted i t m ∈ w.log ++ es := hlog ▸ hm
    rcases List.mem_append.1 hm' with hm' | hm'
    · have hlt := begun_lt hi hm' rfl
      show shownFor i (exec c code w x).1.log ++ toShow i ((exec c code w x).2 ++ r) = []
      rw [keep i fun _ _ _ => Nat.ne_of_lt hlt]
      exact h.sub i t m hm'
    · obtain ⟨hx, hn⟩ := hs i t m hm'
      show shownFor i (exec c code w x).1.log ++ toShow i ((exec c code w x).2 ++ r) = []
      have hne : ∀ t' m', x = .push t' m' → i ≠ w.next := by
        intro t' m' hx'
        rw [hx] at hx'
        cases hx'
      have h0 := h.new i (Nat.le_of_eq hn.symm)
      dsimp only at h0
      rw [keep i hne, h0.1, h0.2]
      rfl
  · intro i t m st hm
    have hm' : Entry.pushed i t m st ∈ w.log ++ es := hlog ▸ hm
    show shownFor i (exec c code w x).1.log ++ toShow i ((exec c code w x).2 ++ r) = _
    rcases List.mem_append.1 hm' with hm' | hm'
    · have hlt := begun_lt hi hm' rfl
      rw [keep i fun _ _ _ => Nat.ne_of_lt hlt]
      exact h.push i t m st hm'
    · obtain ⟨hx, hn, -⟩ := hp i t m st hm'
      subst hn
      have h0 := h.new w.next (Nat.le_refl _)
      have hr : toShow w.next r = [] := by
        have := h0.2
        rw [hx1] at this
        exact (List.append_eq_nil_iff.1 this).2
      have hl0 : shownFor w.next w.log = [] := h0.1
      rw [hlog, shownFor_append, hl0, List.nil_append, toShow_append, hr, List.append_nil]
      exact hbeg t m hx

/-- The invariant for the calls of listening stores. -/
structure Marks (c : Config S P V) (s : State A S P V) : Prop where
  new : ∀ i l, (∀ t m st, Entry.heard i l t m st ∉ s.world.log) →
    callsFrom i l s.world.log = [] ∧ toCall i l s.tasks = []
  heard : ∀ i l t m st, Entry.heard i l t m st ∈ s.world.log →
    callsFrom i l s.world.log ++ toCall i l s.tasks = ((c.ops l).foreign (st l) t m).2.flatMap (notifyCalls c l)

theorem mem_shownFor {i l t : Nat} {m : Msg P V} {st : Nat → S} {log : List (Entry S P V)}
    (h : Entry.heard i l t m st ∈ log) : (l, t, m) ∈ shownFor i log :=
  List.mem_filterMap.2 ⟨_, h, by simp⟩

/-- A listening store that is about to be shown a message has not been shown it before. -/
theorem not_heard (c : Config S P V) (hn : ∀ t, (c.listeners t).Nodup) {w : World A S P V} {i l t : Nat} {m : Msg P V}
    {r : List (Task A P V)} (hi : Inv c ⟨w, .listen i l t m :: r⟩) (h : Shown c ⟨w, .listen i l t m :: r⟩)
    (t' : Nat) (m' : Msg P V) (st : Nat → S) : Entry.heard i l t' m' st ∉ w.log := by
  intro hm
  have hlt : i < w.next := hi.old _ List.mem_cons_self
  have hb : i ∈ w.log.filterMap begun := by
    have e : w.log.filterMap begun = List.range w.next := hi.ids
    rw [e]; exact List.mem_range.2 hlt
  have hts : toShow i (Task.listen (A := A) i l t m :: r) = (l, t, m) :: toShow i r := by
    simp only [toShow, List.filterMap_cons, if_true]
  obtain ⟨e, he, hbe⟩ := List.mem_filterMap.1 hb
  cases e with
  | pushed j u mu su =>
    injection hbe with hbe
    subst hbe
    have := h.push j u mu su he
    dsimp only at this
    rw [hts] at this
    have h2 : ((shownFor j w.log ++ (l, t, m) :: toShow j r).map (·.1)).Nodup := by
      rw [this, List.map_map]
      have : (Prod.fst ∘ fun l => (l, u, mu)) = (id : Nat → Nat) := rfl
      rw [this, List.map_id]
      exact hn u
    rw [List.map_append, List.map_cons, List.nodup_append] at h2
    exact h2.2.2 l (List.mem_map.2 ⟨_, mem_shownFor hm, rfl⟩) l List.mem_cons_self rfl
  | submitted j u mu =>
    injection hbe with hbe
    subst hbe
    have := h.sub j u mu he
    dsimp only at this
    rw [hts] at this
    exact absurd (List.append_eq_nil_iff.1 this).2 (List.cons_ne_nil _ _)
  | heard => cases hbe
  | called => cases hbe

theorem marks_exec (c : Config S P V) (hn : ∀ t, (c.listeners t).Nodup) (code : Code A P V) (w : World A S P V)
    (x : Task A P V) (r : List (Task A P V)) (hi : Inv c ⟨w, x :: r⟩) (hsh : Shown c ⟨w, x :: r⟩)
    (h : Marks c ⟨w, x :: r⟩) : Marks c ⟨(exec c code w x).1, (exec c code w x).2 ++ r⟩ := by
  obtain ⟨es, hlog, -, -, hh, -, -, hoth, hbeg⟩ := exec_log c code w x
  have hx1 : ∀ i l, toCall i l (x :: r) = toCall i l [x] ++ toCall i l r := fun i l => toCall_append i l [x] r
  have keep : ∀ i l, (∀ t m, x ≠ .listen i l t m) →
      callsFrom i l (exec c code w x).1.log ++ toCall i l ((exec c code w x).2 ++ r)
        = callsFrom i l w.log ++ toCall i l (x :: r) := by
    intro i l hne
    rw [hlog, callsFrom_append, toCall_append, List.append_assoc, ← List.append_assoc (callsFrom i l es),
      hoth i l hne, hx1]
  refine ⟨?_, ?_⟩
  · intro i l hno
    have hno' : ∀ t m st, Entry.heard i l t m st ∉ w.log ++ es := fun t m st hm => hno t m st (by
      show _ ∈ (exec c code w x).1.log
      rw [hlog]; exact hm)
    have hne : ∀ t m, x ≠ .listen i l t m := by
      rintro t m rfl
      exact hno t m w.stores (List.mem_append_right _ (List.mem_singleton.2 rfl))
    have := keep i l hne
    rw [(h.new i l fun t m st hm => hno' t m st (List.mem_append_left _ hm)).1,
      (h.new i l fun t m st hm => hno' t m st (List.mem_append_left _ hm)).2] at this
    exact List.append_eq_nil_iff.1 this
  · intro i l t m st hm
    have hm' : Entry.heard i l t m st ∈ w.log ++ es := hlog ▸ hm
    show callsFrom i l (exec c code w x).1.log ++ toCall i l ((exec c code w x).2 ++ r) = _
    rcases List.mem_append.1 hm' with hm' | hm'
    · have hne : ∀ t m, x ≠ .listen i l t m := by
        rintro t' m' rfl
        exact not_heard c hn hi hsh t m st hm'
      rw [keep i l hne]
      exact h.heard i l t m st hm'
    · obtain ⟨rfl, rfl⟩ := hh i l t m st hm'
      have h0 := h.new i l (fun t' m' st => not_heard c hn hi hsh t' m' st)
      have hl0 : callsFrom i l w.log = [] := h0.1
      have hr : toCall i l r = [] := by
        have := h0.2
        rw [hx1] at this
        exact (List.append_eq_nil_iff.1 this).2
      rw [hlog, callsFrom_append, hl0, List.nil_append, toCall_append, hr, List.append_nil]
      exact hbeg i l t m rfl

theorem shown_run (c : Config S P V) (code : Code A P V) (st : Nat → S) (a : A) (q : Prog A P V) (n : Nat) :
    Shown c (run c code n (start st a q)) :=
  (run_inv c code (fun s => Inv c s ∧ Shown c s)
    (fun w x r h => ⟨inv_exec c code w x r h.1, shown_exec c code w x r h.1 h.2⟩) n (start st a q)
    ⟨inv_run c code st a q 0, fun _ _ => ⟨rfl, rfl⟩, nofun, nofun⟩).2

theorem marks_run (c : Config S P V) (hn : ∀ t, (c.listeners t).Nodup) (code : Code A P V) (st : Nat → S) (a : A)
    (q : Prog A P V) (n : Nat) : Marks c (run c code n (start st a q)) :=
  (run_inv c code (fun s => Inv c s ∧ Shown c s ∧ Marks c s)
    (fun w x r h => ⟨inv_exec c code w x r h.1, shown_exec c code w x r h.1 h.2.1,
      marks_exec c hn code w x r h.1 h.2.1 h.2.2⟩) n (start st a q)
    ⟨inv_run c code st a q 0, ⟨fun _ _ => ⟨rfl, rfl⟩, nofun, nofun⟩, fun _ _ _ => ⟨rfl, rfl⟩, nofun⟩).2.2

end Nbdl.Nested
