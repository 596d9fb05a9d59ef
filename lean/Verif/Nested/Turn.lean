import Verif.Nested.Exact
/-!
# When exactly a listening store is shown messages in order (C121)
-/
namespace Nbdl.Nested
open MapStore (Msg View Payload Map)
open Context (Config Actor StoreOps)
open Spec
variable {A S P V : Type}

/-- The numbers of the pushes of type `t`, in the order in which they were begun. -/
def Spec.pushedOf (t : Nat) (log : List (Entry S P V)) : List Nat :=
  log.filterMap fun e => match e with
    | .pushed i t' _ _ => if t' = t then some i else none
    | _ => none

/-- Whenever a message of type `t` was pushed, the listening store `l` had been shown all messages of this type that
were pushed before. -/
def Spec.InTurn (l t : Nat) (log : List (Entry S P V)) : Prop :=
  ∀ (before after : List (Entry S P V)) (i : Nat) (m : Msg P V) (st : Nat → S),
    log = before ++ .pushed i t m st :: after → ∀ k ∈ pushedOf t before, k ∈ heardBy l t before

/-- The messages of type `t` that the listening store is going to be shown by what is left to do. -/
def waiting (l t : Nat) (ts : List (Task A P V)) : List Nat :=
  ts.filterMap fun x => match x with
    | .listen i l' t' _ => if l' = l ∧ t' = t then some i else none
    | _ => none

theorem waiting_append (l t : Nat) (xs ys : List (Task A P V)) :
    waiting l t (xs ++ ys) = waiting l t xs ++ waiting l t ys := List.filterMap_append

theorem pushedOf_append (t : Nat) (x y : List (Entry S P V)) :
    pushedOf t (x ++ y) = pushedOf t x ++ pushedOf t y := List.filterMap_append

theorem waiting_calls (l t i : Nat) (src : Option Nat) (cs : List (Call P V)) :
    waiting (A := A) l t (cs.map (.call i src)) = [] := by
  induction cs with
  | nil => rfl
  | cons a cs ih => simpa [waiting] using ih

theorem waiting_other (l t u i : Nat) (m : Msg P V) (h : u ≠ t) (ls : List Nat) :
    waiting (A := A) l t (ls.map fun l' => .listen i l' u m) = [] := by
  induction ls with
  | nil => rfl
  | cons a ls ih => simpa [waiting, h] using ih

theorem waiting_listeners (l t i : Nat) (m : Msg P V) : ∀ ls : List Nat, ls.Nodup →
    waiting (A := A) l t (ls.map fun l' => .listen i l' t m) = if l ∈ ls then [i] else []
  | [], _ => rfl
  | b :: ls, h => by
    obtain ⟨hb, hn⟩ := List.nodup_cons.1 h
    have ih := waiting_listeners l t i m ls hn
    rw [List.map_cons, ← List.singleton_append, waiting_append, ih]
    by_cases hbl : b = l
    · subst hbl; simp [waiting, hb]
    · have hlb : l ≠ b := fun e => hbl e.symm
      simp [waiting, hbl, hlb]

/-- One more entry. -/
theorem inTurn_snoc (l t : Nat) (log : List (Entry S P V)) (e : Entry S P V) :
    InTurn l t (log ++ [e]) ↔ InTurn l t log ∧ (pushedOf t [e] ≠ [] → ∀ k ∈ pushedOf t log, k ∈ heardBy l t log) := by
  constructor
  · intro h
    refine ⟨fun b a i m st hl => h b (a ++ [e]) i m st (by rw [hl]; simp), fun he => ?_⟩
    cases e with
    | pushed i u m st =>
      by_cases hu : u = t
      · subst hu; exact h log [] i m st rfl
      · exact absurd (by simp [pushedOf, hu]) he
    | submitted i u m => exact absurd rfl he
    | heard i l' u m st => exact absurd rfl he
    | called i src c st => exact absurd rfl he
  · rintro ⟨h1, h2⟩ b a i m st hl
    rcases List.eq_nil_or_concat a with rfl | ⟨a', z, rfl⟩
    · obtain ⟨rfl, rfl⟩ : log = b ∧ e = .pushed i t m st := by
        have := List.append_inj' hl rfl
        exact ⟨this.1, by simpa using this.2⟩
      exact h2 (by simp [pushedOf])
    · have hz : log = b ++ .pushed i t m st :: a' := by
        rw [List.concat_eq_append, ← List.cons_append, ← List.append_assoc] at hl
        exact (List.append_inj' hl rfl).1
      exact h1 b a' i m st hz

/-- What holds at any moment. -/
structure Turns (l t : Nat) (s : State A S P V) : Prop where
  /-- what was pushed has been shown or is waiting -/
  all : ∀ k, k ∈ pushedOf t s.world.log ↔ k ∈ heardBy l t s.world.log ++ waiting l t s.tasks
  /-- nothing twice -/
  once : (heardBy l t s.world.log ++ waiting l t s.tasks).Nodup
  old : ∀ k ∈ heardBy l t s.world.log ++ waiting l t s.tasks, k < s.world.next
  turn : InTurn l t s.world.log ↔ (heardBy l t s.world.log ++ waiting l t s.tasks).Pairwise (· < ·)

/-- A step that is neither a push of the type nor shows something to the store. -/
theorem Turns.same {l t : Nat} {s s' : State A S P V} (h : Turns l t s) (e : List (Entry S P V))
    (he : e = [] ∨ ∃ x, e = [x]) (hlog : s'.world.log = s.world.log ++ e)
    (hp : pushedOf t e = []) (hh : heardBy l t e ++ waiting l t s'.tasks = waiting l t s.tasks)
    (hn : s.world.next ≤ s'.world.next) : Turns l t s' := by
  have e1 : heardBy l t s'.world.log ++ waiting l t s'.tasks = heardBy l t s.world.log ++ waiting l t s.tasks := by
    rw [hlog, heardBy_append, List.append_assoc, hh]
  have e2 : pushedOf t s'.world.log = pushedOf t s.world.log := by rw [hlog, pushedOf_append, hp, List.append_nil]
  have e3 : InTurn l t s'.world.log ↔ InTurn l t s.world.log := by
    rcases he with rfl | ⟨x, rfl⟩
    · rw [hlog, List.append_nil]
    · rw [hlog, inTurn_snoc]
      exact ⟨fun h => h.1, fun h => ⟨h, fun hx => absurd hp hx⟩⟩
  exact ⟨fun k => by rw [e1, e2]; exact h.all k, by rw [e1]; exact h.once,
    fun k hk => Nat.lt_of_lt_of_le (h.old k (by rwa [e1] at hk)) hn, by rw [e1, e3]; exact h.turn⟩

/-- A message of the type is pushed. -/
theorem Turns.push {l t : Nat} {s s' : State A S P V} (h : Turns l t s) (m : Msg P V)
    (hlog : s'.world.log = s.world.log ++ [.pushed s.world.next t m s.world.stores])
    (hw : waiting l t s'.tasks = s.world.next :: waiting l t s.tasks)
    (hn : s'.world.next = s.world.next + 1) : Turns l t s' := by
  have e1 : heardBy l t s'.world.log = heardBy l t s.world.log := by
    rw [hlog, heardBy_append]; simp [heardBy]
  have e2 : pushedOf t s'.world.log = pushedOf t s.world.log ++ [s.world.next] := by
    rw [hlog, pushedOf_append]; simp [pushedOf]
  have hold := h.old
  have hmem : ∀ k, k ∈ heardBy l t s.world.log ++ s.world.next :: waiting l t s.tasks
      ↔ k = s.world.next ∨ k ∈ heardBy l t s.world.log ++ waiting l t s.tasks := by
    intro k
    simp only [List.mem_append, List.mem_cons]
    constructor
    · rintro (h | h | h) <;> simp [h]
    · rintro (h | h | h) <;> simp [h]
  refine ⟨fun k => ?_, ?_, ?_, ?_⟩
  · rw [e1, e2, hw, hmem, List.mem_append, List.mem_singleton, h.all k]
    exact Or.comm
  · rw [e1, hw, List.perm_middle.nodup_iff]
    exact List.nodup_cons.2 ⟨fun hk => Nat.lt_irrefl _ (hold _ hk), h.once⟩
  · rw [e1, hw, hn]
    intro k hk
    rcases (hmem k).1 hk with rfl | hk
    · exact Nat.lt_succ_self _
    · exact Nat.lt_succ_of_lt (hold k hk)
  · rw [e1, hw, hlog, inTurn_snoc, h.turn]
    constructor
    · rintro ⟨hp, hall⟩
      have hall := hall (by simp [pushedOf])
      have hnil : waiting l t s.tasks = [] := by
        cases hc : waiting l t s.tasks with
        | nil => rfl
        | cons k ks =>
          have hk : k ∈ heardBy l t s.world.log :=
            hall k ((h.all k).2 (by rw [hc]; simp))
          have hno := h.once
          rw [hc, List.nodup_append] at hno
          exact absurd rfl (hno.2.2 k hk k (by simp))
      rw [hnil] at hp hold ⊢
      rw [List.append_nil] at hp hold
      exact List.pairwise_append.2 ⟨hp, by simp, fun a ha b hb => by
        rw [List.mem_singleton] at hb; subst hb; exact hold a ha⟩
    · intro hp
      refine ⟨hp.sublist (List.Sublist.append_left (List.sublist_cons_self ..) _), fun _ k hk => ?_⟩
      rcases List.mem_append.1 ((h.all k).1 hk) with hk' | hk'
      · exact hk'
      · have h1 := (List.pairwise_cons.1 (List.pairwise_append.1 hp).2.1).1 k hk'
        exact absurd (hold k (by simp [hk'])) (Nat.lt_asymm h1)

theorem turns_step (c : Config S P V) (code : Code A P V) (l t : Nat) (hl : l ∈ c.listeners t)
    (hls : (c.listeners t).Nodup) (s : State A S P V) (h : Turns l t s) : Turns l t (step c code s) := by
  obtain ⟨w, ts⟩ := s
  cases ts with
  | nil => exact h
  | cons x r =>
    have wn : ∀ (y : Task A P V), (∀ i l' t' m, y ≠ .listen i l' t' m) → ∀ ys, waiting l t (y :: ys) = waiting l t ys := by
      intro y hy ys
      cases y <;> first | rfl | exact absurd rfl (hy _ _ _ _)
    cases x with
    | prog q =>
      cases q with
      | done => exact h.same [] (.inl rfl) (by simp [step, exec]) rfl (by simp [step, exec, waiting, heardBy]) (Nat.le_refl _)
      | get k => exact h.same [] (.inl rfl) (by simp [step, exec]) rfl (by simp [step, exec, waiting, heardBy]) (Nat.le_refl _)
      | put a k => exact h.same [] (.inl rfl) (by simp [step, exec]) rfl (by simp [step, exec, waiting, heardBy]) (Nat.le_refl _)
      | push u m k => exact h.same [] (.inl rfl) (by simp [step, exec]) rfl (by simp [step, exec, waiting, heardBy]) (Nat.le_refl _)
      | submit u m k => exact h.same [] (.inl rfl) (by simp [step, exec]) rfl (by simp [step, exec, waiting, heardBy]) (Nat.le_refl _)
      | look u p k =>
        cases hv : (c.ops u).view (w.stores u) p <;>
          exact h.same [] (.inl rfl) (by simp [step, exec, hv]) rfl (by simp [step, exec, hv, waiting, heardBy])
            (by simp [step, exec, hv])
    | push u m =>
      have hc : waiting l t (step c code ⟨w, .push u m :: r⟩).tasks
          = waiting (A := A) l t ((c.listeners u).map fun l' => .listen w.next l' u m) ++ waiting l t r := by
        simp only [step, exec]
        rw [waiting_append, waiting_append, waiting_calls, List.nil_append]
      by_cases hu : u = t
      · subst hu
        refine h.push m rfl ?_ rfl
        rw [hc, waiting_listeners _ _ _ _ _ hls, if_pos hl, wn _ (by simp)]
        rfl
      · refine h.same [.pushed w.next u m w.stores] (.inr ⟨_, rfl⟩) rfl (by simp [pushedOf, hu]) ?_ (Nat.le_succ _)
        rw [hc, waiting_other _ _ _ _ _ hu, wn _ (by simp)]
        simp [heardBy]
    | submit u m =>
      exact h.same [.submitted w.next u m] (.inr ⟨_, rfl⟩) rfl rfl (by simp [step, exec, waiting, heardBy]) (Nat.le_succ _)
    | call i src a =>
      exact h.same [.called i src a w.stores] (.inr ⟨_, rfl⟩) rfl rfl (by simp [step, exec, waiting, heardBy]) (Nat.le_refl _)
    | listen i l' u m =>
      refine h.same [.heard i l' u m w.stores] (.inr ⟨_, rfl⟩) rfl rfl ?_ (Nat.le_refl _)
      simp only [step, exec]
      rw [waiting_append, waiting_calls, List.nil_append]
      by_cases hlu : l' = l ∧ u = t <;> simp [heardBy, waiting, hlu]

theorem turns_run (c : Config S P V) (code : Code A P V) (l t : Nat) (hl : l ∈ c.listeners t)
    (hls : (c.listeners t).Nodup) : ∀ (n : Nat) (s : State A S P V), Turns l t s → Turns l t (run c code n s)
  | 0, _, h => h
  | n + 1, s, h => turns_run c code l t hl hls n _ (turns_step c code l t hl hls s h)

theorem turns_start (l t : Nat) (st : Nat → S) (a : A) (q : Prog A P V) : Turns l t (start st a q) :=
  ⟨fun k => by simp [start, pushedOf, heardBy, waiting], by simp [start, heardBy, waiting],
    by simp [start, heardBy, waiting], by
      constructor
      · intro _; simp [start, heardBy, waiting]
      · intro _ b x i m s hl; simp [start] at hl⟩

/-- C121, exactly, for all actors and programs: when everything has come to an end, a listening store has been shown
the messages of a type in the order in which they were pushed, if and only if no message of the type was pushed
before the store had been shown the ones pushed earlier.  In any case it has been shown each of them once. -/
theorem listener_order_iff (c : Config S P V) (code : Code A P V) (l t : Nat) (hl : l ∈ c.listeners t)
    (hls : (c.listeners t).Nodup) (st : Nat → S) (a : A) (q : Prog A P V) (n : Nat)
    (hend : (run c code n (start st a q)).tasks = []) :
    ((heardBy l t (run c code n (start st a q)).world.log).Pairwise (· < ·)
      ↔ InTurn l t (run c code n (start st a q)).world.log)
    ∧ (heardBy l t (run c code n (start st a q)).world.log).Nodup
    ∧ ∀ k, k ∈ heardBy l t (run c code n (start st a q)).world.log
        ↔ k ∈ pushedOf t (run c code n (start st a q)).world.log := by
  have h := turns_run c code l t hl hls n _ (turns_start l t st a q)
  have hw : waiting l t (run c code n (start st a q)).tasks = [] := by rw [hend]; rfl
  refine ⟨?_, ?_, fun k => ?_⟩
  · have := h.turn; rw [hw, List.append_nil] at this; exact this.symm
  · have := h.once; rwa [hw, List.append_nil] at this
  · have := h.all k; rw [hw, List.append_nil] at this; exact this.symm

/-- C121: as long as no message is pushed before its time, the store is in order also while there is something left
to do; and once one was, it is not going to be in order at the end, whatever is done from then on. -/
theorem listener_order_lost (c : Config S P V) (code : Code A P V) (l t : Nat) (hl : l ∈ c.listeners t)
    (hls : (c.listeners t).Nodup) (st : Nat → S) (a : A) (q : Prog A P V) (n : Nat) :
    (InTurn l t (run c code n (start st a q)).world.log →
      (heardBy l t (run c code n (start st a q)).world.log).Pairwise (· < ·))
    ∧ (¬ InTurn l t (run c code n (start st a q)).world.log → ∀ k,
      (run c code (n + k) (start st a q)).tasks = [] →
        ¬ (heardBy l t (run c code (n + k) (start st a q)).world.log).Pairwise (· < ·)) := by
  have h := turns_run c code l t hl hls n _ (turns_start l t st a q)
  refine ⟨fun ht => (List.pairwise_append.1 (h.turn.1 ht)).1, fun hnot k hend hp => hnot ?_⟩
  have ht := ((listener_order_iff c code l t hl hls st a q (n + k) hend).1).1 hp
  have grows : ∀ (k : Nat) (s : State A S P V), ∃ e, (run c code k s).world.log = s.world.log ++ e := by
    intro k
    induction k with
    | zero => exact fun s => ⟨[], by simp [run]⟩
    | succ k ih =>
      intro s
      obtain ⟨e, he⟩ := ih (step c code s)
      obtain ⟨e', he'⟩ : ∃ e', (step c code s).world.log = s.world.log ++ e' := by
        obtain ⟨w, ts⟩ := s
        cases ts with
        | nil => exact ⟨[], by simp [step]⟩
        | cons x r =>
          cases x with
          | prog q =>
            cases q with
            | look u p k =>
              cases hv : (c.ops u).view (w.stores u) p <;> exact ⟨[], by simp [step, exec, hv]⟩
            | _ => exact ⟨[], by simp [step, exec]⟩
          | _ => exact ⟨_, rfl⟩
      exact ⟨e' ++ e, by rw [run, he, he', List.append_assoc]⟩
  obtain ⟨e, he⟩ := grows k (run c code n (start st a q))
  intro b x i m s hlog
  rw [run_add] at ht
  exact ht b (x ++ e) i m s (by rw [he, hlog]; simp)

/-- With the echo producer a request is shown late, and a message that the program pushes itself is not. -/
example : ∃ (p q : Prog Nat Nat Nat) (n : Nat), (run sample echo n (start (fun _ => MapStore.empty) 0 p)).tasks.length = 0
    ∧ heardBy 1 0 (run sample echo n (start (fun _ => MapStore.empty) 0 p)).world.log = [1, 0]
    ∧ (run sample echo n (start (fun _ => MapStore.empty) 0 q)).tasks.length = 0
    ∧ heardBy 1 0 (run sample echo n (start (fun _ => MapStore.empty) 0 q)).world.log = [0, 1]
    ∧ pushedOf 0 (run sample echo n (start (fun _ => MapStore.empty) 0 q)).world.log = [0, 1]
    ∧ (sample.listeners 0).Nodup ∧ 1 ∈ sample.listeners 0 :=
  ⟨.push 0 (.upCreate 5 7) .done, .push 0 (.downCreate 5 (.value 7)) (.push 0 (.downDelete 5) .done), 40, by decide +kernel⟩

end Nbdl.Nested
