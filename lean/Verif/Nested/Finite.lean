import Verif.Nested.Endless
/-!
# When exactly pushing comes to an end (C122)
-/
namespace Nbdl.Nested
open MapStore (Msg View Payload Map)
open Context (Config Actor StoreOps)
open Spec
variable {A S P V : Type}

/-- The numbers of the messages that were pushed. -/
def Spec.beginnings (log : List (Entry S P V)) : List Nat :=
  log.filterMap fun e => match e with
    | .pushed i _ _ _ => some i
    | .submitted i _ _ => some i
    | _ => none

/-- A message is about to be pushed. -/
def Pushing (s : State A S P V) : Prop :=
  (∃ t m r, s.tasks = .push t m :: r) ∨ ∃ t m r, s.tasks = .submit t m :: r

/-- These tasks are done, or come to a push. -/
def Through (c : Config S P V) (code : Code A P V) (ts : List (Task A P V)) : Prop :=
  ∀ (w : World A S P V) (r : List (Task A P V)), ∃ n,
    (∃ w', run c code n ⟨w, ts ++ r⟩ = ⟨w', r⟩) ∨ Pushing (run c code n ⟨w, ts ++ r⟩)

theorem through_nil (c : Config S P V) (code : Code A P V) : Through c code [] :=
  fun w _ => ⟨0, .inl ⟨w, rfl⟩⟩

theorem through_append {c : Config S P V} {code : Code A P V} {xs ys : List (Task A P V)} (hx : Through c code xs)
    (hy : Through c code ys) : Through c code (xs ++ ys) := by
  intro w r
  obtain ⟨n, ⟨w', hn⟩ | hn⟩ := hx w (ys ++ r)
  · obtain ⟨k, hk⟩ := hy w' r
    refine ⟨n + k, ?_⟩
    rw [run_add, List.append_assoc, hn]
    exact hk
  · exact ⟨n, .inr (by rw [List.append_assoc]; exact hn)⟩

/-- It is enough to look at what is to be done after one step. -/
theorem through_step {c : Config S P V} {code : Code A P V} {x : Task A P V}
    (h : ∀ w, Through c code (exec c code w x).2) : Through c code [x] := by
  intro w r
  obtain ⟨n, hn⟩ := h w (exec c code w x).1 r
  exact ⟨n + 1, hn⟩

theorem through_push (c : Config S P V) (code : Code A P V) (t : Nat) (m : Msg P V) : Through c code [.push t m] :=
  fun _ r => ⟨0, .inr (.inl ⟨t, m, r, rfl⟩)⟩

theorem through_submit (c : Config S P V) (code : Code A P V) (t : Nat) (m : Msg P V) : Through c code [.submit t m] :=
  fun _ r => ⟨0, .inr (.inr ⟨t, m, r, rfl⟩)⟩

/-- Code ends by itself. -/
theorem through_prog (c : Config S P V) (code : Code A P V) (q : Prog A P V) : Through c code [.prog q] := by
  induction q with
  | done => exact through_step fun w => through_nil c code
  | get k ih => exact through_step fun w => ih w.vars
  | put a k ih => exact through_step fun w => ih
  | push t m k ih => exact through_step fun w => through_append (through_push c code t m) ih
  | submit t m k ih => exact through_step fun w => through_append (through_submit c code t m) ih
  | look t p k ih =>
    refine through_step fun w => ?_
    by_cases hv : (c.ops t).view (w.stores t) p = .triggerRead
    · rw [exec_look_trigger c code w t p k hv]
      exact through_append (through_push c code t _) (ih _)
    · rw [exec_look_other c code w t p k hv]
      exact ih _

theorem through_call (c : Config S P V) (code : Code A P V) (i : Nat) (src : Option Nat) (a : Call P V) :
    Through c code [.call i src a] := through_step fun _ => through_prog c code (code a)

theorem through_calls (c : Config S P V) (code : Code A P V) (i : Nat) (src : Option Nat) :
    ∀ cs : List (Call P V), Through c code (cs.map (.call i src))
  | [] => through_nil c code
  | a :: cs => through_append (through_call c code i src a) (through_calls c code i src cs)

theorem through_task (c : Config S P V) (code : Code A P V) : ∀ x : Task A P V, Through c code [x]
  | .prog q => through_prog c code q
  | .push t m => through_push c code t m
  | .submit t m => through_submit c code t m
  | .call i src a => through_call c code i src a
  | .listen i l t m => through_step fun w => by
      simp only [exec]
      exact through_calls c code i (some l) _

theorem through_all (c : Config S P V) (code : Code A P V) : ∀ ts : List (Task A P V), Through c code ts
  | [] => through_nil c code
  | x :: ts => through_append (through_task c code x) (through_all c code ts)

theorem next_step (c : Config S P V) (code : Code A P V) (s : State A S P V) :
    s.world.next ≤ (step c code s).world.next := by
  obtain ⟨w, ts⟩ := s
  cases ts with
  | nil => exact Nat.le_refl _
  | cons x r => exact exec_next c code w x

theorem next_run (c : Config S P V) (code : Code A P V) : ∀ (n : Nat) (s : State A S P V),
    s.world.next ≤ (run c code n s).world.next
  | 0, _ => Nat.le_refl _
  | n + 1, s => Nat.le_trans (next_step c code s) (next_run c code n (step c code s))

theorem beginnings_append (x y : List (Entry S P V)) : beginnings (x ++ y) = beginnings x ++ beginnings y := List.filterMap_append

theorem beginnings_step (c : Config S P V) (code : Code A P V) (s : State A S P V)
    (h : (beginnings s.world.log).length = s.world.next) :
    (beginnings (step c code s).world.log).length = (step c code s).world.next := by
  obtain ⟨w, ts⟩ := s
  cases ts with
  | nil => exact h
  | cons x r =>
    have h : (beginnings w.log).length = w.next := h
    cases x with
    | prog q =>
      cases q with
      | look u p k =>
        cases hv : (c.ops u).view (w.stores u) p <;> simpa [step, exec, hv] using h
      | _ => simpa [step, exec] using h
    | _ => simpa [step, exec, beginnings_append, beginnings] using h

theorem beginnings_run (c : Config S P V) (code : Code A P V) : ∀ (n : Nat) (s : State A S P V),
    (beginnings s.world.log).length = s.world.next →
    (beginnings (run c code n s).world.log).length = (run c code n s).world.next
  | 0, _, h => h
  | n + 1, s, h => beginnings_run c code n _ (beginnings_step c code s h)

/-- If only finitely many messages are pushed, everything comes to an end. -/
theorem ends_of_bound (c : Config S P V) (code : Code A P V) (B : Nat) : ∀ (d : Nat) (s : State A S P V),
    B - s.world.next = d → (∀ n, (run c code n s).world.next ≤ B) → ∃ n, (run c code n s).tasks = [] := by
  intro d
  induction d using Nat.strongRecOn with
  | ind d ih =>
    intro s hd hB
    obtain ⟨n, ⟨w', hn⟩ | hn⟩ := through_all c code s.tasks s.world []
    · refine ⟨n, ?_⟩
      rw [List.append_nil] at hn
      have e : run c code n s = ⟨w', []⟩ := hn
      rw [e]
    · rw [List.append_nil] at hn
      have hp : Pushing (run c code n s) := hn
      have hs : (run c code (n + 1) s).world.next = (run c code n s).world.next + 1 := by
        rw [run_add]
        show (step c code (run c code n s)).world.next = _
        rcases hp with ⟨t, m, r, e⟩ | ⟨t, m, r, e⟩ <;> simp only [step, e, exec]
      have h1 := next_run c code n s
      have h2 := hB (n + 1)
      obtain ⟨k, hk⟩ := ih (B - (run c code (n + 1) s).world.next) (by omega) (run c code (n + 1) s) rfl (fun k => by
        rw [← run_add]; exact hB _)
      exact ⟨n + 1 + k, by rw [run_add]; exact hk⟩

/-- C122, exactly, for all actors and programs: pushing comes to an end, so that the program gets control back, if and
only if finitely many messages are pushed.  Nothing else keeps the context from returning. -/
theorem comes_to_rest_iff (c : Config S P V) (code : Code A P V) (st : Nat → S) (a : A) (q : Prog A P V) :
    (∃ n, (run c code n (start st a q)).tasks = [])
    ↔ ∃ B, ∀ n, (beginnings (run c code n (start st a q)).world.log).length ≤ B := by
  have hlen : ∀ n, (beginnings (run c code n (start st a q)).world.log).length = (run c code n (start st a q)).world.next :=
    fun n => beginnings_run c code n _ rfl
  simp only [hlen]
  constructor
  · rintro ⟨n, hn⟩
    refine ⟨(run c code n (start st a q)).world.next, fun k => ?_⟩
    rcases Nat.le_total k n with h | h
    · obtain ⟨d, rfl⟩ := Nat.le.dest h
      rw [run_add]
      exact next_run c code d _
    · obtain ⟨d, rfl⟩ := Nat.le.dest h
      rw [run_add, run_rest c code d _ hn]
      exact Nat.le_refl _
  · rintro ⟨B, hB⟩
    exact ends_of_bound c code B _ _ rfl hB

/-- With the echo producer two requests lead to four messages, and that is all. -/
example : (run sample echo 60 (start (fun _ => MapStore.empty) 0
      (.push 0 (.upCreate 5 7) (.push 0 (.upDelete 5) .done) : Prog Nat Nat Nat))).tasks.length = 0
    ∧ beginnings (run sample echo 60 (start (fun _ => MapStore.empty) 0
      (.push 0 (.upCreate 5 7) (.push 0 (.upDelete 5) .done) : Prog Nat Nat Nat))).world.log = [0, 1, 2, 3] := by
  decide +kernel

/-- A producer that answers every request by another one begins as many as one likes. -/
example : beginnings (run sample (fun x => match x with | .up _ t m => .push t m .done | _ => .done : Code Nat Nat Nat) 40
      (start (fun _ => MapStore.empty) 0 (.push 0 (.upCreate 5 7) .done))).world.log = List.range 13 := by
  decide +kernel

end Nbdl.Nested
