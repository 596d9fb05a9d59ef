import Verif.Async.Spec
import Verif.Promise.Props
/-! # Pipelines in time (C132) and exceptions (C133) -/
namespace Nbdl.Async
open Promise (Call)
open Spec
variable {V E X O : Type}

/-! ## Equations for whole runs -/

theorem settles_over (toE : X → E) (cs : List (Call V E)) :
    settles toE (.over : St V E X O) cs = (.over, []) := by
  induction cs with
  | nil => rfl
  | cons c cs ih => simp [settles, settle, ih]

section
variable (toE : X → E) (rest : List (Step V E X O)) (v w : V) (cs : List (Call V E)) (id : Nat)

theorem run_nil : run toE ([] : List (Step V E X O)) v cs = (.over, [.finished v]) := by
  simp [run, advance, settles_over]

theorem run_promise_wait (start : V → O) :
    run toE (.promise id start :: rest) v [] = (.waiting rest, [.ran id v, .asked (start v)]) := rfl

theorem run_promise_resolve (start : V → O) :
    run toE (.promise id start :: rest) v (.resolve w :: cs)
      = ((run toE rest w cs).1, .ran id v :: .asked (start v) :: (run toE rest w cs).2) := rfl

theorem run_promise_reject (start : V → O) (e : E) :
    run toE (.promise id start :: rest) v (.reject e :: cs)
      = (.over, .ran id v :: .asked (start v) :: rejectTo rest e) := by
  simp [run, advance, settles, settle, settles_over]

theorem run_promise_terminate (start : V → O) :
    run toE (.promise id start :: rest) v (.terminate :: cs)
      = (.over, [.ran id v, .asked (start v), .stopped]) := by
  simp [run, advance, settles, settle, settles_over]

theorem run_func_ok {f : V → Except X V} (h : f v = .ok w) :
    run toE (.func id f :: rest) v cs = ((run toE rest w cs).1, .ran id v :: (run toE rest w cs).2) := by
  simp [run, advance, h]

theorem run_func_error {f : V → Except X V} {x : X} (h : f v = .error x) :
    run toE (.func id f :: rest) v cs = (.over, [.ran id v, .crashed x]) := by
  simp [run, advance, h, settles_over]

theorem run_try_ok {f : V → Except X V} (h : f v = .ok w) :
    run toE (.try_ id f :: rest) v cs = ((run toE rest w cs).1, .ran id v :: (run toE rest w cs).2) := by
  simp [run, advance, h]

theorem run_try_error {f : V → Except X V} {x : X} (h : f v = .error x) :
    run toE (.try_ id f :: rest) v cs = (.over, .ran id v :: rejectTo rest (toE x)) := by
  simp [run, advance, h, settles_over]

theorem run_tap_none {f : V → Option X} (h : f v = none) :
    run toE (.tap id f :: rest) v cs = ((run toE rest v cs).1, .ran id v :: (run toE rest v cs).2) := by
  simp [run, advance, h]

theorem run_tap_some {f : V → Option X} {x : X} (h : f v = some x) :
    run toE (.tap id f :: rest) v cs = (.over, [.ran id v, .crashed x]) := by
  simp [run, advance, h, settles_over]

theorem run_catch (acc : E → Bool) (fn : E → Option X) :
    run toE (.catch_ id acc fn :: rest) v cs = run toE rest v cs := rfl
end

/-- What a run can be, as a principle of induction over all of them. -/
theorem run_induction (toE : X → E) {P : List (Step V E X O) → V → List (Call V E) → St V E X O → List (Event V E X O) → Prop}
    (nil : ∀ v cs, P [] v cs .over [.finished v])
    (wait : ∀ id start rest v, P (.promise id start :: rest) v [] (.waiting rest) [.ran id v, .asked (start v)])
    (resolve : ∀ id start rest v w cs s t, run toE rest w cs = (s, t) → P rest w cs s t →
      P (.promise id start :: rest) v (.resolve w :: cs) s (.ran id v :: .asked (start v) :: t))
    (reject : ∀ id start rest v e cs,
      P (.promise id start :: rest) v (.reject e :: cs) .over (.ran id v :: .asked (start v) :: rejectTo rest e))
    (terminate : ∀ id start rest v cs,
      P (.promise id start :: rest) v (.terminate :: cs) .over [.ran id v, .asked (start v), .stopped])
    (funcOk : ∀ id f rest v w cs s t, f v = .ok w → run toE rest w cs = (s, t) → P rest w cs s t →
      P (.func id f :: rest) v cs s (.ran id v :: t))
    (funcError : ∀ id f rest v x cs, f v = .error x → P (.func id f :: rest) v cs .over [.ran id v, .crashed x])
    (tryOk : ∀ id f rest v w cs s t, f v = .ok w → run toE rest w cs = (s, t) → P rest w cs s t →
      P (.try_ id f :: rest) v cs s (.ran id v :: t))
    (tryError : ∀ id f rest v x cs, f v = .error x →
      P (.try_ id f :: rest) v cs .over (.ran id v :: rejectTo rest (toE x)))
    (tapNone : ∀ id f rest v cs s t, f v = none → run toE rest v cs = (s, t) → P rest v cs s t →
      P (.tap id f :: rest) v cs s (.ran id v :: t))
    (tapSome : ∀ id f rest v x cs, f v = some x → P (.tap id f :: rest) v cs .over [.ran id v, .crashed x])
    (catch_ : ∀ id acc fn rest v cs s t, run toE rest v cs = (s, t) → P rest v cs s t →
      P (.catch_ id acc fn :: rest) v cs s t)
    (steps : List (Step V E X O)) (v : V) (cs : List (Call V E)) :
    P steps v cs (run toE steps v cs).1 (run toE steps v cs).2 := by
  induction steps generalizing v cs with
  | nil => rw [run_nil]; exact nil v cs
  | cons s rest ih =>
    cases s with
    | promise id start =>
      cases cs with
      | nil => exact wait id start rest v
      | cons c cs =>
        cases c with
        | resolve w => rw [run_promise_resolve]; exact resolve _ _ _ _ _ _ _ _ rfl (ih w cs)
        | reject e => rw [run_promise_reject]; exact reject _ _ _ _ _ _
        | terminate => rw [run_promise_terminate]; exact terminate _ _ _ _ _
    | func id f =>
      cases h : f v with
      | ok w => rw [run_func_ok _ _ _ _ _ _ h]; exact funcOk _ _ _ _ _ _ _ _ h rfl (ih w cs)
      | error x => rw [run_func_error _ _ _ _ _ h]; exact funcError _ _ _ _ _ _ h
    | try_ id f =>
      cases h : f v with
      | ok w => rw [run_try_ok _ _ _ _ _ _ h]; exact tryOk _ _ _ _ _ _ _ _ h rfl (ih w cs)
      | error x => rw [run_try_error _ _ _ _ _ h]; exact tryError _ _ _ _ _ _ h
    | tap id f =>
      cases h : f v with
      | none => rw [run_tap_none _ _ _ _ _ h]; exact tapNone _ _ _ _ _ _ _ h rfl (ih v cs)
      | some x => rw [run_tap_some _ _ _ _ _ h]; exact tapSome _ _ _ _ _ _ h
    | catch_ id acc fn => rw [run_catch]; exact catch_ _ _ _ _ _ _ _ _ rfl (ih v cs)

/-! ## C132 pipelines in time -/

theorem reject_agrees (toE : X → E) (steps : List (Step V E X O)) (cs : List (Call V E)) (e : E)
    (h : ∀ x, .crashed x ∉ rejectTo steps e) :
    (rejectTo steps e).filterMap plain = (Promise.joinAll (atOnce toE steps cs) Promise.endAsync).reject e := by
  induction steps generalizing cs with
  | nil => rfl
  | cons s rest ih =>
    cases s with
    | catch_ id acc fn =>
      rw [rejectTo] at h ⊢
      by_cases ha : acc e = true
      · rw [if_pos ha] at h ⊢
        have hn : fn e = none := by
          cases hf : fn e with
          | none => rfl
          | some x => exact absurd (h x) (by simp [hf])
        simp [hn, plain, atOnce, Promise.joinAll_cons, Promise.join, Promise.Step.reject, ha,
          Promise.terminate_joinAll, Promise.endAsync]
      · rw [if_neg ha] at h ⊢
        rw [ih cs h]
        simp [atOnce, Promise.joinAll_cons, Promise.join, Promise.Step.reject, ha]
    | promise id start =>
      rw [rejectTo] at h ⊢
      · cases cs <;> (rw [atOnce, Promise.joinAll_cons]; exact ih _ h)
      all_goals nofun
    | func id f => rw [rejectTo] at h ⊢; exact ih cs h; all_goals nofun
    | try_ id f => rw [rejectTo] at h ⊢; exact ih cs h; all_goals nofun
    | tap id f => rw [rejectTo] at h ⊢; exact ih cs h; all_goals nofun

theorem plain_asked (o : O) (t : List (Event V E X O)) :
    (.asked o :: t).filterMap plain = t.filterMap plain := rfl

/-- C132: whenever its operations complete, a pipeline in which nothing is thrown but in `try_` does what the pipeline
does whose operations complete at once. -/
theorem async_agrees (toE : X → E) (steps : List (Step V E X O)) (v : V) (cs : List (Call V E))
    (h : ∀ x, .crashed x ∉ (run toE steps v cs).2) :
    (run toE steps v cs).2.filterMap plain = Promise.run (atOnce toE steps cs) v := by
  revert h
  refine run_induction toE (P := fun steps v cs _ t => (∀ x, .crashed x ∉ t) →
    t.filterMap plain = (Promise.joinAll (atOnce toE steps cs) Promise.endAsync).resolve v)
    ?_ ?_ ?_ ?_ ?_ ?_ ?_ ?_ ?_ ?_ ?_ ?_ steps v cs
  · intro v cs _; rfl
  · intro id start rest v _; rfl
  · intro id start rest v w cs s t _ ih h
    have := ih fun x hx => h x (by simp [hx])
    simp [plain_asked, plain, atOnce, Promise.joinAll_cons, Promise.join, Promise.Step.resolve, Promise.Resolver.call,
      this]
  · intro id start rest v e cs h
    have := reject_agrees toE rest cs e fun x hx => h x (by simp [hx])
    simp [plain_asked, plain, atOnce, Promise.joinAll_cons, Promise.join, Promise.Step.resolve, Promise.Resolver.call,
      this]
  · intro id start rest v cs h
    simp [plain_asked, plain, atOnce, Promise.joinAll_cons, Promise.join, Promise.Step.resolve, Promise.Resolver.call,
      Promise.terminate_joinAll, Promise.endAsync]
  · intro id f rest v w cs s t e _ ih h
    have := ih fun x hx => h x (by simp [hx])
    simp [plain, atOnce, Promise.joinAll_cons, Promise.join, Promise.Step.resolve, Promise.Resolver.call, this, e]
  · intro id f rest v x cs e h
    exact absurd (h x) (by simp)
  · intro id f rest v w cs s t e _ ih h
    have := ih fun x hx => h x (by simp [hx])
    simp [plain, atOnce, Promise.joinAll_cons, Promise.join, Promise.Step.resolve, Promise.Resolver.call, this, e]
  · intro id f rest v x cs e h
    have := reject_agrees toE rest cs (toE x) fun x hx => h x (by simp [hx])
    simp [plain, atOnce, Promise.joinAll_cons, Promise.join, Promise.Step.resolve, Promise.Resolver.call, this, e]
  · intro id f rest v cs s t e _ ih h
    have := ih fun x hx => h x (by simp [hx])
    simp [plain, atOnce, Promise.joinAll_cons, Promise.join, Promise.Step.resolve, Promise.Resolver.call, this, e]
  · intro id f rest v x cs e h
    exact absurd (h x) (by simp)
  · intro id acc fn rest v cs s t _ ih h
    simpa [atOnce, Promise.joinAll_cons, Promise.join, Promise.Step.resolve] using ih h

theorem settles_append (toE : X → E) (s : St V E X O) (cs ds : List (Call V E)) :
    settles toE s (cs ++ ds) = ((settles toE (settles toE s cs).1 ds).1,
      (settles toE s cs).2 ++ (settles toE (settles toE s cs).1 ds).2) := by
  induction cs generalizing s with
  | nil => rfl
  | cons c cs ih => simp [settles, ih]

/-- C132: what has been done is not undone, and nothing is done but by the completion of an operation. -/
theorem run_append (toE : X → E) (steps : List (Step V E X O)) (v : V) (cs ds : List (Call V E)) :
    (run toE steps v (cs ++ ds)).2 = (run toE steps v cs).2 ++ (settles toE (run toE steps v cs).1 ds).2 := by
  simp [run, settles_append]

theorem rejectTo_shape (steps : List (Step V E X O)) (e : E) :
    (∃ x, rejectTo steps e = [x] ∧ Last x) ∨ ∃ id x, rejectTo steps e = [.handled id e, x] ∧ Last x := by
  induction steps with
  | nil => exact .inl ⟨_, rfl, trivial⟩
  | cons s rest ih =>
    cases s with
    | catch_ id acc fn =>
      rw [rejectTo]
      split
      · right
        cases hf : fn e with
        | none => exact ⟨id, .stopped, by simp [hf], trivial⟩
        | some x => exact ⟨id, .crashed x, by simp [hf], trivial⟩
      · exact ih
    | _ => rw [rejectTo]; exact ih; nofun

theorem rejectTo_ops (steps : List (Step V E X O)) (e : E) : operations (rejectTo steps e) = [] := by
  rcases rejectTo_shape steps e with ⟨x, h, hx⟩ | ⟨id, x, h, hx⟩ <;> rw [h] <;> cases x <;> first | rfl | exact hx.elim

/-- What holds of the last thing a pipeline does and of waiting, and is kept by what comes before, holds of runs. -/
theorem trace_induction (toE : X → E) {P : St V E X O → List (Event V E X O) → Prop}
    (final : ∀ x, Last x → P .over [x]) (wait : ∀ rest o, P (.waiting rest) [.asked o])
    (cons : ∀ y s t, ¬ Last y → P s t → P s (y :: t))
    (steps : List (Step V E X O)) (v : V) (cs : List (Call V E)) : P (run toE steps v cs).1 (run toE steps v cs).2 := by
  have rej : ∀ (rest : List (Step V E X O)) (e : E), P .over (rejectTo rest e) := by
    intro rest e
    rcases rejectTo_shape rest e with ⟨x, h, hx⟩ | ⟨id, x, h, hx⟩
    · rw [h]; exact final x hx
    · rw [h]; exact cons _ _ _ (fun h => h) (final x hx)
  have ran : ∀ id v s t, P s t → P s (.ran id v :: t) := fun id v s t h => cons _ _ _ (fun h => h) h
  have asked : ∀ o s t, P s t → P s (.asked o :: t) := fun o s t h => cons _ _ _ (fun h => h) h
  refine run_induction toE (P := fun _ _ _ s t => P s t) ?_ ?_ ?_ ?_ ?_ ?_ ?_ ?_ ?_ ?_ ?_ ?_ steps v cs
  · intro v cs; exact final _ trivial
  · intro id start rest v; exact ran _ _ _ _ (wait _ _)
  · intro id start rest v w cs s t _ h; exact ran _ _ _ _ (asked _ _ _ h)
  · intro id start rest v e cs; exact ran _ _ _ _ (asked _ _ _ (rej _ _))
  · intro id start rest v cs; exact ran _ _ _ _ (asked _ _ _ (final _ trivial))
  · intro id f rest v w cs s t _ _ h; exact ran _ _ _ _ h
  · intro id f rest v x cs _; exact ran _ _ _ _ (final _ trivial)
  · intro id f rest v w cs s t _ _ h; exact ran _ _ _ _ h
  · intro id f rest v x cs _; exact ran _ _ _ _ (rej _ _)
  · intro id f rest v cs s t _ _ h; exact ran _ _ _ _ h
  · intro id f rest v x cs _; exact ran _ _ _ _ (final _ trivial)
  · intro id acc fn rest v cs s t _ h; exact h

/-- C132: a pipeline that waits has done nothing that ends it, and one that is over did so once, at the end. -/
theorem ends_once (toE : X → E) (steps : List (Step V E X O)) (v : V) (cs : List (Call V E)) :
    ((∃ rest, (run toE steps v cs).1 = .waiting rest) ∧ ∀ x ∈ (run toE steps v cs).2, ¬ Last x)
    ∨ ((run toE steps v cs).1 = .over
      ∧ ∃ t x, (run toE steps v cs).2 = t ++ [x] ∧ Last x ∧ ∀ y ∈ t, ¬ Last y) := by
  refine trace_induction toE (P := fun s t => ((∃ rest, s = .waiting rest) ∧ ∀ x ∈ t, ¬ Last x)
    ∨ (s = .over ∧ ∃ t' x, t = t' ++ [x] ∧ Last x ∧ ∀ y ∈ t', ¬ Last y)) ?_ ?_ ?_ steps v cs
  · intro x hx
    exact .inr ⟨rfl, [], x, rfl, hx, by simp⟩
  · intro rest o
    exact .inl ⟨⟨rest, rfl⟩, by simp [Last]⟩
  · rintro y s t hy (⟨hs, h⟩ | ⟨hs, t', x, rfl, hx, h⟩)
    · exact .inl ⟨hs, fun x hx => (List.mem_cons.1 hx).elim (fun e => e ▸ hy) (h x)⟩
    · exact .inr ⟨hs, y :: t', x, rfl, hx, fun z hz => (List.mem_cons.1 hz).elim (fun e => e ▸ hy) (h z)⟩

/-- C132: after `k` completions a pipeline that waits has started `k + 1` operations: one at a time.  It is over after
as many completions as it has promises. -/
theorem one_at_a_time (toE : X → E) (steps : List (Step V E X O)) (v : V) (cs : List (Call V E)) :
    (∀ rest, (run toE steps v cs).1 = .waiting rest → (operations (run toE steps v cs).2).length = cs.length + 1)
    ∧ (operations (run toE steps v cs).2).length ≤ promises steps
    ∧ (promises steps ≤ cs.length → (run toE steps v cs).1 = .over) := by
  refine run_induction toE (P := fun steps _ cs s t =>
    (∀ rest, s = .waiting rest → (operations t).length = cs.length + 1)
    ∧ (operations t).length ≤ promises steps ∧ (promises steps ≤ cs.length → s = .over))
    ?_ ?_ ?_ ?_ ?_ ?_ ?_ ?_ ?_ ?_ ?_ ?_ steps v cs
  · intro v cs; simp [operations, promises]
  · intro id start rest v; simp [operations, promises]
  · intro id start rest v w cs s t _ h
    simpa [operations, promises] using h
  · intro id start rest v e cs; simp [operations, promises, rejectTo_ops]
  · intro id start rest v cs; simp [operations, promises]
  · intro id f rest v w cs s t _ _ h; simpa [operations, promises] using h
  · intro id f rest v x cs _; simp [operations, promises]
  · intro id f rest v w cs s t _ _ h; simpa [operations, promises] using h
  · intro id f rest v x cs _; simp [operations, promises, rejectTo_ops]
  · intro id f rest v cs s t _ _ h; simpa [operations, promises] using h
  · intro id f rest v x cs _; simp [operations, promises]
  · intro id acc fn rest v cs s t _ h; simpa [operations, promises] using h

/-! ## C133 exceptions -/

/-- C133: what a handler is given is a rejection by an operation, or an exception that a function given to `try_` has
thrown — never an exception of another function. -/
theorem handled_origin (toE : X → E) (steps : List (Step V E X O)) (v : V) (cs : List (Call V E)) (hid : Nat) (e : E)
    (h : .handled hid e ∈ (run toE steps v cs).2) :
    .reject e ∈ cs ∨ ∃ id f w x, .try_ id f ∈ steps ∧ .ran id w ∈ (run toE steps v cs).2 ∧ f w = .error x ∧ e = toE x := by
  have rej : ∀ (rest : List (Step V E X O)) (e' : E), .handled hid e ∈ rejectTo rest e' → e = e' := by
    intro rest e' hm
    rcases rejectTo_shape rest e' with ⟨x, h, hx⟩ | ⟨id, x, h, hx⟩
    · rw [h] at hm
      cases List.mem_singleton.1 hm
      exact hx.elim
    · rw [h] at hm
      rcases List.mem_cons.1 hm with hm | hm
      · cases hm; rfl
      · cases List.mem_singleton.1 hm
        exact hx.elim
  revert h
  refine run_induction toE (P := fun steps _ cs _ t => .handled hid e ∈ t → .reject e ∈ cs
    ∨ ∃ id f w x, .try_ id f ∈ steps ∧ .ran id w ∈ t ∧ f w = .error x ∧ e = toE x)
    ?_ ?_ ?_ ?_ ?_ ?_ ?_ ?_ ?_ ?_ ?_ ?_ steps v cs
  · intro v cs h; simp at h
  · intro id start rest v h; simp at h
  · intro id start rest v w cs s t _ ih h
    rcases ih (by simpa using h) with h | ⟨id, f, w, x, h1, h2, h3, h4⟩
    · exact .inl (by simp [h])
    · exact .inr ⟨id, f, w, x, by simp [h1], by simp [h2], h3, h4⟩
  · intro id start rest v e' cs h
    left
    rw [rej rest e' (by simpa using h)]
    simp
  · intro id start rest v cs h; simp at h
  · intro id f rest v w cs s t _ _ ih h
    rcases ih (by simpa using h) with h | ⟨id, f, w, x, h1, h2, h3, h4⟩
    · exact .inl h
    · exact .inr ⟨id, f, w, x, by simp [h1], by simp [h2], h3, h4⟩
  · intro id f rest v x cs _ h; simp at h
  · intro id f rest v w cs s t _ _ ih h
    rcases ih (by simpa using h) with h | ⟨id, f, w, x, h1, h2, h3, h4⟩
    · exact .inl h
    · exact .inr ⟨id, f, w, x, by simp [h1], by simp [h2], h3, h4⟩
  · intro id f rest v x cs hf h
    exact .inr ⟨id, f, v, x, by simp, by simp, hf, rej rest _ (by simpa using h)⟩
  · intro id f rest v cs s t _ _ ih h
    rcases ih (by simpa using h) with h | ⟨id, f, w, x, h1, h2, h3, h4⟩
    · exact .inl h
    · exact .inr ⟨id, f, w, x, by simp [h1], by simp [h2], h3, h4⟩
  · intro id f rest v x cs _ h; simp at h
  · intro id acc fn rest v cs s t _ ih h
    rcases ih h with h | ⟨id, f, w, x, h1, h2, h3, h4⟩
    · exact .inl h
    · exact .inr ⟨id, f, w, x, by simp [h1], h2, h3, h4⟩

theorem rejectTo_ran (rest : List (Step V E X O)) (e : E) (id : Nat) (w : V) : .ran id w ∉ rejectTo rest e := by
  intro hm
  rcases rejectTo_shape rest e with ⟨x, h, hx⟩ | ⟨hid, x, h, hx⟩ <;> rw [h] at hm
  · cases List.mem_singleton.1 hm
    exact hx
  · rcases List.mem_cons.1 hm with hm | hm
    · cases hm
    · cases List.mem_singleton.1 hm
      exact hx

/-- Only steps of the pipeline run. -/
theorem ran_mem (toE : X → E) (steps : List (Step V E X O)) (v : V) (cs : List (Call V E)) (id : Nat) (w : V)
    (h : .ran id w ∈ (run toE steps v cs).2) : id ∈ steps.map stepId := by
  revert h
  refine run_induction toE (P := fun steps _ _ _ t => .ran id w ∈ t → id ∈ steps.map stepId)
    ?_ ?_ ?_ ?_ ?_ ?_ ?_ ?_ ?_ ?_ ?_ ?_ steps v cs
  · intro v cs h; simp at h
  · intro id start rest v h
    simp at h; simp [stepId, h]
  · intro id start rest v w cs s t _ ih h
    simp at h
    rcases h with ⟨rfl, -⟩ | h
    · simp [stepId]
    · exact List.mem_cons_of_mem _ (ih h)
  · intro id start rest v e cs h
    simp [rejectTo_ran] at h; simp [stepId, h]
  · intro id start rest v cs h
    simp at h; simp [stepId, h]
  · intro id f rest v w cs s t _ _ ih h
    simp at h
    rcases h with ⟨rfl, -⟩ | h
    · simp [stepId]
    · exact List.mem_cons_of_mem _ (ih h)
  · intro id f rest v x cs _ h
    simp at h; simp [stepId, h]
  · intro id f rest v w cs s t _ _ ih h
    simp at h
    rcases h with ⟨rfl, -⟩ | h
    · simp [stepId]
    · exact List.mem_cons_of_mem _ (ih h)
  · intro id f rest v x cs _ h
    simp [rejectTo_ran] at h; simp [stepId, h]
  · intro id f rest v cs s t _ _ ih h
    simp at h
    rcases h with ⟨rfl, -⟩ | h
    · simp [stepId]
    · exact List.mem_cons_of_mem _ (ih h)
  · intro id f rest v x cs _ h
    simp at h; simp [stepId, h]
  · intro id acc fn rest v cs s t _ ih h
    exact List.mem_cons_of_mem _ (ih h)

/-- A run in which a later step runs reaches the later steps. -/
theorem reach (toE : X → E) (pre q : List (Step V E X O)) (v : V) (cs : List (Call V E)) (id : Nat) (w : V)
    (hp : id ∉ pre.map stepId) (h : .ran id w ∈ (run toE (pre ++ q) v cs).2) :
    ∃ t u ds, (run toE (pre ++ q) v cs).2 = t ++ (run toE q u ds).2 ∧ .ran id w ∈ (run toE q u ds).2 := by
  induction pre generalizing v cs with
  | nil => exact ⟨[], v, cs, rfl, h⟩
  | cons s pre ih =>
    have hne : id ≠ stepId s := fun e => hp (by simp [e])
    have hp' : id ∉ pre.map stepId := fun hm => hp (by simp [hm])
    rw [List.cons_append] at h ⊢
    have more : ∀ (l : List (Event V E X O)) (u : V) (ds : List (Call V E)), .ran id w ∉ l →
        (run toE (s :: (pre ++ q)) v cs).2 = l ++ (run toE (pre ++ q) u ds).2 →
        ∃ t u ds, (run toE (s :: (pre ++ q)) v cs).2 = t ++ (run toE q u ds).2 ∧ .ran id w ∈ (run toE q u ds).2 := by
      intro l u ds hl e
      rw [e] at h
      obtain ⟨t, u', ds', e', h'⟩ := ih u ds hp' ((List.mem_append.1 h).resolve_left hl)
      exact ⟨l ++ t, u', ds', by rw [e, e', List.append_assoc], h'⟩
    have stop : ∀ (l : List (Event V E X O)), .ran id w ∉ l → (run toE (s :: (pre ++ q)) v cs).2 ≠ l := by
      intro l hl e
      rw [e] at h
      exact hl h
    cases s with
    | promise i start =>
      have hn : ∀ l : List (Event V E X O), .ran id w ∉ l → .ran id w ∉ .ran i v :: .asked (start v) :: l := by
        intro l hl hm
        simp only [List.mem_cons, Event.ran.injEq, reduceCtorEq, false_or] at hm
        exact hm.elim (fun h => hne h.1) hl
      cases cs with
      | nil => exact absurd rfl (stop _ (hn [] (by simp)))
      | cons c cs =>
        cases c with
        | resolve u => exact more [.ran i v, .asked (start v)] u cs (hn [] (by simp)) rfl
        | reject e => exact absurd (by rw [run_promise_reject]) (stop _ (hn _ (rejectTo_ran (pre ++ q) e id w)))
        | terminate => exact absurd (by rw [run_promise_terminate]) (stop _ (hn [.stopped] (by simp)))
    | func i f =>
      cases hf : f v with
      | ok u => exact more [.ran i v] u cs (by simpa [stepId] using fun h => absurd h hne) (by rw [run_func_ok _ _ _ _ _ _ hf]; rfl)
      | error x =>
        exact absurd (by rw [run_func_error _ _ _ _ _ hf])
          (stop [.ran i v, .crashed x] (by simpa [stepId] using fun h => absurd h hne))
    | try_ i f =>
      cases hf : f v with
      | ok u => exact more [.ran i v] u cs (by simpa [stepId] using fun h => absurd h hne) (by rw [run_try_ok _ _ _ _ _ _ hf]; rfl)
      | error x =>
        exact absurd (by rw [run_try_error _ _ _ _ _ hf])
          (stop (.ran i v :: rejectTo (pre ++ q) (toE x)) (by
            simpa [rejectTo_ran, stepId] using fun h => absurd h hne))
    | tap i f =>
      cases hf : f v with
      | none => exact more [.ran i v] v cs (by simpa [stepId] using fun h => absurd h hne) (by rw [run_tap_none _ _ _ _ _ hf]; rfl)
      | some x =>
        exact absurd (by rw [run_tap_some _ _ _ _ _ hf])
          (stop [.ran i v, .crashed x] (by simpa [stepId] using fun h => absurd h hne))
    | catch_ i acc fn => exact more [] v cs (by simp) rfl

/-- C133: an exception thrown by a plain function of a pipeline ends the process, whatever handlers there are. -/
theorem unguarded_crashes (toE : X → E) (steps : List (Step V E X O)) (hn : (steps.map stepId).Nodup) (v : V)
    (cs : List (Call V E)) (id : Nat) (f : V → Except X V) (w : V) (x : X) (hs : .func id f ∈ steps)
    (hr : .ran id w ∈ (run toE steps v cs).2) (hf : f w = .error x) :
    ∃ t, (run toE steps v cs).2 = t ++ [.ran id w, .crashed x] := by
  obtain ⟨pre, post, rfl⟩ := List.append_of_mem hs
  simp only [List.map_append, List.map_cons, List.nodup_append, List.nodup_cons, List.mem_cons] at hn
  obtain ⟨t, u, ds, e, hm⟩ := reach toE pre _ v cs id w (fun h => hn.2.2 _ h _ (.inl rfl) rfl) hr
  have hu : w = u := by
    cases hg : f u with
    | ok u' =>
      rw [run_func_ok _ _ _ _ _ _ hg] at hm
      rcases List.mem_cons.1 hm with hm | hm
      · cases hm; rfl
      · exact absurd (ran_mem _ _ _ _ _ _ hm) hn.2.1.1
    | error x' =>
      rw [run_func_error _ _ _ _ _ hg] at hm
      simpa using hm
  subst hu
  exact ⟨t, by rw [e, run_func_error _ _ _ _ _ hf]⟩

/-- The same of functions given to `tap`. -/
theorem unguarded_tap_crashes (toE : X → E) (steps : List (Step V E X O)) (hn : (steps.map stepId).Nodup) (v : V)
    (cs : List (Call V E)) (id : Nat) (f : V → Option X) (w : V) (x : X) (hs : .tap id f ∈ steps)
    (hr : .ran id w ∈ (run toE steps v cs).2) (hf : f w = some x) :
    ∃ t, (run toE steps v cs).2 = t ++ [.ran id w, .crashed x] := by
  obtain ⟨pre, post, rfl⟩ := List.append_of_mem hs
  simp only [List.map_append, List.map_cons, List.nodup_append, List.nodup_cons, List.mem_cons] at hn
  obtain ⟨t, u, ds, e, hm⟩ := reach toE pre _ v cs id w (fun h => hn.2.2 _ h _ (.inl rfl) rfl) hr
  have hu : w = u := by
    cases hg : f u with
    | none =>
      rw [run_tap_none _ _ _ _ _ hg] at hm
      rcases List.mem_cons.1 hm with hm | hm
      · cases hm; rfl
      · exact absurd (ran_mem _ _ _ _ _ _ hm) hn.2.1.1
    | some x' =>
      rw [run_tap_some _ _ _ _ _ hg] at hm
      simpa using hm
  subst hu
  exact ⟨t, by rw [e, run_tap_some _ _ _ _ _ hf]⟩

theorem rejectTo_first (mid post : List (Step V E X O)) (hid : Nat) (acc : E → Bool) (fn : E → Option X) (e : E)
    (hm : NoHandler mid e) (ha : acc e = true) (hf : fn e = none) :
    rejectTo (mid ++ .catch_ hid acc fn :: post) e = [.handled hid e, .stopped] := by
  induction mid with
  | nil => simp [rejectTo, ha, hf]
  | cons s mid ih =>
    have ih := ih fun id acc fn h => hm id acc fn (by simp [h])
    cases s with
    | catch_ i acc' fn' =>
      have := hm i acc' fn' (by simp)
      rw [List.cons_append, rejectTo, if_neg (by simp [this]), ih]
    | _ => rw [List.cons_append, rejectTo]; exact ih; nofun

/-- C133: an exception thrown by a function given to `try_` is given to the first following handler that accepts it, once,
and nothing else happens in the pipeline. -/
theorem thrown_handled_partial (toE : X → E) (pre mid post : List (Step V E X O)) (id hid : Nat) (f : V → Except X V)
    (acc : E → Bool) (fn : E → Option X)
    (hn : ((pre ++ .try_ id f :: (mid ++ .catch_ hid acc fn :: post)).map stepId).Nodup) (v : V) (cs : List (Call V E))
    (w : V) (x : X) (hr : .ran id w ∈ (run toE (pre ++ .try_ id f :: (mid ++ .catch_ hid acc fn :: post)) v cs).2)
    (hf : f w = .error x) (hm : NoHandler mid (toE x)) (ha : acc (toE x) = true) (hh : fn (toE x) = none) :
    ∃ t, (run toE (pre ++ .try_ id f :: (mid ++ .catch_ hid acc fn :: post)) v cs).2
      = t ++ [.ran id w, .handled hid (toE x), .stopped] := by
  generalize hq : mid ++ .catch_ hid acc fn :: post = q at *
  simp only [List.map_append, List.map_cons, List.nodup_append, List.nodup_cons, List.mem_cons] at hn
  obtain ⟨t, u, ds, e, hmem⟩ := reach toE pre _ v cs id w (fun h => hn.2.2 _ h _ (.inl rfl) rfl) hr
  have hu : w = u := by
    cases hg : f u with
    | ok u' =>
      rw [run_try_ok _ _ _ _ _ _ hg] at hmem
      rcases List.mem_cons.1 hmem with hmem | hmem
      · cases hmem; rfl
      · exact absurd (ran_mem _ _ _ _ _ _ hmem) hn.2.1.1
    | error x' =>
      rw [run_try_error _ _ _ _ _ hg] at hmem
      simpa [rejectTo_ran] using hmem
  subst hu
  exact ⟨t, by rw [e, run_try_error _ _ _ _ _ hf, ← hq, rejectTo_first mid post hid acc fn _ hm ha hh]⟩

/-! ### Which handler takes an exception -/

/-- The handler that takes an exception of type `t` is not the first one for its type: one for exactly this type is passed
over if the type is derived from `std::exception`, … -/
theorem exact_type_violated {T : Type} (c : Classes T) (refl : ∀ t, c.derives t t = true) (t : T)
    (ht : c.derives t c.exception = true) (hne : c.derives c.exception t = false) (v : V) :
    takes c t t = true
    ∧ (run (rejection c) [.try_ 0 fun _ => .error t, .catch_ 1 (takes c t) fun _ => none,
        .catch_ 2 (takes c c.exception) fun _ => none] v []).2
      = ([.ran 0 v, .handled 2 c.exception, .stopped] : List (Event V T T O)) := by
  refine ⟨refl t, ?_⟩
  simp [run, advance, settles, rejectTo, rejection, takes, ht, hne, refl]

/-- … and if it is not, it is passed over as well, and a handler for `std::runtime_error` takes the exception. -/
theorem foreign_type_violated {T : Type} (c : Classes T) (refl : ∀ t, c.derives t t = true) (t : T)
    (ht : c.derives t c.exception = false) (hne : c.derives c.runtimeError t = false) (v : V) :
    takes c t t = true ∧ takes c c.runtimeError t = c.derives t c.runtimeError
    ∧ (run (rejection c) [.try_ 0 fun _ => .error t, .catch_ 1 (takes c t) fun _ => none,
        .catch_ 2 (takes c c.runtimeError) fun _ => none] v []).2
      = ([.ran 0 v, .handled 2 c.runtimeError, .stopped] : List (Event V T T O)) := by
  refine ⟨refl t, rfl, ?_⟩
  simp [run, advance, settles, rejectTo, rejection, takes, ht, hne, refl]

/-- A handler for `std::exception` takes everything that is thrown. -/
theorem exception_takes_all {T : Type} (c : Classes T) (refl : ∀ t, c.derives t t = true)
    (h : c.derives c.runtimeError c.exception = true) (t : T) : takes c c.exception (rejection c t) = true := by
  unfold takes rejection
  split
  · exact refl _
  · exact h

/-! ## Examples -/

/-- `std::exception`, `std::runtime_error`, `std::range_error`, `int`. -/
def classes : Classes Nat where
  derives a b := a == b || (a == 2 && b == 1) || ((a == 1 || a == 2) && b == 0)
  exception := 0
  runtimeError := 1

example : (∀ t, classes.derives t t = true) ∧ classes.derives 2 classes.exception = true
    ∧ classes.derives classes.exception 2 = false ∧ classes.derives 3 classes.exception = false
    ∧ classes.derives classes.runtimeError 3 = false
    ∧ classes.derives classes.runtimeError classes.exception = true := by
  refine ⟨fun t => ?_, by decide, by decide, by decide, by decide, by decide⟩
  simp [classes]

/-- Ask, decode (which throws a `std::range_error` on 13), print (which throws an `int` on 7), ask again. -/
def sample : List (Step Nat Nat Nat Nat) :=
  [.promise 0 (· + 100),
   .try_ 1 (fun v => if v = 13 then .error 2 else .ok (v + 1)),
   .tap 2 (fun v => if v = 7 then some 3 else none),
   .promise 3 (· + 200),
   .catch_ 4 (takes classes 2) (fun _ => none),
   .catch_ 5 (takes classes 0) (fun _ => none)]

example : (run (rejection classes) sample 1 [.resolve 5, .resolve 8]).2
    = [.ran 0 1, .asked 101, .ran 1 5, .ran 2 6, .ran 3 6, .asked 206, .finished 8] := by decide
example : (run (rejection classes) sample 1 [.resolve 5]).2
    = [.ran 0 1, .asked 101, .ran 1 5, .ran 2 6, .ran 3 6, .asked 206] := by decide
example : (run (rejection classes) sample 1 [.resolve 13, .resolve 8]).2
    = [.ran 0 1, .asked 101, .ran 1 13, .handled 5 0, .stopped] := by decide
example : (run (rejection classes) sample 1 [.resolve 6]).2
    = [.ran 0 1, .asked 101, .ran 1 6, .ran 2 7, .crashed 3] := by decide
example : (run (rejection classes) sample 1 [.resolve 5, .reject 2]).2
    = [.ran 0 1, .asked 101, .ran 1 5, .ran 2 6, .ran 3 6, .asked 206, .handled 4 2, .stopped] := by decide
example : (sample.map stepId).Nodup := by decide
example : ∀ x, .crashed x ∉ (run (rejection classes) sample 1 [.resolve 5, .resolve 8]).2 := by
  rw [show (run (rejection classes) sample 1 [.resolve 5, .resolve 8]).2
    = [.ran 0 1, .asked 101, .ran 1 5, .ran 2 6, .ran 3 6, .asked 206, .finished 8] by decide]
  simp

end Nbdl.Async
