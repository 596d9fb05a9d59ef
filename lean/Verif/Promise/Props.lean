import Verif.Promise.Model
/-! Promise properties C21, C22, C23, C63. -/
namespace Nbdl.Promise
variable {V E : Type}

/-! ## Specification -/

/-- `Path steps v t w`: running the steps from left to right on `v` succeeds with `w`; the trace is
`t`, one entry for each step that is not a handler, in order. -/
inductive Path : List (Step V E) → V → List (Event V E) → V → Prop where
  | nil (v) : Path [] v [] v
  | promise {id calls v w steps t u} : calls v = [.resolve w] → Path steps w t u →
      Path (.promise id calls :: steps) v (.ran id v :: t) u
  | func {id f v steps t u} : Path steps (f v) t u → Path (.func id f :: steps) v (.ran id v :: t) u
  | tap {id v steps t u} : Path steps v t u → Path (.tap id :: steps) v (.ran id v :: t) u
  | catch_ {id acc v steps t u} : Path steps v t u → Path (.catch_ id acc :: steps) v t u

/-- The steps contain no handler for `e`. -/
def NoHandler (steps : List (Step V E)) (e : E) : Prop :=
  ∀ id acc, Step.catch_ id acc ∈ steps → acc e = false

/-- How a run can go: it finishes; it is rejected and the first handler for the rejection takes it;
or a promise terminates it. -/
inductive Outcome : List (Step V E) → V → List (Event V E) → Prop where
  | finishes {steps v t w} : Path steps v t w → Outcome steps v (t ++ [.finished w])
  | handled {pre v t w id calls e mid hid acc post} :
      Path pre v t w → calls w = [.reject e] → NoHandler mid e → acc e = true →
      Outcome (pre ++ .promise id calls :: (mid ++ .catch_ hid acc :: post)) v
        (t ++ [.ran id w, .handled hid e, .stopped])
  | unhandled {pre v t w id calls e rest} :
      Path pre v t w → calls w = [.reject e] → NoHandler rest e →
      Outcome (pre ++ .promise id calls :: rest) v (t ++ [.ran id w, .unhandled e])
  | stops {pre v t w id calls rest} :
      Path pre v t w → calls w = [.terminate] →
      Outcome (pre ++ .promise id calls :: rest) v (t ++ [.ran id w, .stopped])

/-- Every promise calls its resolver exactly once. -/
def Once (steps : List (Step V E)) : Prop :=
  ∀ id calls, Step.promise id calls ∈ steps → ∀ v, ∃ c, calls v = [c]

/-! ## Lemmas -/

theorem terminate_joinAll (steps : List (Step V E)) (r : Resolver V E) :
    (joinAll steps r).terminate = r.terminate := by
  induction steps with
  | nil => rfl
  | cons s steps ih => exact ih

theorem joinAll_append (a b : List (Step V E)) (r : Resolver V E) :
    joinAll (a ++ b) r = joinAll a (joinAll b r) := by
  simp [joinAll]

theorem joinAll_cons (s : Step V E) (b : List (Step V E)) (r : Resolver V E) :
    joinAll (s :: b) r = join s (joinAll b r) := rfl

theorem resolve_path {steps : List (Step V E)} {v : V} {t} {w : V} (h : Path steps v t w)
    (r : Resolver V E) : (joinAll steps r).resolve v = t ++ r.resolve w := by
  induction h with
  | nil => rfl
  | promise hc _ ih => simp [joinAll_cons, join, Step.resolve, hc, Resolver.call, ih]
  | func _ ih => simp [joinAll_cons, join, Step.resolve, ih]
  | tap _ ih => simp [joinAll_cons, join, Step.resolve, ih]
  | catch_ _ ih => simp [joinAll_cons, join, Step.resolve, ih]

theorem reject_noHandler (steps : List (Step V E)) (e : E) (h : NoHandler steps e) (r : Resolver V E) :
    (joinAll steps r).reject e = r.reject e := by
  induction steps with
  | nil => rfl
  | cons s steps ih =>
    have ih := ih (fun id acc hm => h id acc (by simp [hm]))
    rw [joinAll_cons]
    cases s with
    | catch_ id acc => simp [join, Step.reject, h id acc (by simp), ih]
    | promise _ _ => simpa [join, Step.reject] using ih
    | func _ _ => simpa [join, Step.reject] using ih
    | tap _ => simpa [join, Step.reject] using ih

theorem reject_handler (mid post : List (Step V E)) (hid : Nat) (acc : E → Bool) (e : E)
    (h : NoHandler mid e) (ha : acc e = true) (r : Resolver V E) :
    (joinAll (mid ++ .catch_ hid acc :: post) r).reject e = .handled hid e :: r.terminate := by
  rw [joinAll_append, reject_noHandler mid e h, joinAll_cons]
  simp [join, Step.reject, ha, terminate_joinAll]

theorem firstHandler (steps : List (Step V E)) (e : E) :
    NoHandler steps e ∨ ∃ mid hid acc post, steps = mid ++ .catch_ hid acc :: post
      ∧ NoHandler mid e ∧ acc e = true := by
  induction steps with
  | nil => exact .inl (by intro id acc h; simp at h)
  | cons s steps ih =>
    have step : (∀ id acc, s = .catch_ id acc → acc e = false) →
        NoHandler (s :: steps) e ∨ ∃ mid hid acc post, s :: steps = mid ++ .catch_ hid acc :: post
          ∧ NoHandler mid e ∧ acc e = true := by
      intro hs
      rcases ih with h | ⟨mid, hid, acc, post, rfl, h, ha⟩
      · refine .inl fun id acc hm => ?_
        rcases List.mem_cons.1 hm with h' | h'
        · exact hs _ _ h'.symm
        · exact h _ _ h'
      · refine .inr ⟨s :: mid, hid, acc, post, rfl, fun id acc hm => ?_, ha⟩
        rcases List.mem_cons.1 hm with h' | h'
        · exact hs _ _ h'.symm
        · exact h _ _ h'
    cases s with
    | catch_ id acc =>
      cases ha : acc e with
      | true => exact .inr ⟨[], id, acc, steps, rfl, by intro id acc h; simp at h, ha⟩
      | false => exact step (by rintro id acc ⟨⟩; exact ha)
    | promise _ _ => exact step (by rintro id acc ⟨⟩)
    | func _ _ => exact step (by rintro id acc ⟨⟩)
    | tap _ => exact step (by rintro id acc ⟨⟩)

theorem once_cons {s : Step V E} {steps} (h : Once (s :: steps)) : Once steps :=
  fun id calls hm => h id calls (by simp [hm])

/-- Every well-behaved pipeline succeeds, or one of its promises rejects or terminates after a
successful beginning. -/
theorem split_run (steps : List (Step V E)) (h : Once steps) (v : V) :
    (∃ t w, Path steps v t w)
    ∨ ∃ pre id calls rest t w, steps = pre ++ .promise id calls :: rest ∧ Path pre v t w
      ∧ ((∃ e, calls w = [.reject e]) ∨ calls w = [.terminate]) := by
  induction steps generalizing v with
  | nil => exact .inl ⟨_, _, .nil v⟩
  | cons s steps ih =>
    have ih := ih (once_cons h)
    cases s with
    | promise id calls =>
      obtain ⟨c, hc⟩ := h id calls (by simp) v
      cases c with
      | resolve w =>
        rcases ih w with ⟨t, u, hp⟩ | ⟨pre, id', calls', rest, t, u, rfl, hp, hx⟩
        · exact .inl ⟨_, _, .promise hc hp⟩
        · exact .inr ⟨.promise id calls :: pre, id', calls', rest, _, u, rfl, .promise hc hp, hx⟩
      | reject e => exact .inr ⟨[], id, calls, steps, [], v, rfl, .nil v, .inl ⟨e, hc⟩⟩
      | terminate => exact .inr ⟨[], id, calls, steps, [], v, rfl, .nil v, .inr hc⟩
    | func id f =>
      rcases ih (f v) with ⟨t, u, hp⟩ | ⟨pre, id', calls', rest, t, u, rfl, hp, hx⟩
      · exact .inl ⟨_, _, .func hp⟩
      · exact .inr ⟨.func id f :: pre, id', calls', rest, _, u, rfl, .func hp, hx⟩
    | tap id =>
      rcases ih v with ⟨t, u, hp⟩ | ⟨pre, id', calls', rest, t, u, rfl, hp, hx⟩
      · exact .inl ⟨_, _, .tap hp⟩
      · exact .inr ⟨.tap id :: pre, id', calls', rest, _, u, rfl, .tap hp, hx⟩
    | catch_ id acc =>
      rcases ih v with ⟨t, u, hp⟩ | ⟨pre, id', calls', rest, t, u, rfl, hp, hx⟩
      · exact .inl ⟨_, _, .catch_ hp⟩
      · exact .inr ⟨.catch_ id acc :: pre, id', calls', rest, _, u, rfl, .catch_ hp, hx⟩

/-- With any end: the trace of a well-behaved pipeline is that of its outcome up to the end. -/
theorem outcome_sound {steps : List (Step V E)} {v t} (h : Outcome steps v t) : run steps v = t := by
  cases h with
  | finishes hp => exact resolve_path hp _
  | handled hp hc hm ha =>
    unfold run
    rw [joinAll_append, resolve_path hp, joinAll_cons]
    simp [join, Step.resolve, hc, Resolver.call, reject_handler _ _ _ _ _ hm ha, endAsync]
  | unhandled hp hc hm =>
    unfold run
    rw [joinAll_append, resolve_path hp, joinAll_cons]
    simp [join, Step.resolve, hc, Resolver.call, reject_noHandler _ _ hm, endAsync]
  | stops hp hc =>
    unfold run
    rw [joinAll_append, resolve_path hp, joinAll_cons]
    simp [join, Step.resolve, hc, Resolver.call, terminate_joinAll, endAsync]

/-! ## C21 -/

/-- C21: a run of a pipeline whose promises complete exactly once has one of the four outcomes above:
the steps ran from left to right, each fed with the previous result; after a rejection nothing runs
but the first handler for it, exactly once, and the pipe is then stopped. -/
theorem run_outcome (steps : List (Step V E)) (h : Once steps) (v : V) : Outcome steps v (run steps v) := by
  have key : ∃ t, Outcome steps v t := by
    rcases split_run steps h v with ⟨t, w, hp⟩ | ⟨pre, id, calls, rest, t, w, rfl, hp, ⟨e, hc⟩ | hc⟩
    · exact ⟨_, .finishes hp⟩
    · rcases firstHandler rest e with hn | ⟨mid, hid, acc, post, rfl, hn, ha⟩
      · exact ⟨_, .unhandled hp hc hn⟩
      · exact ⟨_, .handled hp hc hn ha⟩
    · exact ⟨_, .stops hp hc⟩
  obtain ⟨t, ht⟩ := key
  rwa [outcome_sound ht]

/-- C21: the outcome is unique, so the four cases exclude each other. -/
theorem outcome_unique {steps : List (Step V E)} {v t t'} (h : Outcome steps v t) (h' : Outcome steps v t') :
    t = t' := by
  rw [← outcome_sound h, outcome_sound h']

theorem path_no_end {steps : List (Step V E)} {v t w} (h : Path steps v t w) :
    ∀ x ∈ t, ∃ id u, x = .ran id u := by
  induction h with
  | nil => simp
  | promise _ _ ih => exact fun x hx => (List.mem_cons.1 hx).elim (fun h => ⟨_, _, h⟩) (ih x)
  | func _ ih => exact fun x hx => (List.mem_cons.1 hx).elim (fun h => ⟨_, _, h⟩) (ih x)
  | tap _ ih => exact fun x hx => (List.mem_cons.1 hx).elim (fun h => ⟨_, _, h⟩) (ih x)
  | catch_ _ ih => exact ih

/-- C21: if every rejection is handled (otherwise the program does not compile), the run ends with
exactly one final event, its last one, and the pipe is deleted exactly once. -/
theorem freed_once (steps : List (Step V E)) (h : Once steps) (v : V)
    (hh : ∀ e, Event.unhandled e ∉ run steps v) :
    ∃ t x, run steps v = t ++ [x] ∧ x.isEnd = true ∧ ∀ y ∈ t, y.isEnd = false := by
  have ho := run_outcome steps h v
  generalize run steps v = tr at *
  have hran : ∀ {st : List (Step V E)} {v t w}, Path st v t w → ∀ y ∈ t, y.isEnd = false := by
    intro st v t w hp y hy
    obtain ⟨id, u, rfl⟩ := path_no_end hp y hy; rfl
  cases ho with
  | finishes hp => exact ⟨_, _, rfl, rfl, hran hp⟩
  | @handled pre v t w id calls e mid hid acc post hp _ _ _ =>
    refine ⟨t ++ [.ran id w, .handled hid e], .stopped, by simp, rfl, ?_⟩
    intro y hy
    simp only [List.mem_append, List.mem_cons, List.not_mem_nil, or_false] at hy
    rcases hy with hy | rfl | rfl
    · exact hran hp y hy
    · rfl
    · rfl
  | @unhandled _ _ _ _ _ _ e _ _ _ _ => exact absurd (by simp) (hh e)
  | @stops pre v t w id calls rest hp _ =>
    refine ⟨t ++ [.ran id w], .stopped, by simp, rfl, ?_⟩
    intro y hy
    simp only [List.mem_append, List.mem_cons, List.not_mem_nil, or_false] at hy
    rcases hy with hy | rfl
    · exact hran hp y hy
    · rfl

theorem deleted_once (steps : List (Step V E)) (h : Once steps) (v : V)
    (hh : ∀ e, Event.unhandled e ∉ run steps v) : deletions (run steps v) = 1 := by
  obtain ⟨t, x, e, hx, ht⟩ := freed_once steps h v hh
  rw [e]
  unfold deletions
  rw [List.countP_append, List.countP_eq_zero.2 (fun y hy => by simp [ht y hy])]
  simp [hx]

/-- A pipeline that uses every kind of step and is rejected half-way. -/
def sample : List (Step Nat String) :=
  [.func 0 (· + 1), .catch_ 1 (fun _ => true), .promise 2 (fun v => if v > 10 then [.resolve (2 * v)] else [.reject "small"]),
   .tap 3, .catch_ 4 (· == "other"), .catch_ 5 (· == "small"), .catch_ 6 (fun _ => true)]

theorem sample_once : Once sample := by
  intro id calls hm v
  simp only [sample, List.mem_cons, Step.promise.injEq, List.not_mem_nil, or_false, reduceCtorEq, false_or] at hm
  obtain ⟨-, rfl⟩ := hm
  by_cases hv : v > 10
  · exact ⟨.resolve (2 * v), by simp [hv]⟩
  · exact ⟨.reject "small", by simp [hv]⟩

example : run sample 20 = [.ran 0 20, .ran 2 21, .ran 3 42, .finished 42] := by decide
example : run sample 3 = [.ran 0 3, .ran 2 4, .handled 5 "small", .stopped] := by decide

/-! ### Promises that complete more or less than once -/

/-- With any end and any promises: what follows a promise happens once for each call it makes. -/
theorem run_calls (pre rest : List (Step V E)) (id : Nat) (calls : V → List (Call V E)) (v w : V) (t)
    (hp : Path pre v t w) :
    run (pre ++ .promise id calls :: rest) v
      = t ++ .ran id w :: (calls w).flatMap (fun c => (joinAll rest endAsync).call c) := by
  unfold run
  rw [joinAll_append, resolve_path hp]
  rfl

/-- C21 needs its hypothesis: a promise that resolves twice runs the rest of the pipe twice and
deletes the pipe twice. -/
theorem double_resolve_violated (pre rest : List (Step V E)) (id : Nat) (calls : V → List (Call V E))
    (v w a b : V) (t) (hp : Path pre v t w) (hc : calls w = [.resolve a, .resolve b])
    (hr : Once rest) (ha : ∀ e, Event.unhandled e ∉ run rest a) (hb : ∀ e, Event.unhandled e ∉ run rest b) :
    deletions (run (pre ++ .promise id calls :: rest) v) = 2 := by
  have h1 := deleted_once rest hr a ha
  have h2 := deleted_once rest hr b hb
  rw [run_calls _ _ _ _ _ _ _ hp, hc]
  unfold deletions at *
  rw [List.countP_append, List.countP_eq_zero.2 (fun y hy => by
    obtain ⟨id, u, rfl⟩ := path_no_end hp y hy; simp [Event.isEnd])]
  simp only [List.flatMap_cons, List.flatMap_nil, List.append_nil, Resolver.call, List.countP_cons,
    List.countP_append]
  unfold run at h1 h2
  rw [h1, h2]; simp [Event.isEnd]

example : deletions (run [.promise 0 (fun v => [.resolve v, .resolve v]), .tap 1] 5 : List (Event Nat Nat)) = 2 := by
  decide

/-- A promise that never completes leaves the pipe alive: nothing after it runs. -/
theorem pending (pre rest : List (Step V E)) (id : Nat) (calls : V → List (Call V E)) (v w : V) (t)
    (hp : Path pre v t w) (hc : calls w = []) :
    run (pre ++ .promise id calls :: rest) v = t ++ [.ran id w]
    ∧ deletions (run (pre ++ .promise id calls :: rest) v) = 0 := by
  have e : run (pre ++ .promise id calls :: rest) v = t ++ [.ran id w] := by
    rw [run_calls _ _ _ _ _ _ _ hp, hc]; rfl
  refine ⟨e, ?_⟩
  rw [e]
  unfold deletions
  refine List.countP_eq_zero.2 fun y hy => ?_
  rcases List.mem_append.1 hy with hy | hy
  · obtain ⟨id, u, rfl⟩ := path_no_end hp y hy; simp [Event.isEnd]
  · simp at hy; subst hy; simp [Event.isEnd]

example : run [.tap 0, .promise 1 (fun _ => []), .tap 2] 5 = ([.ran 0 5, .ran 1 5] : List (Event Nat Nat)) := by
  decide

/-! ## C63: nesting of pipes does not matter -/

mutual
/-- The steps of a pipe from left to right. -/
def flatten : Pipe V E → List (Step V E)
  | .step s => [s]
  | .tuple ps => flattens ps
def flattens : List (Pipe V E) → List (Step V E)
  | [] => []
  | p :: ps => flatten p ++ flattens ps
end

mutual
theorem joinPipe_flatten (p : Pipe V E) (r : Resolver V E) : joinPipe p r = joinAll (flatten p) r := by
  cases p with
  | step s => simp [joinPipe, flatten, joinAll]
  | tuple ps => simp only [joinPipe, flatten]; exact joinPipes_flattens ps r
theorem joinPipes_flattens (ps : List (Pipe V E)) (r : Resolver V E) :
    joinPipes ps r = joinAll (flattens ps) r := by
  cases ps with
  | nil => simp [joinPipes, flattens, joinAll]
  | cons p ps =>
    simp only [joinPipes, flattens]
    rw [joinPipe_flatten p, joinPipes_flattens ps, joinAll_append]
end

/-- C63: a pipe of pipes behaves like the flat pipe with the same steps. -/
theorem nesting_irrelevant (p : Pipe V E) (v : V) : runPipe p v = run (flatten p) v := by
  unfold runPipe run; rw [joinPipe_flatten]

theorem nesting_irrelevant' (p q : Pipe V E) (h : flatten p = flatten q) (v : V) : runPipe p v = runPipe q v := by
  rw [nesting_irrelevant, nesting_irrelevant, h]

example : flatten (.tuple [.step (.tap 0), .tuple [.step (.tap 1), .tuple []], .step (.tap 2)] : Pipe Nat Nat)
    = flatten (.tuple [.tuple [.step (.tap 0), .step (.tap 1)], .step (.tap 2)]) := by
  simp [flatten, flattens]

/-! ## C22 -/

/-- What the loop is when its first passes succeed. -/
inductive Passes (steps : List (Step V E)) : Nat → V → List (Event V E) → V → Prop where
  | zero (v) : Passes steps 0 v [] v
  | succ {n v t w t' u} : Path steps v t w → Passes steps n w t' u →
      Passes steps (n + 1) v (t ++ .finished w :: t') u

theorem runLoop_path (steps : List (Step V E)) (n : Nat) {v t w} (h : Path steps v t w) :
    runLoop steps (n + 1) v = t ++ .finished w :: runLoop steps n w := by
  rw [runLoop, resolve_path h]

/-- C22: after each successful pass the loop starts again from its first step with the result of the
pass. -/
theorem loop_repeats (steps : List (Step V E)) (n m : Nat) {v t w} (h : Passes steps n v t w) :
    runLoop steps (n + m) v = t ++ runLoop steps m w := by
  induction h with
  | zero v => simp
  | @succ n v t w t' u hp _ ih =>
    rw [show n + 1 + m = (n + m) + 1 by omega, runLoop_path steps _ hp, ih]
    simp

/-- C22: a pass that is terminated, or rejected with a handler for the rejection, ends the loop for
good after any number of successful passes: its trace, however long it is observed, is that of the
passes, and it ends with the only deletion of the pipe. -/
theorem loop_stops (steps : List (Step V E)) (n m : Nat) {v t w t'} (h : Passes steps n v t w)
    (ho : Outcome steps w t') (hs : t'.getLast? = some .stopped) :
    runLoop steps (n + (m + 1)) v = t ++ t' := by
  rw [loop_repeats steps n (m + 1) h]
  congr 1
  cases ho with
  | finishes hp => simp at hs
  | handled hp hc hm ha =>
    rw [runLoop, joinAll_append, resolve_path hp, joinAll_cons]
    simp [join, Step.resolve, hc, Resolver.call, reject_handler _ _ _ _ _ hm ha]
  | unhandled hp hc hm => simp at hs
  | stops hp hc =>
    rw [runLoop, joinAll_append, resolve_path hp, joinAll_cons]
    simp [join, Step.resolve, hc, Resolver.call, terminate_joinAll]

/-- C22: every pass of a well-behaved loop either succeeds, or ends it (or does not compile). -/
theorem pass_cases (steps : List (Step V E)) (h : Once steps) (v : V) :
    (∃ t w, Path steps v t w) ∨ ∃ t, Outcome steps v t ∧ (t.getLast? = some .stopped ∨ ∃ e, .unhandled e ∈ t) := by
  have ho := run_outcome steps h v
  generalize run steps v = tr at ho
  cases ho with
  | finishes hp => exact .inl ⟨_, _, hp⟩
  | handled hp hc hm ha => exact .inr ⟨_, .handled hp hc hm ha, .inl (by simp)⟩
  | @unhandled _ _ _ _ _ _ e _ hp hc hm => exact .inr ⟨_, .unhandled hp hc hm, .inr ⟨e, by simp⟩⟩
  | stops hp hc => exact .inr ⟨_, .stops hp hc, .inl (by simp)⟩

/-- A loop that counts to 3 and is then rejected and handled. -/
def counter : List (Step Nat String) :=
  [.promise 0 (fun v => if v < 3 then [.resolve (v + 1)] else [.reject "done"]), .catch_ 1 (fun _ => true)]

example : Passes counter 1 1 [.ran 0 1, .finished 2] 2 :=
  .succ (t := [.ran 0 1]) (.promise rfl (.catch_ (.nil _))) (.zero 2)
example : runLoop counter 9 1 = [.ran 0 1, .finished 2, .ran 0 2, .finished 3, .ran 0 3, .handled 1 "done", .stopped] := by
  decide

/-! ## C23 -/

/-- The pipe of `match_if` from the predicate number `i` on. -/
def tailPipe {α : Type} (i : Nat) (ps : List (α → Bool)) (k : Nat) : List (Step (α × Nat) Nat) :=
  ps.mapIdx (fun j p => predicatePromise (i + j) p) ++ [.func k id, .catch_ (k + 1) (fun _ => true)]

theorem assigned_tail {α : Type} (x : α) (ps : List (α → Bool)) (i k : Nat) :
    assigned (run (tailPipe i ps k) (x, i))
      = match ps.findIdx? (fun p => p x) with
        | some j => [i + j]
        | none => [] := by
  induction ps generalizing i with
  | nil => rfl
  | cons p ps ih =>
    have e : tailPipe i (p :: ps) k = predicatePromise i p :: tailPipe (i + 1) ps k := by
      simp only [tailPipe, List.mapIdx_cons, List.cons_append, Nat.add_zero]
      congr 3
      funext j q; congr 1; omega
    rw [e, List.findIdx?_cons]
    unfold run
    rw [joinAll_cons]
    have hstep : (join (predicatePromise i p) (joinAll (tailPipe (i + 1) ps k) endAsync)).resolve (x, i)
        = .ran i (x, i) :: (if p x then [Call.reject i] else [.resolve (x, i + 1)]).flatMap
            (joinAll (tailPipe (i + 1) ps k) endAsync).call := rfl
    rw [hstep]
    cases hp : p x with
    | true =>
      have hn : NoHandler (ps.mapIdx (fun j p => predicatePromise (i + 1 + j) p) ++ [Step.func (V := α × Nat) k id]) i := by
        intro id acc hm
        simp only [List.mem_append, List.mem_mapIdx, predicatePromise, List.mem_singleton, reduceCtorEq,
          or_false, exists_false] at hm
      have hr := reject_handler (ps.mapIdx (fun j p => predicatePromise (i + 1 + j) p) ++ [.func k id]) []
        (k + 1) (fun _ => true) i hn rfl endAsync
      simp only [if_true, List.flatMap_cons, List.flatMap_nil, List.append_nil, Resolver.call, assigned]
      rw [show tailPipe (i + 1) ps k = ps.mapIdx (fun j p => predicatePromise (i + 1 + j) p) ++ [.func k id]
        ++ [.catch_ (k + 1) (fun _ => true)] by simp [tailPipe], hr]
      simp [assigned, endAsync]
    | false =>
      have := ih (i + 1)
      unfold run at this
      simp only [Bool.false_eq_true, if_false, List.flatMap_cons, List.flatMap_nil, List.append_nil,
        Resolver.call, assigned]
      rw [this]
      cases ps.findIdx? (fun p => p x) with
      | none => rfl
      | some j => simp; omega

/-- C23: `match_if` yields the index of the first predicate that holds, and assigns it exactly once;
if none holds (which the compile-time check on the predicates excludes) the index is never set. -/
theorem match_if_first {α : Type} (preds : List (α → Bool)) (x : α) :
    matchIf preds x = match preds.findIdx? (fun p => p x) with
      | some i => .ok i
      | none => .ub := by
  have h := assigned_tail x preds 0 preds.length
  have e : tailPipe 0 preds preds.length = matchIfPipe preds := by simp [tailPipe, matchIfPipe]
  rw [e] at h
  unfold matchIf
  rw [h]
  cases preds.findIdx? (fun p => p x) <;> simp

/-- C23, spelled out. -/
theorem match_if_spec {α : Type} (preds : List (α → Bool)) (x : α) (i : Nat) (hi : i < preds.length)
    (hx : preds[i] x = true) (hb : ∀ j (hj : j < i), preds[j] x = false) :
    matchIf preds x = .ok i := by
  rw [match_if_first]
  have : preds.findIdx? (fun p => p x) = some i := by
    rw [List.findIdx?_eq_some_iff_getElem]
    exact ⟨hi, hx, fun j hj => by simp [hb j hj]⟩
  rw [this]

example : matchIf [(· > 10), (· > 5), (· > 3), fun _ => true] 7 = .ok 1 := by decide

end Nbdl.Promise
