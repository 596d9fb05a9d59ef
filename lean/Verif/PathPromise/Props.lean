import Verif.PathPromise.Spec
import Verif.Path.Props
/-!
# Properties of promises that look up a path (C103)
-/
namespace Nbdl.PathPromise
open Path Promise Spec

variable {K V N A T : Type} [DecidableEq K] [DecidableEq T]

/-- The steps for some nodes. -/
def stepsFrom (ops : Ops K V N A) (type : Store K V N → T) (i : Nat) : List (Node K T) →
    List (Step (Store K V N) (Store K V N))
  | [] => []
  | n :: ns => promiseMatch ops type i n :: stepsFrom ops type (i + 1) ns

omit [DecidableEq T] in
theorem mapIdx_from [DecidableEq T] (ops : Ops K V N A) (type : Store K V N → T) (i : Nat) (ns : List (Node K T)) :
    ns.mapIdx (fun j => promiseMatch ops type (j + i)) = stepsFrom ops type i ns := by
  induction ns generalizing i with
  | nil => rfl
  | cons n ns ih =>
    rw [List.mapIdx_cons, stepsFrom, ← ih (i + 1)]
    simp [Nat.add_assoc, Nat.add_comm 1]

theorem pathPromise_eq (ops : Ops K V N A) (type : Store K V N → T) (ns : List (Node K T)) :
    pathPromise ops type ns.reverse = stepsFrom ops type 0 ns := by
  rw [pathPromise, List.reverse_reverse, ← mapIdx_from]
  rfl

/-- One node whose lookup has the type it asks for. -/
theorem promiseMatch_pass (ops : Ops K V N A) (type : Store K V N → T) (i : Nat) (n : Node K T)
    (s v : Store K V N) (hv : matchPath ops s (keys n) = some v) (ht : ∀ t, wants n = some t → type v = t)
    (r : Resolver (Store K V N) (Store K V N)) :
    (promiseMatch ops type i n).resolve r s = .ran i s :: r.resolve v := by
  cases n with
  | get p => simp only [keys] at hv; simp [promiseMatch, Step.resolve, hv, Resolver.call]
  | matchType t p =>
    simp only [keys] at hv
    have := ht t rfl
    simp [promiseMatch, Step.resolve, hv, Resolver.call, this]

/-- One node whose lookup has another type. -/
theorem promiseMatch_refuse (ops : Ops K V N A) (type : Store K V N → T) (i : Nat) (n : Node K T)
    (s v : Store K V N) (t : T) (hv : matchPath ops s (keys n) = some v) (ht : wants n = some t) (hn : type v ≠ t)
    (r : Resolver (Store K V N) (Store K V N)) :
    (promiseMatch ops type i n).resolve r s = .ran i s :: r.reject v := by
  cases n with
  | get p => simp [wants] at ht
  | matchType t' p =>
    simp only [keys] at hv
    simp only [wants, Option.some.injEq] at ht
    subst ht
    have e : ¬ t' = type v := fun h => hn h.symm
    simp only [promiseMatch, Step.resolve, hv, if_neg e, List.flatMap_cons, Resolver.call, List.flatMap_nil,
      List.append_nil]

theorem stepsFrom_append (ops : Ops K V N A) (type : Store K V N → T) (i : Nat) (a b : List (Node K T)) :
    stepsFrom ops type i (a ++ b) = stepsFrom ops type i a ++ stepsFrom ops type (i + a.length) b := by
  induction a generalizing i with
  | nil => simp [stepsFrom]
  | cons n a ih => simp [stepsFrom, ih, Nat.add_assoc, Nat.add_comm 1]

/-- A rejection goes past the steps of a path. -/
theorem reject_past (ops : Ops K V N A) (type : Store K V N → T) (i : Nat) (ns : List (Node K T))
    (r : Resolver (Store K V N) (Store K V N)) (v : Store K V N) :
    (joinAll (stepsFrom ops type i ns) r).reject v = r.reject v := by
  induction ns generalizing i with
  | nil => rfl
  | cons n ns ih =>
    simp only [stepsFrom, joinAll, List.foldr_cons, join] at ih ⊢
    cases n <;> simp [promiseMatch, Step.reject, ih]

/-- Going through steps that all pass. -/
theorem passes_run (ops : Ops K V N A) (type : Store K V N → T) (s : Store K V N) (ns : List (Node K T))
    (hs : isStore s = true) (h : Passes ops type s ns) (i : Nat) (r : Resolver (Store K V N) (Store K V N)) :
    ∃ (vs : List (Store K V N)) (u : Store K V N), vs.length = ns.length ∧
      (joinAll (stepsFrom ops type i ns) r).resolve s = vs.mapIdx (fun j v => .ran (j + i) v) ++ r.resolve u ∧
      ∀ p, matchPath ops u p = matchPath ops s (ns.flatMap keys ++ p) := by
  induction ns generalizing s i with
  | nil => exact ⟨[], s, rfl, rfl, fun p => rfl⟩
  | cons n ns ih =>
    obtain ⟨v, hv, hst, ht⟩ := h [] n ns rfl
    simp only [valueAt, List.nil_append, List.flatMap_cons, List.flatMap_nil, List.append_nil] at hv
    have hp : Passes ops type v ns := by
      intro pre m post e
      obtain ⟨w, hw, h1, h2⟩ := h (n :: pre) m post (by rw [e]; rfl)
      refine ⟨w, ?_, h1, h2⟩
      rw [valueAt, List.cons_append, List.flatMap_cons, match_path_append ops s v _ _ hs hv, if_pos hst] at hw
      exact hw
    obtain ⟨vs, u, hl, e, hm⟩ := ih v hst hp (i + 1)
    refine ⟨s :: vs, u, by simp [hl], ?_, fun p => ?_⟩
    · simp only [stepsFrom, joinAll, List.foldr_cons, join]
      rw [promiseMatch_pass ops type i n s v hv ht]
      simp only [joinAll] at e
      rw [e, List.mapIdx_cons]
      simp [Nat.add_assoc, Nat.add_comm 1]
    · rw [hm p, List.flatMap_cons, List.append_assoc, match_path_append ops s v _ _ hs hv, if_pos hst]

theorem ran_snoc (vs : List (Store K V N)) (u : Store K V N) :
    vs.mapIdx (fun j v => (.ran (j + 0) v : Event (Store K V N) (Store K V N))) ++ [.ran (0 + vs.length) u] =
      (vs ++ [u]).mapIdx fun i v => .ran i v := by
  simp [List.mapIdx_append]

/-- C103: if there is a store of the type asked for after each step but the last, and after the last
step a value of the type asked for, then the rest of the pipeline is resolved, once, with the value that lies at
the end of all the keys.  (`ns` is the first step first; a `path_t` has the last first.) -/
theorem path_resolves (ops : Ops K V N A) (type : Store K V N → T) (s v : Store K V N)
    (ns : List (Node K T)) (n : Node K T) (hs : isStore s = true) (h : Passes ops type s ns)
    (hv : valueAt ops s (ns ++ [n]) = some v) (ht : ∀ t, wants n = some t → type v = t)
    (r : Resolver (Store K V N) (Store K V N)) :
    ∃ calls, Ran (ns.length + 1) calls ∧
      (joinAll (pathPromise ops type (ns ++ [n]).reverse) r).resolve s = calls ++ r.resolve v := by
  rw [pathPromise_eq, stepsFrom_append]
  obtain ⟨vs, u, hl, e, hm⟩ := passes_run ops type s ns hs h 0
    (joinAll (stepsFrom ops type (0 + ns.length) [n]) r)
  refine ⟨_, ⟨vs ++ [u], by simp [hl], rfl⟩, ?_⟩
  rw [joinAll, List.foldr_append]
  simp only [joinAll] at e
  have hk : matchPath ops u (keys n) = some v := by
    rw [hm]
    simpa [valueAt] using hv
  rw [e, ← ran_snoc, hl]
  simp only [stepsFrom, List.foldr_cons, List.foldr_nil, join]
  rw [promiseMatch_pass ops type _ n u v hk ht]
  simp

/-- C103: if a step finds a value of another type, the rest of the pipeline is rejected, once, with
that value, and no later step is called. -/
theorem path_rejects (ops : Ops K V N A) (type : Store K V N → T) (s v : Store K V N)
    (ns : List (Node K T)) (n : Node K T) (post : List (Node K T)) (t : T) (hs : isStore s = true)
    (h : Passes ops type s ns) (hv : valueAt ops s (ns ++ [n]) = some v) (hn : wants n = some t)
    (ht : type v ≠ t) (r : Resolver (Store K V N) (Store K V N)) :
    ∃ calls, Ran (ns.length + 1) calls ∧
      (joinAll (pathPromise ops type (ns ++ n :: post).reverse) r).resolve s = calls ++ r.reject v := by
  rw [pathPromise_eq, stepsFrom_append]
  obtain ⟨vs, u, hl, e, hm⟩ := passes_run ops type s ns hs h 0
    (joinAll (stepsFrom ops type (0 + ns.length) (n :: post)) r)
  refine ⟨_, ⟨vs ++ [u], by simp [hl], rfl⟩, ?_⟩
  rw [joinAll, List.foldr_append]
  simp only [joinAll] at e
  have hk : matchPath ops u (keys n) = some v := by
    rw [hm]
    simpa [valueAt] using hv
  have hr := reject_past ops type (0 + ns.length + 1) post r v
  simp only [joinAll] at hr
  rw [e, ← ran_snoc, hl]
  simp only [stepsFrom, List.foldr_cons, join]
  rw [promiseMatch_refuse ops type _ n u v t hk hn ht, hr]
  simp

/-- With a handler at the end, as in `mut_action_fn::update` (ui_view/detail/manips.hpp:125-148): of the
function after the path and the handler exactly one is called, once. -/
theorem path_then_catch (ops : Ops K V N A) (type : Store K V N → T) (s v : Store K V N)
    (ns : List (Node K T)) (n : Node K T) (hs : isStore s = true) (h : Passes ops type s ns)
    (hv : valueAt ops s (ns ++ [n]) = some v) (a b : Nat) :
    ∃ calls, Ran (ns.length + 1) calls ∧
      run (pathPromise ops type (ns ++ [n]).reverse ++ [.tap a, .catch_ b fun _ => true]) s =
        calls ++ if ∀ t, wants n = some t → type v = t then [.ran a v, .finished v] else [.handled b v, .stopped] := by
  have e : ∀ r : Resolver (Store K V N) (Store K V N), joinAll (pathPromise ops type (ns ++ [n]).reverse ++
      [.tap a, .catch_ b fun _ => true]) r = joinAll (pathPromise ops type (ns ++ [n]).reverse)
        (joinAll [.tap a, .catch_ b fun _ => true] r) := fun r => by simp only [joinAll, List.foldr_append]
  rw [run, e]
  by_cases ht : ∀ t, wants n = some t → type v = t
  · obtain ⟨c, hc, he⟩ := path_resolves ops type s v ns n hs h hv ht
      (joinAll [.tap a, .catch_ b fun _ => true] endAsync)
    exact ⟨c, hc, by rw [he, if_pos ht]; rfl⟩
  · obtain ⟨t, hn, hne⟩ : ∃ t, wants n = some t ∧ type v ≠ t := by
      cases hw : wants n with
      | none => exact absurd (fun t h => by simp [hw] at h) ht
      | some t => exact ⟨t, rfl, fun h => ht fun t' h' => by rw [hw] at h'; cases h'; exact h⟩
    obtain ⟨c, hc, he⟩ := path_rejects ops type s v ns n [] t hs h hv hn hne
      (joinAll [.tap a, .catch_ b fun _ => true] endAsync)
    exact ⟨c, hc, by rw [he, if_neg ht]; rfl⟩

/-! ### The example of test/nbdl/core/path_promise.cpp -/

/-- An account with a person, or not. -/
def sampleAccount (person : Store Nat Nat Nat) : Store Nat Nat Nat :=
  .variant (.state [(1, .value 10), (2, .variant person)])

/-- A type for each shape: values are `0`, accounts `1`, persons `2`. -/
def sampleType : Store Nat Nat Nat → Nat
  | .state [_, _] => 1
  | .state [_] => 2
  | _ => 0

/-- `path_t<get_t<3>, match_type<person, 2>, match_type<account>>` -/
def samplePath : List (Node Nat Nat) := [.get [3], .matchType 2 [2], .matchType 1 []]

def sampleOps : Ops Nat Nat Nat Nat := ⟨fun _ _ => 0, fun _ _ => none, fun _ _ => none⟩

example : (run (pathPromise sampleOps sampleType samplePath ++ [.tap 7, .catch_ 8 fun _ => true])
    (sampleAccount (.state [(3, .value 5)]))).drop 3 = [.ran 7 (.value 5), .finished (.value 5)] := rfl
example : (run (pathPromise sampleOps sampleType samplePath ++ [.tap 7, .catch_ 8 fun _ => true])
    (sampleAccount (.value 99))).drop 2 = [.handled 8 (.value 99), .stopped] := rfl
example : Passes sampleOps sampleType (sampleAccount (.state [(3, .value 5)]))
    [.matchType 1 [], .matchType 2 [2]] := by
  intro pre n post e
  rcases pre with - | ⟨a, pre⟩
  · simp only [List.nil_append, List.cons.injEq] at e
    obtain ⟨rfl, -⟩ := e
    exact ⟨_, rfl, rfl, fun t h => by cases h; rfl⟩
  · rcases pre with - | ⟨b, pre⟩
    · simp only [List.cons_append, List.nil_append, List.cons.injEq] at e
      obtain ⟨rfl, rfl, -⟩ := e
      exact ⟨_, rfl, rfl, fun t h => by cases h; rfl⟩
    · have := congrArg List.length e
      simp at this

end Nbdl.PathPromise
