import Verif.UiPath.Lemmas
/-! # Paths and parameters of user interface specifications: the properties -/
namespace Nbdl.UiPath
open Spec

variable {V Ty : Type} [DecidableEq Ty]

/-! ## Examples -/

/-- A store 0 with the values 10 (under 1), 20 (under 2) and 1 (under 3); 20 has 21 under 1, 22 under 2
and 2 under 3.  The type of a value is its tens. -/
def exWorld : World Nat Nat where
  child s k :=
    match s, k with
    | 0, 1 => some 10
    | 0, 2 => some 20
    | 0, 3 => some 1
    | 20, 1 => some 21
    | 20, 2 => some 22
    | 20, 3 => some 2
    | _, _ => none
  type v := v / 10
  fn i vs := i + vs.sum
  pred i v := decide (v % 2 = i)

/-- One parameter. -/
abbrev p1 (x : Param Nat Nat) : Params Nat Nat := .cons x .nil
/-- Constants. -/
abbrev ks : List Nat → Params Nat Nat
  | [] => .nil
  | k :: r => .cons (.const k) (ks r)

/-! ## C89 — the value at a path -/

/-- **C89 (partial).** `match_path_spec` calls the function once, with the value at the path, if there
is one, and otherwise not at all.  Missing: paths which look up keys after narrowing to a type (see
`path_key_violated`), which are narrowed to `void` (`match_default_violated`), or which contain a
branch on a path without a value (`branch_missing_violated`). -/
theorem path_found_partial (w : World V Ty) (s : V) (p : Path V Ty) (h : finePath w s p)
    (fn : V → Calls V) :
    matchPath w s p fn =
      match path w s p with
      | some v => fn v
      | none => .ok [] := by
  rw [matchPath, eval_path w s p h]
  rfl

example : matchPath exWorld 0 (mkGet (.cons (.const 2) (p1 (.keyAt (mkGet (ks [3]))))))
    (fun v => .ok [[v]]) = .ok [[21]] := by
  rw [path_found_partial] <;> simp [mkGet, finePath, fine, fineAll, path, params, param, follow, exWorld]

/-- What `get` means: the keys are followed from the store. -/
theorem get_means (w : World V Ty) (s : V) (xs : Params V Ty) :
    path w s (mkGet xs) = (params w s xs).bind fun ks => follow w (some s) ks := by
  simp only [mkGet, path]
  cases params w s xs <;> rfl

/-- What `get` of a path means: the keys are followed from the value at the path. -/
theorem get_of_means (w : World V Ty) (s : V) (p : Path V Ty) (hp : p ≠ .nil) (xs : Params V Ty) :
    path w s (mkGetOf p xs) =
      (path w s p).bind fun v => (params w s xs).bind fun ks => follow w (some v) ks := by
  match p with
  | .nil => exact absurd rfl hp
  | .get as rest =>
    simp only [mkGetOf, path, params_append]
    cases path w s rest with
    | none => rfl
    | some v =>
      cases params w s as with
      | none => rfl
      | some a =>
        cases params w s xs with
        | none => cases h : follow w (some v) a <;> simp [h]
        | some b =>
          simp only [Option.bind_some, Option.map_some, follow_append]
          cases follow w (some v) a <;> simp [follow_none]
  | .matchType t as rest =>
    rw [mkGetOf, path]
    cases path w s (.matchType t as rest) <;> cases params w s xs <;> simp

/-- What `match_when` means: the value at the path, if it has the type. -/
theorem match_when_means (w : World V Ty) (s : V) (t : Ty) (p q : Path V Ty)
    (h : mkMatchWhen (some t) p = some q) :
    path w s q = (path w s p).filter fun v => decide (w.type v = t) := by
  match p with
  | .nil => simp [mkMatchWhen] at h
  | .matchType .. => simp [mkMatchWhen] at h
  | .get as rest =>
    obtain rfl := Option.some.inj h
    rw [path, path]
    cases path w s rest <;> cases params w s as <;> simp [fits]

example : ∃ q, mkMatchWhen (some 2) (mkGet (ks [2])) = some q ∧
    path exWorld 0 (mkGetOf q (ks [1])) = some 21 :=
  ⟨_, rfl, by simp [ks, mkGetOf, path, params, param, follow, exWorld, fits, Option.filter]⟩

/-- **C89 is violated**: a key looked up after narrowing to a type is looked up in the value reached,
not in the store: `get(match_when<T>(get(2)), key_at(get(3)))` means 21 and gives 22. -/
theorem path_key_violated : ∃ q, mkMatchWhen (some 2) (mkGet (ks [2])) = some q ∧
    path exWorld 0 (mkGetOf q (p1 (.keyAt (mkGet (ks [3]))))) = some 21 ∧
    matchPath exWorld 0 (mkGetOf q (p1 (.keyAt (mkGet (ks [3]))))) (fun v => .ok [[v]])
      = .ok [[22]] :=
  ⟨_, rfl, by simp [ks, mkGet, mkGetOf, path, params, param, follow, exWorld, fits, Option.filter], by
    simp [matchPath, mkGetOf, mkGet, flattenPath, flattenAll, flatten, Params.append, nodes, pathImpl,
      evalParams, evalParam, walk, exWorld]⟩

/-! ## C90 — the parameters -/

/-- **C90 (partial).** `match_params_spec` calls the function once, with the values of all parameters
in order, if each of them has a value, and otherwise not at all.  Missing: see
`path_found_partial`. -/
theorem params_found_partial (w : World V Ty) (s : V) (ps : Params V Ty) (h : fineAll w s ps)
    (fn : List V → Calls V) :
    matchParams w s ps fn =
      match params w s ps with
      | some vs => fn vs
      | none => .ok [] := by
  rw [matchParams, eval_params w s ps h]
  cases params w s ps <;> rfl

/-- A constant, a path, a function of two parameters, a choice by type, and a concatenation. -/
def exParams : Params Nat Nat :=
  .cons (.const 7) <|
  .cons (.path (mkGet (ks [2, 1]))) <|
  .cons (.apply 100 (.cons (.const 1) (p1 (.keyAt (mkGet (ks [3])))))) <|
  .cons (.branch (.match (mkGet (ks [2])) (.when (some 1) (ks [5]) (.when (some 2) (ks [6, 8]) .nil)))) <|
  .cons (.concat (.cons (.const 9) (p1 (.path (mkGet (ks [1])))))) .nil

example : matchParams exWorld 0 exParams (fun vs => .ok [vs])
    = .ok [[7, 21, 102, 6, 8, 9, 10]] := by
  rw [params_found_partial] <;>
    simp [exParams, ks, mkGet, finePath, fine, fineAll, fineBranch, fineWhens, path, params, param,
      branch, whens, follow, exWorld, fits, Option.filter]

/-- The alternatives of `match`: the first whose type is the one of the value at the path, or which
is the default; its parameters, made from the path narrowed to that type, which still has the value. -/
theorem match_alternative (w : World V Ty) (s v : V) (p : Path V Ty)
    (pre post : List (Option Ty × (Path V Ty → Params V Ty))) (t : Option Ty)
    (f : Path V Ty → Params V Ty) (b : Branch V Ty)
    (hb : mkMatch p (pre ++ (t, f) :: post) = some b) (hv : path w s p = some v)
    (ht : t = none ∨ t = some (w.type v)) (hpre : ∀ x ∈ pre, x.1 ≠ none ∧ x.1 ≠ some (w.type v)) :
    ∃ q, mkMatchWhen t p = some q ∧ path w s q = some v ∧ branch w s b = params w s (f q) := by
  rw [mkMatch, Option.map_eq_some_iff] at hb
  obtain ⟨ws, hws, rfl⟩ := hb
  simp only [branch, hv]
  induction pre generalizing ws with
  | nil =>
    simp only [List.nil_append, mkWhens, Option.bind_eq_bind, Option.bind_eq_some_iff] at hws
    obtain ⟨q, hq, r, _, h⟩ := hws
    obtain rfl := Option.some.inj h
    have hf : fits w t v = true := by
      rcases ht with rfl | rfl <;> simp [fits]
    refine ⟨q, hq, ?_, by simp [whens, hf]⟩
    cases p with
    | nil => simp [mkMatchWhen] at hq
    | matchType => simp [mkMatchWhen] at hq
    | get as rest =>
      obtain rfl := Option.some.inj hq
      have e : path w s (.matchType t as rest) =
          (path w s (.get as rest)).filter fun r => fits w t r := by
        rw [path, path]
        cases path w s rest <;> cases params w s as <;> simp
      rw [e, hv]
      simp [hf, Option.filter]
  | cons x pre ih =>
    simp only [List.cons_append, mkWhens, Option.bind_eq_bind, Option.bind_eq_some_iff] at hws
    obtain ⟨q, hq, r, hr, h⟩ := hws
    obtain rfl := Option.some.inj h
    obtain ⟨h1, h2⟩ := hpre x (by simp)
    have hf : fits w x.1 v = false := by
      obtain ⟨u, hu⟩ := Option.ne_none_iff_exists'.mp h1
      simp only [hu, fits, Option.all_some, decide_eq_false_iff_not]
      rintro rfl
      exact h2 hu
    obtain ⟨q', h⟩ := ih (fun y hy => hpre y (by simp [hy])) r hr
    exact ⟨q', h.1, h.2.1, by simp [whens, hf, h.2.2]⟩

example : ∃ b q, mkMatch (mkGet (ks [2])) [(some 1, fun _ => ks [5]), (some 2, fun q => p1 (.path (mkGetOf q (ks [1]))))]
      = some b ∧ mkMatchWhen (some 2) (mkGet (ks [2])) = some q ∧ path exWorld 0 q = some 20 ∧
      branch exWorld 0 b = params exWorld 0 (p1 (.path (mkGetOf q (ks [1])))) :=
  ⟨_, (match_alternative exWorld 0 20 (mkGet (ks [2])) [(some 1, fun _ => ks [5])] [] (some 2)
      (fun q => p1 (.path (mkGetOf q (ks [1])))) _ rfl
      (by simp [ks, mkGet, path, params, param, follow, exWorld]) (by simp [exWorld])
      (by simp [exWorld])).imp fun _ h => ⟨rfl, h⟩⟩

/-- **C90 is violated** by the default alternative of `match`: its parameters get the path narrowed to
`void`, at which nothing is ever found, so that the function is not called. -/
theorem match_default_violated : ∃ b,
    mkMatch (mkGet (ks [2])) [(some 1, fun _ => ks [5]), (none, fun q => p1 (.path q))] = some b ∧
    params exWorld 0 (p1 (.branch b)) = some [20] ∧
    matchParams exWorld 0 (p1 (.branch b)) (fun vs => .ok [vs]) = .ok [] :=
  ⟨_, rfl, by simp [ks, mkGet, path, params, param, branch, whens, follow, exWorld, fits, Option.filter], by
    simp [matchParams, mkGet, flattenPath, flattenAll, flatten, flattenBranch, flattenWhens,
      Params.append, nodes, pathImpl, evalParams, evalParam, evalBranch, evalWhens, walk, exWorld,
      isType]⟩

/-- **C90 is violated** by a branch on a path without a value: instead of not calling the function,
the number of the alternative is -1, which is undefined. -/
theorem branch_missing_violated :
    params exWorld 0 (p1 (.branch (.match (mkGet (ks [9])) (.when none (ks [5]) .nil)))) = none ∧
    matchParams exWorld 0 (p1 (.branch (.match (mkGet (ks [9])) (.when none (ks [5]) .nil))))
      (fun vs => .ok [vs]) = .ub :=
  ⟨by simp [ks, mkGet, path, params, param, branch, follow, exWorld], by
    simp [matchParams, mkGet, flattenPath, flattenAll, flatten, flattenBranch, flattenWhens,
      Params.append, nodes, pathImpl, evalParams, evalParam, evalBranch, walk, exWorld]⟩

/-! ## C91 — the text of parameters -/

/-- **C91 (partial).** `params_concat` gives the texts of the parameters one after the other, with
nothing for a path without a value.  Missing: `apply`, for which it has no case, and see
`path_found_partial`. -/
theorem concat_text_partial (w : World V Ty) (tx : V → List Byte) (s : V) (ps : Params V Ty)
    (h : fineAll w s ps) (hp : plainAll ps) :
    concatParams w tx (flattenAll ps) s = .ok (textAll w tx s ps) :=
  concat_params w tx s ps h hp

/-- If every parameter has a value, it is the text of these values. -/
theorem concat_values_partial (w : World V Ty) (tx : V → List Byte) (s : V) (ps : Params V Ty)
    (h : fineAll w s ps) (hp : plainAll ps) (vs : List V) (hv : params w s ps = some vs) :
    concatParams w tx (flattenAll ps) s = .ok (vs.flatMap tx) := by
  rw [concat_text_partial w tx s ps h hp, text_values w tx s ps vs hv]

/-- C91 fails for a computed parameter: it has a value whenever its own parameters have one, but
`params_concat` makes no text of it. -/
theorem concat_apply_violated (w : World V Ty) (tx : V → List Byte) (s : V) (f : Nat) (ps : Params V Ty)
    (vs : List V) (hv : params w s ps = some vs) :
    textAll w tx s (.cons (.apply f ps) .nil) = tx (w.fn f vs)
    ∧ concatParams w tx (flattenAll (.cons (.apply f ps) .nil)) s ≠ .ok (tx (w.fn f vs)) := by
  refine ⟨by simp [textAll, text, hv], ?_⟩
  simp [flattenAll, flatten, Params.append, concatParams, concatParam, Cpp.bind]

/-- A constant, a path without a value, a choice by a predicate. -/
def exTexts : Params Nat Nat :=
  .cons (.const 7) <|
  .cons (.path (mkGet (ks [9]))) <|
  .cons (.branch (.matchIf (mkGet (ks [2, 1])) (.cond 0 (ks [5]) (.cond 1 (ks [6, 8]) .nil)))) .nil

example : concatParams exWorld (fun v => [BitVec.ofNat 8 (48 + v)]) (flattenAll exTexts) 0
    = .ok (ascii "768") := by
  rw [concat_text_partial] <;>
    simp [exTexts, ks, mkGet, finePath, fine, fineAll, fineBranch, fineWhens, plain, plainAll,
      plainBranch, plainWhens, path, params, param, text, textAll, textBranch, textWhens, follow, exWorld]
  decide +kernel

end Nbdl.UiPath
