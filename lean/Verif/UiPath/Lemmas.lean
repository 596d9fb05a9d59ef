import Verif.UiPath.Spec
/-! # Lemmas -/
namespace Nbdl.UiPath
open Spec

variable {V Ty : Type}

theorem pathImpl_cons : ∀ (b : List (V → (V → Calls V) → Calls V)) (n : V → (V → Calls V) → Calls V)
    (s : V) (fn : V → Calls V), pathImpl (n :: b) s fn = n s fun r => pathImpl b r fn
  | [], n, s, fn => by simp [pathImpl]
  | [_], n, s, fn => by simp [pathImpl]
  | [_, _], n, s, fn => by simp [pathImpl]
  | n1 :: n2 :: n3 :: ns, n, s, fn => by
    simp only [pathImpl]
    congr; funext r; congr; funext r; congr; funext r
    exact pathImpl_cons ns n3 r fn

theorem pathImpl_append (a b : List (V → (V → Calls V) → Calls V)) (s : V) (fn : V → Calls V) :
    pathImpl (a ++ b) s fn = pathImpl a s fun r => pathImpl b r fn := by
  induction a generalizing s with
  | nil => simp [pathImpl]
  | cons n a ih => simp only [List.cons_append, pathImpl_cons, ih]

theorem walk_follow (w : World V Ty) (v : V) (ks : List V) : walk w v ks = follow w (some v) ks := by
  induction ks generalizing v with
  | nil => rfl
  | cons k ks ih =>
    rw [walk, follow]
    cases h : w.child v k with
    | none => cases ks <;> rfl
    | some u => exact ih u

theorem follow_none (w : World V Ty) (ks : List V) : follow w none ks = none := by cases ks <;> rfl

theorem follow_append (w : World V Ty) (v : Option V) (as bs : List V) :
    follow w v (as ++ bs) = follow w (follow w v as) bs := by
  induction as generalizing v with
  | nil => cases v <;> rfl
  | cons a as ih =>
    cases v with
    | none => simp [follow, follow_none]
    | some v => exact ih _

variable [DecidableEq Ty]

theorem fits_isType (w : World V Ty) (t : Option Ty) (v : V) : isType w t v = fits w t v := by
  cases t <;> simp [isType, fits]

theorem evalParams_append (w : World V Ty) (a b : Params V Ty) (s : V) (acc : List V)
    (fn : List V → Calls V) :
    evalParams w (a.append b) s acc fn = evalParams w a s acc fun r => evalParams w b s r fn := by
  match a with
  | .nil => simp [Params.append, evalParams]
  | .cons x xs =>
    simp only [Params.append, evalParams]
    congr; funext r
    exact evalParams_append w xs b s r fn

/-- What a lookup does, given what was meant. -/
def deliver {α : Type} (o : Option α) (fn : α → Calls V) : Calls V :=
  match o with
  | some a => fn a
  | none => .ok []

mutual
theorem closed_eval (w : World V Ty) (x : Param V Ty) (h : closed x) :
    ∃ vs, (∀ s, param w s x = some vs) ∧
      ∀ s acc fn, evalParams w (flatten x) s acc fn = fn (acc ++ vs) := by
  match x with
  | .const v => exact ⟨[v], by simp [param], by simp [flatten, evalParams, evalParam]⟩
  | .path _ => simp [closed] at h
  | .keyAt _ => simp [closed] at h
  | .branch _ => simp [closed] at h
  | .apply f ps =>
    rw [closed] at h
    obtain ⟨vs, h1, h2⟩ := closedAll_eval w ps h
    exact ⟨[w.fn f vs], by simp [param, h1], by simp [flatten, evalParams, evalParam, h2]⟩
  | .concat ps =>
    rw [closed] at h
    obtain ⟨vs, h1, h2⟩ := closedAll_eval w ps h
    exact ⟨vs, by simp [param, h1], by simp [flatten, h2]⟩
theorem closedAll_eval (w : World V Ty) (xs : Params V Ty) (h : closedAll xs) :
    ∃ vs, (∀ s, params w s xs = some vs) ∧
      ∀ s acc fn, evalParams w (flattenAll xs) s acc fn = fn (acc ++ vs) := by
  match xs with
  | .nil => exact ⟨[], by simp [params], by simp [flattenAll, evalParams]⟩
  | .cons x xs =>
    rw [closedAll] at h
    obtain ⟨a, h1, h2⟩ := closed_eval w x h.1
    obtain ⟨b, h3, h4⟩ := closedAll_eval w xs h.2
    exact ⟨a ++ b, by simp [params, h1, h3], by
      simp [flattenAll, evalParams_append, h2, h4]⟩
end

/-- One more step after a path. -/
theorem path_step (w : World V Ty) (s : V) (rest : Path V Ty) (n : V → (V → Calls V) → Calls V)
    (fn : V → Calls V) (h : ∀ fn, pathImpl (nodes w (flattenPath rest)).reverse s fn =
      deliver (path w s rest) fn) :
    pathImpl (n :: nodes w (flattenPath rest)).reverse s fn =
      deliver (path w s rest) fun r => n r fn := by
  rw [List.reverse_cons, pathImpl_append, h]
  rfl

/-- `get` after a path, with keys that are not looked up. -/
theorem step_get (w : World V Ty) (s : V) (ps : Params V Ty) (rest : Path V Ty) (fn : V → Calls V)
    (hc : closedAll ps) (h : ∀ fn, pathImpl (nodes w (flattenPath rest)).reverse s fn =
      deliver (path w s rest) fn) :
    pathImpl (nodes w (flattenPath (.get ps rest))).reverse s fn =
      deliver (path w s (.get ps rest)) fn := by
  obtain ⟨vs, h1, h2⟩ := closedAll_eval w ps hc
  rw [flattenPath, nodes, path_step w s rest _ fn h, path]
  cases path w s rest with
  | none => rfl
  | some v =>
    simp only [deliver, h1, h2, walk_follow, List.nil_append]
    cases follow w (some v) vs <;> rfl

/-- The same for `match_type`. -/
theorem step_match (w : World V Ty) (s : V) (u : Ty) (ps : Params V Ty) (rest : Path V Ty)
    (fn : V → Calls V) (hc : closedAll ps)
    (h : ∀ fn, pathImpl (nodes w (flattenPath rest)).reverse s fn = deliver (path w s rest) fn) :
    pathImpl (nodes w (flattenPath (.matchType (some u) ps rest))).reverse s fn =
      deliver (path w s (.matchType (some u) ps rest)) fn := by
  obtain ⟨vs, h1, h2⟩ := closedAll_eval w ps hc
  rw [flattenPath, nodes, path_step w s rest _ fn h, path]
  cases path w s rest with
  | none => rfl
  | some v =>
    simp only [deliver, h1, h2, walk_follow, List.nil_append]
    cases follow w (some v) vs with
    | none => rfl
    | some r =>
      by_cases e : u = w.type r
      · simp [Option.filter, fits, e]
      · simp [Option.filter, fits, e, Ne.symm e]

mutual
theorem eval_param (w : World V Ty) (s : V) (x : Param V Ty) (h : fine w s x) (acc : List V)
    (fn : List V → Calls V) :
    evalParams w (flatten x) s acc fn = deliver (param w s x) fun vs => fn (acc ++ vs) := by
  match x with
  | .const v => simp [flatten, evalParams, evalParam, param, deliver]
  | .path p =>
    rw [fine] at h
    simp only [flatten, evalParams, evalParam, param, eval_path w s p h]
    cases path w s p <;> rfl
  | .keyAt p =>
    rw [fine] at h
    simp only [flatten, evalParams, evalParam, param, eval_path w s p h]
    cases path w s p <;> rfl
  | .apply f ps =>
    rw [fine] at h
    simp only [flatten, evalParams, evalParam, param, eval_params w s ps h]
    cases params w s ps <;> rfl
  | .branch b =>
    rw [fine] at h
    simp only [flatten, evalParams, evalParam, param, eval_branch w s b h]
  | .concat ps =>
    rw [fine] at h
    simp only [flatten, param, eval_params w s ps h]
theorem eval_params (w : World V Ty) (s : V) (xs : Params V Ty) (h : fineAll w s xs) (acc : List V)
    (fn : List V → Calls V) :
    evalParams w (flattenAll xs) s acc fn = deliver (params w s xs) fun vs => fn (acc ++ vs) := by
  match xs with
  | .nil => simp [flattenAll, evalParams, params, deliver]
  | .cons x xs =>
    rw [fineAll] at h
    rw [flattenAll, evalParams_append, eval_param w s x h.1, params]
    cases param w s x with
    | none => rfl
    | some a =>
      simp only [deliver]
      rw [eval_params w s xs h.2]
      cases params w s xs <;> simp [deliver]
theorem eval_path (w : World V Ty) (s : V) (p : Path V Ty) (h : finePath w s p) (fn : V → Calls V) :
    pathImpl (nodes w (flattenPath p)).reverse s fn = deliver (path w s p) fn := by
  match p with
  | .nil => simp [flattenPath, nodes, pathImpl, path, deliver]
  | .get ps .nil =>
    rw [finePath] at h
    simp only [flattenPath, nodes, List.reverse_cons, List.reverse_nil, List.nil_append, pathImpl,
      eval_params w s ps h, path, walk_follow]
    cases params w s ps with
    | none => rfl
    | some ks =>
      simp only [deliver, List.nil_append]
      cases follow w (some s) ks <;> rfl
  | .get ps (.get a b) =>
    rw [finePath] at h
    · exact step_get w s ps _ fn h.1 (eval_path w s (.get a b) h.2)
    · simp
  | .get ps (.matchType t a b) =>
    rw [finePath] at h
    · exact step_get w s ps _ fn h.1 (eval_path w s (.matchType t a b) h.2)
    · simp
  | .matchType t ps .nil =>
    rw [finePath] at h
    obtain ⟨ht, h⟩ := h
    obtain ⟨u, rfl⟩ := Option.ne_none_iff_exists'.mp ht
    simp only [flattenPath, nodes, List.reverse_cons, List.reverse_nil, List.nil_append, pathImpl,
      eval_params w s ps h, path, walk_follow]
    cases params w s ps with
    | none => rfl
    | some ks =>
      simp only [deliver, List.nil_append]
      cases follow w (some s) ks with
      | none => rfl
      | some r =>
        by_cases e : u = w.type r
        · simp [Option.filter, fits, e]
        · simp [Option.filter, fits, e, Ne.symm e]
  | .matchType t ps (.get a b) =>
    rw [finePath] at h
    · obtain ⟨ht, hc, h⟩ := h
      obtain ⟨u, rfl⟩ := Option.ne_none_iff_exists'.mp ht
      exact step_match w s u ps _ fn hc (eval_path w s (.get a b) h)
    · simp
  | .matchType t ps (.matchType t' a b) =>
    rw [finePath] at h
    · obtain ⟨ht, hc, h⟩ := h
      obtain ⟨u, rfl⟩ := Option.ne_none_iff_exists'.mp ht
      exact step_match w s u ps _ fn hc (eval_path w s (.matchType t' a b) h)
    · simp
theorem eval_branch (w : World V Ty) (s : V) (b : Branch V Ty) (h : fineBranch w s b)
    (fn : List V → Calls V) :
    evalBranch w (flattenBranch b) s fn = deliver (branch w s b) fn := by
  match b with
  | .match p ws =>
    rw [fineBranch] at h
    obtain ⟨hp, v, hv, h⟩ := h
    simp only [flattenBranch, evalBranch, eval_path w s p hp, hv, deliver, branch]
    exact eval_whens w s v ws h fn
  | .matchIf p ws =>
    rw [fineBranch] at h
    obtain ⟨hp, v, hv, h⟩ := h
    simp only [flattenBranch, evalBranch, eval_path w s p hp, hv, deliver, branch]
    exact eval_whens w s v ws h fn
theorem eval_whens (w : World V Ty) (s v : V) (ws : Whens V Ty) (h : fineWhens w s v ws)
    (fn : List V → Calls V) :
    evalWhens w (flattenWhens ws) v s fn = deliver (whens w s v ws) fn := by
  match ws with
  | .nil => simp [fineWhens] at h
  | .when t ps ws =>
    rw [fineWhens] at h
    rw [flattenWhens, evalWhens, whens, fits_isType]
    by_cases e : fits w t v = true
    · rw [if_pos e] at h
      rw [if_pos e, if_pos e, eval_params w s ps h]
      simp
    · rw [if_neg e] at h
      rw [if_neg e, if_neg e, eval_whens w s v ws h]
  | .cond i ps ws =>
    rw [fineWhens] at h
    rw [flattenWhens, evalWhens, whens]
    by_cases e : w.pred i v = true
    · rw [if_pos e] at h
      rw [if_pos e, if_pos e, eval_params w s ps h]
      simp
    · rw [if_neg e] at h
      rw [if_neg e, if_neg e, eval_whens w s v ws h]
end

theorem concatParams_append (w : World V Ty) (tx : V → List Byte) (a b : Params V Ty) (s : V) :
    concatParams w tx (a.append b) s =
      (concatParams w tx a s).bind fun r => (concatParams w tx b s).map (r ++ ·) := by
  match a with
  | .nil => cases h : concatParams w tx b s <;> simp [Params.append, concatParams, Cpp.bind, Cpp.map, h]
  | .cons x xs =>
    simp only [Params.append, concatParams, concatParams_append w tx xs b s]
    cases concatParam w tx x s with
    | ub => rfl
    | ok r =>
      cases concatParams w tx xs s with
      | ub => rfl
      | ok r' =>
        cases concatParams w tx b s with
        | ub => rfl
        | ok r'' => simp [Cpp.bind, Cpp.map]

mutual
theorem concat_param (w : World V Ty) (tx : V → List Byte) (s : V) (x : Param V Ty) (h : fine w s x)
    (hp : plain x) : concatParams w tx (flatten x) s = .ok (text w tx s x) := by
  match x with
  | .const v => simp [flatten, concatParams, concatParam, text, Cpp.bind, Cpp.map]
  | .path p =>
    rw [fine] at h
    simp only [flatten, concatParams, concatParam, text, eval_path w s p h]
    cases path w s p <;> simp [deliver, Cpp.bind, Cpp.map]
  | .keyAt p =>
    rw [fine] at h
    simp only [flatten, concatParams, concatParam, text, eval_path w s p h]
    cases path w s p <;> simp [deliver, Cpp.bind, Cpp.map]
  | .apply f ps => simp [plain] at hp
  | .branch b =>
    rw [fine] at h
    rw [plain] at hp
    simp [flatten, concatParams, concatParam, text, concat_branch w tx s b h hp, Cpp.bind, Cpp.map]
  | .concat ps =>
    rw [fine] at h
    rw [plain] at hp
    simp [flatten, text, concat_params w tx s ps h hp]
theorem concat_params (w : World V Ty) (tx : V → List Byte) (s : V) (xs : Params V Ty)
    (h : fineAll w s xs) (hp : plainAll xs) :
    concatParams w tx (flattenAll xs) s = .ok (textAll w tx s xs) := by
  match xs with
  | .nil => simp [flattenAll, concatParams, textAll]
  | .cons x xs =>
    rw [fineAll] at h
    rw [plainAll] at hp
    rw [flattenAll, concatParams_append, concat_param w tx s x h.1 hp.1,
      concat_params w tx s xs h.2 hp.2, textAll]
    rfl
theorem concat_branch (w : World V Ty) (tx : V → List Byte) (s : V) (b : Branch V Ty)
    (h : fineBranch w s b) (hb : plainBranch b) :
    concatBranch w tx (flattenBranch b) s = .ok (textBranch w tx s b) := by
  match b with
  | .match p ws =>
    rw [fineBranch] at h
    rw [plainBranch] at hb
    obtain ⟨hp, v, hv, h⟩ := h
    simp only [flattenBranch, concatBranch, eval_path w s p hp, hv, deliver, textBranch]
    exact concat_whens w tx s v ws h hb
  | .matchIf p ws =>
    rw [fineBranch] at h
    rw [plainBranch] at hb
    obtain ⟨hp, v, hv, h⟩ := h
    simp only [flattenBranch, concatBranch, eval_path w s p hp, hv, deliver, textBranch]
    exact concat_whens w tx s v ws h hb
theorem concat_whens (w : World V Ty) (tx : V → List Byte) (s v : V) (ws : Whens V Ty)
    (h : fineWhens w s v ws) (hb : plainWhens ws) :
    concatWhens w tx (flattenWhens ws) v s = .ok (textWhens w tx s v ws) := by
  match ws with
  | .nil => simp [fineWhens] at h
  | .when t ps ws =>
    rw [fineWhens] at h
    rw [plainWhens] at hb
    rw [flattenWhens, concatWhens, textWhens, fits_isType]
    by_cases e : fits w t v = true
    · rw [if_pos e] at h
      rw [if_pos e, if_pos e, concat_params w tx s ps h hb.1]
    · rw [if_neg e] at h
      rw [if_neg e, if_neg e, concat_whens w tx s v ws h hb.2]
  | .cond i ps ws =>
    rw [fineWhens] at h
    rw [plainWhens] at hb
    rw [flattenWhens, concatWhens, textWhens]
    by_cases e : w.pred i v = true
    · rw [if_pos e] at h
      rw [if_pos e, if_pos e, concat_params w tx s ps h hb.1]
    · rw [if_neg e] at h
      rw [if_neg e, if_neg e, concat_whens w tx s v ws h hb.2]
end

theorem params_append (w : World V Ty) (s : V) (a b : Params V Ty) :
    params w s (a.append b) = (params w s a).bind fun x => (params w s b).map (x ++ ·) := by
  match a with
  | .nil => cases h : params w s b <;> simp [Params.append, params, h]
  | .cons x xs =>
    simp only [Params.append, params, params_append w s xs b]
    cases param w s x <;> cases params w s xs <;> cases params w s b <;> simp

mutual
theorem text_value (w : World V Ty) (tx : V → List Byte) (s : V) (x : Param V Ty) (vs : List V)
    (h : param w s x = some vs) : text w tx s x = vs.flatMap tx := by
  match x with
  | .const v => simp [param] at h; subst h; simp [text]
  | .path p =>
    rw [param] at h
    obtain ⟨v, hv, rfl⟩ := Option.map_eq_some_iff.mp h
    simp [text, hv]
  | .keyAt p =>
    rw [param] at h
    obtain ⟨v, hv, rfl⟩ := Option.map_eq_some_iff.mp h
    simp [text, hv]
  | .apply f ps =>
    rw [param] at h
    obtain ⟨v, hv, rfl⟩ := Option.map_eq_some_iff.mp h
    simp [text, hv]
  | .branch (.match p ws) =>
    rw [param, branch] at h
    rw [text, textBranch]
    cases hp : path w s p with
    | none => simp [hp] at h
    | some v => rw [hp] at h; exact text_whens w tx s v ws vs h
  | .branch (.matchIf p ws) =>
    rw [param, branch] at h
    rw [text, textBranch]
    cases hp : path w s p with
    | none => simp [hp] at h
    | some v => rw [hp] at h; exact text_whens w tx s v ws vs h
  | .concat ps =>
    rw [param] at h
    rw [text, text_values w tx s ps vs h]
theorem text_values (w : World V Ty) (tx : V → List Byte) (s : V) (xs : Params V Ty) (vs : List V)
    (h : params w s xs = some vs) : textAll w tx s xs = vs.flatMap tx := by
  match xs with
  | .nil => simp [params] at h; subst h; simp [textAll]
  | .cons x xs =>
    rw [params] at h
    cases h1 : param w s x with
    | none => simp [h1] at h
    | some a =>
      cases h2 : params w s xs with
      | none => simp [h1, h2] at h
      | some b =>
        rw [h1, h2] at h
        obtain rfl := Option.some.inj h
        simp [textAll, text_value w tx s x a h1, text_values w tx s xs b h2]
theorem text_whens (w : World V Ty) (tx : V → List Byte) (s v : V) (ws : Whens V Ty) (vs : List V)
    (h : whens w s v ws = some vs) : textWhens w tx s v ws = vs.flatMap tx := by
  match ws with
  | .nil => simp [whens] at h
  | .when t ps ws =>
    rw [whens] at h
    rw [textWhens]
    by_cases e : fits w t v = true
    · rw [if_pos e] at h ⊢; exact text_values w tx s ps vs h
    · rw [if_neg e] at h ⊢; exact text_whens w tx s v ws vs h
  | .cond i ps ws =>
    rw [whens] at h
    rw [textWhens]
    by_cases e : w.pred i v = true
    · rw [if_pos e] at h ⊢; exact text_values w tx s ps vs h
    · rw [if_neg e] at h ⊢; exact text_whens w tx s v ws vs h
end

end Nbdl.UiPath
