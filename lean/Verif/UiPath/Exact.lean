import Verif.UiPath.Props
/-!
# What the code finds for any specification (C89, C90, C91)

The theorems in `Props` are about specifications for which the code is right.  Here the specification is
any: what is found is given directly, on the specification as it was written, and it differs from what the
specification means (`Spec`) in three points.  Keys are looked up in the value reached so far; a path
narrowed to `void` finds nothing; a branch whose path has no value, or none of whose alternatives fits,
is undefined (or does not compile).
-/
namespace Nbdl.UiPath

namespace Spec
variable {V Ty : Type}

/-- Go on with the value found, if there is one. -/
def thenFind {α β : Type} (a : Cpp (Option α)) (f : α → Cpp (Option β)) : Cpp (Option β) :=
  a.bind fun o => match o with
    | some x => f x
    | none => .ok none

variable [DecidableEq Ty]

mutual
/-- What is found for a parameter. -/
def found (w : World V Ty) (s : V) : Param V Ty → Cpp (Option (List V))
  | .const v => .ok (some [v])
  | .path p => thenFind (foundPath w s p) fun v => .ok (some [v])
  | .keyAt p => thenFind (foundPath w s p) fun v => .ok (some [v])
  | .apply f ps => thenFind (foundAll w s ps) fun vs => .ok (some [w.fn f vs])
  | .branch b => foundBranch w s b
  | .concat ps => foundAll w s ps
/-- Parameters from left to right; after the first one without a value nothing is looked up. -/
def foundAll (w : World V Ty) (s : V) : Params V Ty → Cpp (Option (List V))
  | .nil => .ok (some [])
  | .cons x xs => thenFind (found w s x) fun a => thenFind (foundAll w s xs) fun b => .ok (some (a ++ b))
/-- The keys of a step are looked up in the value `v` reached so far. -/
def foundPath (w : World V Ty) (s : V) : Path V Ty → Cpp (Option V)
  | .nil => .ok (some s)
  | .get ps rest => thenFind (foundPath w s rest) fun v =>
      thenFind (foundAll w v ps) fun ks => .ok (follow w (some v) ks)
  | .matchType t ps rest => thenFind (foundPath w s rest) fun v =>
      thenFind (foundAll w v ps) fun ks =>
        .ok ((follow w (some v) ks).filter fun r => decide (t = some (w.type r)))
/-- Without a value at the path it is undefined. -/
def foundBranch (w : World V Ty) (s : V) : Branch V Ty → Cpp (Option (List V))
  | .match p ws =>
    match foundPath w s p with
    | .ok (some v) => foundWhens w s v ws
    | _ => .ub
  | .matchIf p ws =>
    match foundPath w s p with
    | .ok (some v) => foundWhens w s v ws
    | _ => .ub
/-- Without an alternative that fits there is no program. -/
def foundWhens (w : World V Ty) (s v : V) : Whens V Ty → Cpp (Option (List V))
  | .nil => .ub
  | .when t ps ws => if fits w t v then foundAll w s ps else foundWhens w s v ws
  | .cond i ps ws => if w.pred i v then foundAll w s ps else foundWhens w s v ws
end

mutual
/-- The text of a parameter: nothing for a path without a value; there is no program for `apply`. -/
def said (w : World V Ty) (tx : V → List Byte) (s : V) : Param V Ty → Cpp (List Byte)
  | .const v => .ok (tx v)
  | .path p => (foundPath w s p).map fun o => (o.map tx).getD []
  | .keyAt p => (foundPath w s p).map fun o => (o.map tx).getD []
  | .apply _ _ => .ub
  | .branch b => saidBranch w tx s b
  | .concat ps => saidAll w tx s ps
/-- The texts one after the other. -/
def saidAll (w : World V Ty) (tx : V → List Byte) (s : V) : Params V Ty → Cpp (List Byte)
  | .nil => .ok []
  | .cons x xs => (said w tx s x).bind fun a => (saidAll w tx s xs).map (a ++ ·)
/-- See `foundBranch`. -/
def saidBranch (w : World V Ty) (tx : V → List Byte) (s : V) : Branch V Ty → Cpp (List Byte)
  | .match p ws =>
    match foundPath w s p with
    | .ok (some v) => saidWhens w tx s v ws
    | _ => .ub
  | .matchIf p ws =>
    match foundPath w s p with
    | .ok (some v) => saidWhens w tx s v ws
    | _ => .ub
/-- See `foundWhens`. -/
def saidWhens (w : World V Ty) (tx : V → List Byte) (s v : V) : Whens V Ty → Cpp (List Byte)
  | .nil => .ub
  | .when t ps ws => if fits w t v then saidAll w tx s ps else saidWhens w tx s v ws
  | .cond i ps ws => if w.pred i v then saidAll w tx s ps else saidWhens w tx s v ws
end

/-- The calls of a function that is to get what was found: one call, or none. -/
def handed {V α : Type} (a : Cpp (Option α)) (fn : α → Calls V) : Calls V :=
  match a with
  | .ub => .ub
  | .ok none => .ok []
  | .ok (some x) => fn x

end Spec

open Spec
variable {V Ty : Type}

theorem handed_then {α β : Type} (a : Cpp (Option α)) (f : α → Cpp (Option β)) (fn : β → Calls V) :
    handed (thenFind a f) fn = handed a fun x => handed (f x) fn := by
  rcases a with (_ | _) | _ <;> rfl

variable [DecidableEq Ty]

mutual
theorem found_param (w : World V Ty) (s : V) (x : Param V Ty) (acc : List V) (fn : List V → Calls V) :
    evalParams w (flatten x) s acc fn = handed (found w s x) fun vs => fn (acc ++ vs) := by
  match x with
  | .const v => simp [flatten, evalParams, evalParam, found, handed]
  | .path p =>
    simp only [flatten, evalParams, evalParam, found, found_path w s p, handed_then]
    rfl
  | .keyAt p =>
    simp only [flatten, evalParams, evalParam, found, found_path w s p, handed_then]
    rfl
  | .apply f ps =>
    simp only [flatten, evalParams, evalParam, found, found_params w s ps, handed_then, List.nil_append]
    rfl
  | .branch b => simp only [flatten, evalParams, evalParam, found, found_branch w s b]
  | .concat ps => simp only [flatten, found, found_params w s ps]
theorem found_params (w : World V Ty) (s : V) (xs : Params V Ty) (acc : List V)
    (fn : List V → Calls V) :
    evalParams w (flattenAll xs) s acc fn = handed (foundAll w s xs) fun vs => fn (acc ++ vs) := by
  match xs with
  | .nil => simp [flattenAll, evalParams, foundAll, handed]
  | .cons x xs =>
    rw [flattenAll, evalParams_append, found_param w s x, foundAll, handed_then]
    congr; funext a
    rw [found_params w s xs, handed_then]
    congr; funext b
    simp [handed]
theorem found_path (w : World V Ty) (s : V) (p : Path V Ty) (fn : V → Calls V) :
    pathImpl (nodes w (flattenPath p)).reverse s fn = handed (foundPath w s p) fn := by
  match p with
  | .nil => simp [flattenPath, nodes, pathImpl, foundPath, handed]
  | .get ps rest =>
    rw [flattenPath, nodes, List.reverse_cons, pathImpl_append, found_path w s rest, foundPath, handed_then]
    congr; funext v
    rw [handed_then, pathImpl, found_params w v ps]
    congr; funext ks
    rw [List.nil_append, walk_follow]
    cases follow w (some v) ks <;> rfl
  | .matchType t ps rest =>
    rw [flattenPath, nodes, List.reverse_cons, pathImpl_append, found_path w s rest, foundPath, handed_then]
    congr; funext v
    rw [handed_then, pathImpl, found_params w v ps]
    congr; funext ks
    rw [List.nil_append, walk_follow]
    cases follow w (some v) ks with
    | none => rfl
    | some r => by_cases e : t = some (w.type r) <;> simp [handed, Option.filter, e]
theorem found_branch (w : World V Ty) (s : V) (b : Branch V Ty) (fn : List V → Calls V) :
    evalBranch w (flattenBranch b) s fn = handed (foundBranch w s b) fn := by
  match b with
  | .match p ws =>
    simp only [flattenBranch, evalBranch, found_path w s p, foundBranch]
    rcases foundPath w s p with (_ | v) | _
    · rfl
    · exact found_whens w s v ws fn
    · rfl
  | .matchIf p ws =>
    simp only [flattenBranch, evalBranch, found_path w s p, foundBranch]
    rcases foundPath w s p with (_ | v) | _
    · rfl
    · exact found_whens w s v ws fn
    · rfl
theorem found_whens (w : World V Ty) (s v : V) (ws : Whens V Ty) (fn : List V → Calls V) :
    evalWhens w (flattenWhens ws) v s fn = handed (foundWhens w s v ws) fn := by
  match ws with
  | .nil => rfl
  | .when t ps ws =>
    rw [flattenWhens, evalWhens, foundWhens, fits_isType]
    by_cases e : fits w t v = true
    · rw [if_pos e, if_pos e, found_params w s ps]; simp
    · rw [if_neg e, if_neg e, found_whens w s v ws]
  | .cond i ps ws =>
    rw [flattenWhens, evalWhens, foundWhens]
    by_cases e : w.pred i v = true
    · rw [if_pos e, if_pos e, found_params w s ps]; simp
    · rw [if_neg e, if_neg e, found_whens w s v ws]
end

mutual
theorem said_param (w : World V Ty) (tx : V → List Byte) (s : V) (x : Param V Ty) :
    concatParams w tx (flatten x) s = said w tx s x := by
  match x with
  | .const v => simp [flatten, concatParams, concatParam, said, Cpp.bind, Cpp.map]
  | .path p =>
    simp only [flatten, concatParams, concatParam, said, found_path w s p]
    rcases foundPath w s p with (_ | v) | _ <;> simp [handed, Cpp.bind, Cpp.map]
  | .keyAt p =>
    simp only [flatten, concatParams, concatParam, said, found_path w s p]
    rcases foundPath w s p with (_ | v) | _ <;> simp [handed, Cpp.bind, Cpp.map]
  | .apply f ps => simp [flatten, concatParams, concatParam, said, Cpp.bind]
  | .branch b =>
    simp only [flatten, concatParams, concatParam, said, said_branch w tx s b]
    cases saidBranch w tx s b <;> simp [Cpp.bind, Cpp.map]
  | .concat ps => simp only [flatten, said, said_params w tx s ps]
theorem said_params (w : World V Ty) (tx : V → List Byte) (s : V) (xs : Params V Ty) :
    concatParams w tx (flattenAll xs) s = saidAll w tx s xs := by
  match xs with
  | .nil => simp [flattenAll, concatParams, saidAll]
  | .cons x xs =>
    rw [flattenAll, concatParams_append, said_param w tx s x, said_params w tx s xs, saidAll]
theorem said_branch (w : World V Ty) (tx : V → List Byte) (s : V) (b : Branch V Ty) :
    concatBranch w tx (flattenBranch b) s = saidBranch w tx s b := by
  match b with
  | .match p ws =>
    simp only [flattenBranch, concatBranch, found_path w s p, saidBranch]
    rcases foundPath w s p with (_ | v) | _
    · rfl
    · exact said_whens w tx s v ws
    · rfl
  | .matchIf p ws =>
    simp only [flattenBranch, concatBranch, found_path w s p, saidBranch]
    rcases foundPath w s p with (_ | v) | _
    · rfl
    · exact said_whens w tx s v ws
    · rfl
theorem said_whens (w : World V Ty) (tx : V → List Byte) (s v : V) (ws : Whens V Ty) :
    concatWhens w tx (flattenWhens ws) v s = saidWhens w tx s v ws := by
  match ws with
  | .nil => rfl
  | .when t ps ws =>
    rw [flattenWhens, concatWhens, saidWhens, fits_isType]
    by_cases e : fits w t v = true
    · rw [if_pos e, if_pos e, said_params w tx s ps]
    · rw [if_neg e, if_neg e, said_whens w tx s v ws]
  | .cond i ps ws =>
    rw [flattenWhens, concatWhens, saidWhens]
    by_cases e : w.pred i v = true
    · rw [if_pos e, if_pos e, said_params w tx s ps]
    · rw [if_neg e, if_neg e, said_whens w tx s v ws]
end

omit [DecidableEq Ty] in
theorem Params.append_assoc (a b c : Params V Ty) : (a.append b).append c = a.append (b.append c) := by
  match a with
  | .nil => rfl
  | .cons x xs => simp [Params.append, Params.append_assoc xs b c]

omit [DecidableEq Ty] in
theorem flattenAll_append (a b : Params V Ty) :
    flattenAll (a.append b) = (flattenAll a).append (flattenAll b) := by
  match a with
  | .nil => simp [Params.append, flattenAll]
  | .cons x xs => simp [Params.append, flattenAll, flattenAll_append xs b, Params.append_assoc]

/-! ## C89 -/

/-- For every path whatever: the function gets what `foundPath` says, at most once. -/
theorem path_found_exact (w : World V Ty) (s : V) (p : Path V Ty) (fn : V → Calls V) :
    matchPath w s p fn = handed (foundPath w s p) fn :=
  found_path w s p fn

/-- Exactly when the code finds what a path means: what it finds is that. -/
theorem path_right_iff (w : World V Ty) (s : V) (p : Path V Ty) :
    (∀ fn : V → Calls V, matchPath w s p fn = handed (.ok (path w s p)) fn)
      ↔ foundPath w s p = .ok (path w s p) := by
  refine ⟨fun h => ?_, fun h fn => by rw [path_found_exact, h]⟩
  have := h fun v => .ok [[v]]
  rw [path_found_exact] at this
  revert this
  rcases foundPath w s p with (_ | a) | _ <;> cases path w s p <;> simp [handed]

/-- A path narrowed to `void` finds nothing, whatever is there. -/
theorem path_void_violated (w : World V Ty) (s v : V) (as : Params V Ty) (p q : Path V Ty)
    (hp : p = .get as .nil) (hq : mkMatchWhen none p = some q) (hv : foundPath w s p = .ok (some v))
    (fn : V → Calls V) : matchPath w s p fn = fn v ∧ matchPath w s q fn = .ok [] := by
  subst hp
  cases hq
  rw [path_found_exact, path_found_exact, hv]
  refine ⟨rfl, ?_⟩
  rw [foundPath, foundPath] at hv
  rw [foundPath, foundPath]
  have h : ∀ o : Option V, o.filter (fun _ => false) = none := by
    intro o; cases o <;> simp [Option.filter]
  revert hv
  rcases h' : foundAll w s as with (_ | a) | _ <;> simp [thenFind, Cpp.bind, handed, h', h]

/-- The witness of `path_key_violated`: the key is looked up in the value reached. -/
example : ∃ q, mkMatchWhen (some 2) (mkGet (ks [2])) = some q ∧
    foundPath exWorld 0 (mkGetOf q (p1 (.keyAt (mkGet (ks [3]))))) = .ok (some 22)
    ∧ path exWorld 0 (mkGetOf q (p1 (.keyAt (mkGet (ks [3]))))) = some 21 :=
  ⟨_, rfl, by decide +kernel, by decide +kernel⟩

/-- A path as in `path_void_violated`. -/
example : foundPath exWorld 0 (.get (ks [2]) .nil) = .ok (some 20) := by decide +kernel

/-! ## C90 -/

/-- For every list of parameters whatever. -/
theorem params_found_exact (w : World V Ty) (s : V) (ps : Params V Ty) (fn : List V → Calls V) :
    matchParams w s ps fn = handed (foundAll w s ps) fn := by
  rw [matchParams, found_params]; simp

/-- Exactly when the code finds what parameters mean. -/
theorem params_right_iff (w : World V Ty) (s : V) (ps : Params V Ty) :
    (∀ fn : List V → Calls V, matchParams w s ps fn = handed (.ok (params w s ps)) fn)
      ↔ foundAll w s ps = .ok (params w s ps) := by
  refine ⟨fun h => ?_, fun h fn => by rw [params_found_exact, h]⟩
  have := h fun vs => .ok [vs]
  rw [params_found_exact] at this
  revert this
  rcases foundAll w s ps with (_ | a) | _ <;> cases params w s ps <;> simp [handed]

/-- A branch without a value at its path is undefined in every list of parameters, if the parameters
before it have values; the ones after it do not matter. -/
theorem branch_undefined_violated (w : World V Ty) (s : V) (p : Path V Ty) (ws : Whens V Ty)
    (pre post : Params V Ty) (vs : List V) (hpre : foundAll w s pre = .ok (some vs))
    (hp : foundPath w s p = .ok none) (fn : List V → Calls V) :
    matchParams w s (pre.append (.cons (.branch (.match p ws)) post)) fn = .ub := by
  rw [matchParams, flattenAll_append, evalParams_append, found_params, hpre]
  show evalParams w _ s _ _ = _
  rw [found_params, foundAll, found, foundBranch, hp]
  rfl

example : foundAll exWorld 0 (ks [1, 2]) = .ok (some [1, 2])
    ∧ foundPath exWorld 0 (mkGet (ks [9])) = .ok none := by decide +kernel

/-! ## C91 -/

/-- The text, for every list of parameters whatever. -/
theorem concat_text_exact (w : World V Ty) (tx : V → List Byte) (s : V) (ps : Params V Ty) :
    concatParams w tx (flattenAll ps) s = saidAll w tx s ps :=
  said_params w tx s ps

/-- A path without a value in the middle leaves nothing in the text. -/
example : saidAll exWorld (fun v => [BitVec.ofNat 8 v]) 0
      (.cons (.const 1) (.cons (.path (mkGet (ks [9]))) (.cons (.path (mkGet (ks [2]))) .nil)))
    = .ok [1, 20] := by decide +kernel

end Nbdl.UiPath
