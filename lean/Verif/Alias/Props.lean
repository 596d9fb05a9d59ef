import Verif.Alias.Model
/-!
C114: a store that is initialised with a store of its own class is a copy of it, and with anything else it is made of
that; and stores can be assigned.
-/
namespace Nbdl.Alias

/-- The arguments say "make a copy of this": there is one, and it is of the class itself. -/
def IsCopy : List Arg → Prop
  | [a] => a.cls = .self
  | _ => False

instance (args : List Arg) : Decidable (IsCopy args) :=
  match args with
  | [a] => inferInstanceAs (Decidable (a.cls = .self))
  | [] => inferInstanceAs (Decidable False)
  | _ :: _ :: _ => inferInstanceAs (Decidable False)

/-- An argument whose contents may be moved away: an rvalue that is not `const`. -/
def Arg.expires (a : Arg) : Bool := a.rvalue && !a.isConst

/-! ### Forwarding -/

theorem bindAll_forward (args : List Arg) :
    bindAll (List.replicate args.length .forward) args = some (args.map fun a => ⟨a.rvalue, a.isConst⟩) := by
  induction args with
  | nil => rfl
  | cons a as ih => simp [List.replicate_succ, bindAll, bind, ih]

theorem bindAll_length : ∀ (ps : List Param) (args : List Arg) (bs : List Bound),
    bindAll ps args = some bs → ps.length = args.length
  | [], [], _, _ => rfl
  | [], _ :: _, _, h => by simp [bindAll] at h
  | _ :: _, [], _, h => by simp [bindAll] at h
  | p :: ps, a :: as, bs, h => by
    simp only [bindAll] at h
    split at h
    · rename_i b bs' h1 h2
      simp [bindAll_length ps as bs' h2]
    · cases h

/-- With several arguments only functions for several take part. -/
theorem resolve_forward (fs : List Fn) (args : List Arg) (f : Fn)
    (h : fs.filter (fun f => (f.binds args).isSome) = [f]) (hd : f.deleted = false) :
    resolve fs args = .calls f.kind := by
  simp [resolve, h, hd]

/-! ### `strong_alias` and `context_alias` -/

/-- C114, partial: an alias that is initialised with an alias is a copy of it (its contents are moved exactly if that
object expires), unless the initialisation is direct and the object a `const` rvalue. -/
theorem alias_copy_partial (i : Init) (a : Arg) (hc : a.cls = .self)
    (h : i = .copy ∨ ¬ (a.isConst = true ∧ a.rvalue = true)) :
    construct aliasCtors i [a] = .calls (if a.expires then .move else .copy) := by
  obtain ⟨c, k, r⟩ := a
  simp only at hc
  subst hc
  cases i <;> cases k <;> cases r <;> first | decide | (exfalso; revert h; decide)

/-- C114, partial: made of anything else, it hands on exactly the arguments; there is no implicit conversion to it. -/
theorem alias_forwards (args : List Arg) (h : ¬ IsCopy args) :
    construct aliasCtors .direct args = .calls .forward ∧ construct aliasCtors .copy args = .noMatch := by
  match args, h with
  | [], _ => decide
  | [a], h =>
    obtain ⟨c, k, r⟩ := a
    simp only [IsCopy] at h
    simp [construct, resolve, aliasCtors, Fn.binds, excluded, Fn.paramsFor, bindAll, bind, h, List.replicate_succ]
  | a :: b :: as, _ =>
    have hb := bindAll_forward (a :: b :: as)
    simp only [List.length_cons] at hb
    constructor
    · refine resolve_forward _ _ ⟨.forward, [], true, true, false, false⟩ ?_ rfl
      simp [aliasCtors, Fn.binds, excluded, Fn.paramsFor, hb]
    · simp [construct, resolve, aliasCtors, Fn.binds, excluded, Fn.paramsFor]

/-- C114 violated: a `const` rvalue of the alias is handed to the constructor of the value, as if it were something to
make a value of (which is refused unless the value can be made of an alias). -/
theorem alias_const_rvalue_violated (a : Arg) (hc : a.cls = .self) (h : a.isConst = true ∧ a.rvalue = true) :
    construct aliasCtors .direct [a] = .calls .forward := by
  obtain ⟨c, k, r⟩ := a
  simp only at hc h
  obtain ⟨rfl, rfl⟩ := h
  subst hc
  decide

/-- C114: a context that cannot be moved is neither copied nor moved, in either way; only a `const` rvalue is handed on
as by the others. -/
theorem fixed_never_copied (i : Init) (a : Arg) (hc : a.cls = .self) :
    construct fixedCtors i [a] = .deleted ∨ construct fixedCtors i [a] = .calls .forward ∧ i = .direct
      ∧ a.isConst = true ∧ a.rvalue = true := by
  obtain ⟨c, k, r⟩ := a
  simp only at hc
  subst hc
  cases i <;> cases k <;> cases r <;> decide

/-! ### Generated classes with members -/

theorem members_binds_one (n : Nat) (hn : n ≠ 1) (a : Arg) (k : Kind) (x : Bool) :
    (Fn.binds ⟨k, List.replicate n .forward, false, x, false, false⟩ [a]) = none := by
  simp [Fn.binds, excluded, Fn.paramsFor, hn]

/-- C114, partial: a generated class with members is copied from an object of it, unless it has exactly one
parameter, in the cases below. -/
theorem members_copy_partial (n : Nat) (i : Init) (a : Arg) (hc : a.cls = .self)
    (h : n ≠ 1 ∨ i = .copy ∨ a.isConst = true ∧ a.rvalue = false ∨ a.isConst = false ∧ a.rvalue = true) :
    construct (memberCtors n) i [a] = .calls (if a.expires then .move else .copy) := by
  obtain ⟨c, k, r⟩ := a
  simp only at hc
  subst hc
  by_cases hn : n = 1
  · subst hn
    cases i <;> cases k <;> cases r <;> first | decide | (exfalso; revert h; decide)
  · have hb := fun x => members_binds_one n hn ⟨.self, k, r⟩ .forward x
    cases i <;> cases k <;> cases r <;> by_cases h0 : n = 0 <;>
      simp [construct, memberCtors, resolve, h0, List.filter, hb, Arg.expires, Fn.binds, excluded, Fn.paramsFor, hn,
        bindAll, bind, better, anyBetter, betterBound]

/-- C114: made of as many arguments as it has parameters, it uses exactly them. -/
theorem members_forwards (n : Nat) (args : List Arg) (hl : args.length = n) (h : ¬ IsCopy args) :
    construct (memberCtors n) .direct args = .calls .forward := by
  subst hl
  match args, h with
  | [], _ => decide
  | [a], h =>
    obtain ⟨c, k, r⟩ := a
    simp only [IsCopy] at h
    simp [construct, resolve, memberCtors, Fn.binds, excluded, Fn.paramsFor, bindAll, bind, h, List.replicate_succ]
  | a :: b :: as, _ =>
    have hb := bindAll_forward (a :: b :: as)
    simp only [List.length_cons] at hb
    refine resolve_forward _ _ ⟨.forward, List.replicate (a :: b :: as).length .forward, false, true, false, false⟩ ?_ rfl
    simp [memberCtors, Fn.binds, excluded, Fn.paramsFor, hb]

/-- C114: other numbers of arguments are refused, except that there may be none at all. -/
theorem members_refuses (n : Nat) (i : Init) (args : List Arg) (hl : args.length ≠ n) (h : ¬ IsCopy args) :
    construct (memberCtors n) i args = if args = [] then .calls .default else .noMatch := by
  match args, h with
  | [], _ =>
    have h0 : n ≠ 0 := fun h => hl h.symm
    have h0' : ¬ (0 = n) := fun h => hl h
    cases i <;>
      simp [construct, resolve, memberCtors, Fn.binds, excluded, Fn.paramsFor, bindAll, h0]
  | [a], h =>
    obtain ⟨c, k, r⟩ := a
    simp only [IsCopy] at h
    have h1 : ¬ n = 1 := fun h => hl h.symm
    cases i <;> by_cases h0 : n = 0 <;>
      simp [construct, resolve, memberCtors, Fn.binds, excluded, Fn.paramsFor, bindAll, bind, h, h0, h1]
  | a :: b :: as, _ =>
    have h1 : ¬ n = as.length + 1 + 1 := fun h => hl h.symm
    cases i <;> by_cases h0 : n = 0 <;>
      simp [construct, resolve, memberCtors, Fn.binds, excluded, Fn.paramsFor, bindAll, h0, h1]

/-- C114 violated: a generated class with one parameter is not copied from a variable of it, nor from a `const` rvalue:
its first use of the parameter gets the whole object. -/
theorem members_one_param_violated (a : Arg) (hc : a.cls = .self) (h : a.isConst = a.rvalue) :
    construct (memberCtors 1) .direct [a] = .calls .forward := by
  obtain ⟨c, k, r⟩ := a
  simp only at hc h
  subst hc h
  cases k <;> decide

/-! ### Generated classes that are aliases -/

/-- C114: these are always copied from an object of them: the inherited constructors do not take part. -/
theorem named_copy (i : Init) (a : Arg) (hc : a.cls = .self) :
    construct namedCtors i [a] = .calls (if a.expires then .move else .copy) := by
  obtain ⟨c, k, r⟩ := a
  simp only at hc
  subst hc
  cases i <;> cases k <;> cases r <;> decide

/-- C114: and made of other things, except an object of the base, they hand these on. -/
theorem named_forwards (args : List Arg) (hne : args ≠ []) (h : ¬ IsCopy args)
    (hb : ∀ a, args = [a] → a.cls ≠ .base) : construct namedCtors .direct args = .calls .forward := by
  match args, h, hne with
  | [a], h, _ =>
    obtain ⟨c, k, r⟩ := a
    simp only [IsCopy] at h
    have hb := hb _ rfl
    simp only at hb
    simp [construct, resolve, namedCtors, Fn.binds, excluded, Fn.paramsFor, bindAll, bind, h, hb, List.replicate_succ]
  | a :: b :: as, _, _ =>
    have hb := bindAll_forward (a :: b :: as)
    simp only [List.length_cons] at hb
    refine resolve_forward _ _ ⟨.forward, [], true, true, false, true⟩ ?_ rfl
    simp [namedCtors, Fn.binds, excluded, Fn.paramsFor, hb]

/-- C114 violated: an object of the base is refused, in either way; and without arguments nothing is handed on. -/
theorem named_base_violated (i : Init) (k r : Bool) :
    construct namedCtors i [⟨.base, k, r⟩] = .noMatch ∧ construct namedCtors i [] = .calls .default := by
  cases i <;> cases k <;> cases r <;> decide

/-- C114: there is no implicit conversion to such a class. -/
theorem named_no_conversion (a : Arg) (h : a.cls ≠ .self) : construct namedCtors .copy [a] = .noMatch := by
  obtain ⟨c, k, r⟩ := a
  simp only at h
  cases c with
  | self => exact absurd rfl h
  | base => cases k <;> cases r <;> decide
  | value => cases k <;> cases r <;> decide
  | other j => simp [construct, resolve, namedCtors, Fn.binds, excluded, Fn.paramsFor, bindAll, bind]

/-! ### Assignment -/

/-- C114, partial: what is neither the alias nor the value can be assigned: it is handed on. -/
theorem assign_other_partial (a : Arg) (h1 : a.cls ≠ .self) (h2 : a.cls ≠ .value) :
    resolve aliasAssigns [a] = .calls .forward := by
  obtain ⟨c, k, r⟩ := a
  simp only at h1 h2
  simp [resolve, aliasAssigns, Fn.binds, excluded, Fn.paramsFor, bindAll, bind, h1, h2]

/-- C114 violated: a value cannot be assigned to an alias of its type. -/
theorem assign_value_violated (a : Arg) (h : a.cls = .value) : resolve aliasAssigns [a] = .noMatch := by
  obtain ⟨c, k, r⟩ := a
  simp only at h
  subst h
  cases k <;> cases r <;> decide

/-- C114 violated: nor can an alias: `const` variables are refused, and all others are handed to the assignment of the
value, as if they were something to be assigned to a value. -/
theorem assign_alias_violated (a : Arg) (h : a.cls = .self) :
    resolve aliasAssigns [a] = if a.isConst = true ∧ a.rvalue = false then .deleted else .calls .forward := by
  obtain ⟨c, k, r⟩ := a
  simp only at h
  subst h
  cases k <;> cases r <;> decide

/-! ### The hypotheses are met -/

/-- A variable of the class, and the classes with none, one and three parameters. -/
example : (construct (memberCtors 0) .direct [⟨.self, false, false⟩], construct (memberCtors 1) .copy [⟨.self, false, false⟩],
    construct (memberCtors 3) .direct [⟨.self, false, false⟩], construct (memberCtors 1) .direct [⟨.self, false, false⟩])
    = (.calls .copy, .calls .copy, .calls .copy, .calls .forward) := by decide

example : ¬ IsCopy [⟨.self, false, false⟩, ⟨.other 3, true, false⟩] ∧ ¬ IsCopy [⟨.value, false, true⟩] := by decide

end Nbdl.Alias
