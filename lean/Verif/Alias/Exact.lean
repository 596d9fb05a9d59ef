import Verif.Alias.Props
/-!
# When an object of the class is a copy (C114)
-/
namespace Nbdl.Alias

/-- C114: an alias made of an alias is a copy of it exactly if it is not made, with parentheses, of a `const` rvalue. -/
theorem alias_copy_exact (i : Init) (a : Arg) (hc : a.cls = .self) :
    construct aliasCtors i [a] = .calls (if a.expires then .move else .copy) ↔
      i = .copy ∨ ¬ (a.isConst = true ∧ a.rvalue = true) := by
  obtain ⟨c, k, r⟩ := a
  simp only at hc
  subst hc
  cases i <;> cases k <;> cases r <;> decide

/-- C114: an object of a generated class with members, made of another one, is a copy exactly if the class does not have
exactly one parameter, or the object is made with `=`, or the other one is a `const` variable or a non-`const` rvalue. -/
theorem members_copy_exact (n : Nat) (i : Init) (a : Arg) (hc : a.cls = .self) :
    construct (memberCtors n) i [a] = .calls (if a.expires then .move else .copy) ↔
      n ≠ 1 ∨ i = .copy ∨ a.isConst ≠ a.rvalue := by
  constructor
  · intro h
    by_cases hn : n = 1
    · subst hn
      obtain ⟨c, k, r⟩ := a
      simp only at hc
      subst hc
      revert h
      cases i <;> cases k <;> cases r <;> decide
    · exact Or.inl hn
  · intro h
    refine members_copy_partial n i a hc ?_
    obtain ⟨c, k, r⟩ := a
    revert h
    cases k <;> cases r <;> simp

/-- C114: what is assigned to an alias is handed on to the assignment of the value exactly if it is not a value, and not
a `const` variable that is an alias. -/
theorem assign_exact (a : Arg) : resolve aliasAssigns [a] = .calls .forward ↔
    a.cls ≠ .value ∧ ¬ (a.cls = .self ∧ a.isConst = true ∧ a.rvalue = false) := by
  obtain ⟨c, k, r⟩ := a
  cases c with
  | self => cases k <;> cases r <;> decide
  | value => cases k <;> cases r <;> decide
  | base => simp [assign_other_partial]
  | other j => simp [assign_other_partial]

/-- Both happen: variables of classes with one and with two parameters. -/
example : construct (memberCtors 2) .direct [⟨.self, false, false⟩] = .calls .copy
    ∧ construct (memberCtors 1) .direct [⟨.self, false, false⟩] ≠ .calls .copy := by decide

end Nbdl.Alias
