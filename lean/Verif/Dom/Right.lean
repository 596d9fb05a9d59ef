import Verif.Dom.Exact
/-!
# When updates are right (C48)
-/
namespace Nbdl.Dom
open Spec

variable {S : Type}

/-- C48, exactly, for specifications and states for which rendering works: after the last update the element shows
what a rendering of the last state would, and has its attributes and classes, just if for every path that is shown
the last value it led to is the present one, where a path that leads nowhere stands for no text and for an attribute
or class that is not there. -/
theorem update_right_iff (x : Item S) (s0 : S) (ss : List S) (s : S) (h : Dom) (p : Nat) (hs : Shape x)
    (hr : ∀ s' ∈ s0 :: (ss ++ [s]), InRange s' x) (hp : Room h p x) :
    ∃ h1 m1 h2 m2 ids, render s0 h p x = .ok (h1, m1) ∧ updates h1 m1 (ss ++ [s]) = .ok (h2, m2) ∧
      (h2.node p).children = (h.node p).children ++ ids ∧
      (ShowsAll h2 (trees s x) ids ∧ SetsOnly h h2 p s x ↔ Current (s, ss.reverse ++ [s0]) x) := by
  obtain ⟨h1, m1, h2, m2, ids, e1, e2, hc, hsh, -, -, -, -, hset⟩ := update_shows_partial x s0 ss s h p hs hr hp
  refine ⟨h1, m1, h2, m2, ids, e1, e2, hc, fun hright => ?_, fun hcur => ?_⟩
  · have ea : rememberAll [x] = [remember x] := by rw [rememberAll, rememberAll]
    have hs1 : ∀ (n : Text) (o : S × List S) (y : Item (S × List S)), attrOf o n [y] = attrBy o n y := fun n o y => by
      rw [attrOf, attrOf, Option.none_or]
    have hs2 : ∀ (n : Text) (t : S) (y : Item S), attrOf t n [y] = attrBy t n y := fun n t y => by
      rw [attrOf, attrOf, Option.none_or]
    have hs3 : ∀ (n : Text) (o : S × List S) (y : Item (S × List S)), classOf o n [y] = classBy o n y := fun n o y => by
      rw [classOf_cons]; exact Bool.or_false _
    have hs4 : ∀ (n : Text) (t : S) (y : Item S), classOf t n [y] = classBy t n y := fun n t y => by
      rw [classOf_cons]; exact Bool.or_false _
    refine current_of x hs (showsAll_unique _ _ _ hsh hright.1) (fun n hn => ?_) fun n hn => ?_
    · have a := hset.1 n
      have b := hright.2.1 n
      rw [← ea, attrNames_remember, if_pos hn, ea, hs1] at a
      rw [if_pos hn, hs2] at b
      exact a.symm.trans b
    · have a := hset.2 n
      have b := hright.2.2 n
      rw [← ea, classNames_remember, if_pos hn, ea, hs3] at a
      rw [if_pos hn, hs4] at b
      exact a.symm.trans b
  · rw [trees_current x hcur] at hsh
    exact ⟨hsh, sets_current hcur hset⟩

/-- A text that is hidden while its path leads somewhere remembers it: shown again, it is not what a rendering of the
last state would show. -/
def secret : Item (Bool × Option Text) :=
  .branch (fun s => some (if s.1 then 0 else 1)) [.text (.path fun s => s.2), .text (.const ['-'])]

example : Shape secret ∧ (∀ s, InRange s secret) ∧ Room doc0 0 secret := by
  refine ⟨by simp [secret, Shape, ShapeAll, OneNode], fun s => ?_, by decide, by simp [doc0], ?_, by simp [secret, attrNames],
    by simp [secret, classNames]⟩
  · simp only [secret, InRange, InRangeAll, and_true]
    exact ⟨_, rfl, by split <;> simp⟩
  · intro h; exact h.elim
example : ¬ Current ((true, none), [(false, some ['a']), (false, none)]) secret := by
  simp [secret, Current, CurrentAt, CurrentText, lastOf]
example : Current ((true, none), [(false, some []), (false, none)]) secret := by
  simp [secret, Current, CurrentAt, CurrentText, lastOf]
example : lookAt 0 (rerender secret (false, none) [(false, some ['a']), (true, none)]) = .seen [(8, .text ['a'])] := by
  decide +kernel
example : trees ((true, none), [(false, some ['a']), (false, none)]) (remember secret) = [.text ['a']] := by
  simp [secret, remember, rememberAll, rememberText, trees, treesAt, textNodes, lastOf]

/-- C48 does not hold when a path leads nowhere any more: a text that was hidden when its path led somewhere is shown
with what it led to then. -/
theorem hidden_remembers_violated :
    lookAt 0 (rerender secret (false, none) [(false, some ['a']), (true, none)]) = .seen [(8, .text ['a'])]
    ∧ lookAt 0 (rerender secret (true, none) []) = .seen [(8, .text [])] := by
  exact ⟨by decide +kernel, by decide +kernel⟩

end Nbdl.Dom
