import Verif.Tiles.Props
/-!
# Exactly which moves do what they should
-/
namespace Nbdl.Tiles
open Spec

/-- C53, exactly: a move swaps the chosen tile with an empty neighbour and reports it, or changes nothing if
there is none, unless it is the tile in the lower left corner, without an empty neighbour, and the cell after
the board is zero or does not exist. -/
theorem move_exact {g : Game} {w h : Nat} (l : Legal g w h) (i : Nat) (hi : i < h * w) :
    ((∃ j, CanMove g w h i j ∧ applyGameMove g i = .ok (true, { g with board := swap g.board i j }))
      ∨ ((∀ j, ¬ CanMove g w h i j) ∧ applyGameMove g i = .ok (false, g)))
    ↔ ¬ (i + w = h * w ∧ (∀ j, ¬ CanMove g w h i j) ∧ tile g i ≠ 0#8
        ∧ (i + w < 64 → tile g (i + w) = 0#8)) := by
  constructor
  · rintro hs ⟨h1, h2, h3, h4⟩
    have hc := corner_violated l i h1 h2 h3 h4
    rcases hs with ⟨j, hj, -⟩ | ⟨-, hs⟩
    · exact h2 j hj
    · rw [hs] at hc
      split at hc <;> simp at hc
  · intro hn
    apply move_spec_partial l i hi
    intro h1
    apply Classical.byContradiction
    intro h2
    simp only [not_or] at h2
    obtain ⟨h2, h3, h4⟩ := h2
    refine hn ⟨h1, fun j hj => h2 ⟨j, hj⟩, h3, fun h5 => ?_⟩
    apply Classical.byContradiction
    intro h6
    exact h4 ⟨h5, h6⟩

example : applyGameMove initial 7 = .ok (true, { initial with board := swap initial.board 7 4 })
    ∧ applyGameMove initial 0 = .ok (false, initial) := by decide +kernel

end Nbdl.Tiles
