import Verif.Tiles.Model
/-!
C53: moving tiles.
-/
namespace Nbdl.Tiles
namespace Spec

/-- A game on a `w` by `h` board that fits in the array. -/
structure Legal (g : Game) (w h : Nat) : Prop where
  width : g.width = w
  height : g.height = h
  pos : 0 < w
  fits : h * w ≤ 64
  size : g.board.length = 64

/-- The tile at a place of the board. -/
def tile (g : Game) (i : Nat) : Byte := g.board.getD i 0#8

/-- Two places of the board are neighbours: side by side in one row, or one above the other. -/
def Adjacent (w i j : Nat) : Prop :=
  (i / w = j / w ∧ (j = i + 1 ∨ i = j + 1)) ∨ (i % w = j % w ∧ (j / w = i / w + 1 ∨ i / w = j / w + 1))

/-- The tile at `i` can move to `j`. -/
def CanMove (g : Game) (w h i j : Nat) : Prop :=
  j < h * w ∧ Adjacent w i j ∧ tile g j = 0#8 ∧ tile g i ≠ 0#8

/-- Exactly one place is empty. -/
def OneEmpty (g : Game) (w h : Nat) : Prop :=
  ∃ k < h * w, tile g k = 0#8 ∧ ∀ k' < h * w, tile g k' = 0#8 → k' = k

end Spec
open Spec

theorem adjacent_cases (w i j : Nat) (hw : 0 < w) : Adjacent w i j ↔
    (i % w ≠ 0 ∧ i = j + 1) ∨ (i % w ≠ w - 1 ∧ j = i + 1) ∨ (j + w = i) ∨ (j = i + w) := by
  have di := Nat.div_add_mod i w
  have dj := Nat.div_add_mod j w
  have mi := Nat.mod_lt i hw
  have mj := Nat.mod_lt j hw
  have succ : ∀ k, k % w ≠ w - 1 → (k + 1) / w = k / w := by
    intro k hk
    have dk := Nat.div_add_mod k w
    have mk := Nat.mod_lt k hw
    rw [Nat.div_eq_of_lt_le]
    · rw [Nat.mul_comm]; omega
    · rw [Nat.succ_mul, Nat.mul_comm]; omega
  have succ' : ∀ k, (k + 1) / w = k / w → k % w ≠ w - 1 := by
    intro k hk hm
    have dk := Nat.div_add_mod k w
    have dk' := Nat.div_add_mod (k + 1) w
    have mk' := Nat.mod_lt (k + 1) hw
    rw [hk] at dk'
    omega
  have succ0 : ∀ k, (k + 1) % w ≠ 0 → k % w ≠ w - 1 := by
    intro k hk hm
    apply hk
    rw [Nat.add_mod, hm]
    have : (w - 1 + 1 % w) % w = 0 := by
      by_cases h1 : w = 1
      · subst h1; rfl
      · rw [Nat.mod_eq_of_lt (show 1 < w by omega), Nat.sub_add_cancel hw, Nat.mod_self]
    exact this
  have succ0' : ∀ k, k % w ≠ w - 1 → (k + 1) % w ≠ 0 := by
    intro k hk
    have dk := Nat.div_add_mod k w
    have dk' := Nat.div_add_mod (k + 1) w
    have mk := Nat.mod_lt k hw
    rw [succ k hk] at dk'
    omega
  unfold Adjacent
  constructor
  · rintro (⟨h, rfl | rfl⟩ | ⟨h, h' | h'⟩)
    · exact .inr (.inl ⟨succ' i h.symm, rfl⟩)
    · exact .inl ⟨succ0' j (succ' j h), rfl⟩
    · right; right; right
      rw [h', Nat.mul_add] at dj; omega
    · right; right; left
      rw [h', Nat.mul_add] at di; omega
  · rintro (⟨h, rfl⟩ | ⟨h, rfl⟩ | h | h)
    · exact .inl ⟨succ j (succ0 j h), .inr rfl⟩
    · exact .inl ⟨(succ i h).symm, .inl rfl⟩
    · subst h
      right
      rw [Nat.add_mod_right, Nat.add_div_right _ hw]
      exact ⟨rfl, .inr rfl⟩
    · subst h
      right
      rw [Nat.add_mod_right, Nat.add_div_right _ hw]
      exact ⟨rfl, .inl rfl⟩

theorem cell_ok (g : Game) (k : Nat) (h : k < 64) : cell g k = .ok (tile g k) := by
  unfold cell
  rw [if_pos ⟨by omega, by omega⟩]; rfl

theorem emptyIf_ok (g : Game) (c : Bool) (k : Nat) (x : Int) (hx : c = true → x = k) (h : c = true → k < 64) :
    emptyIf g c x = .ok (c && decide (tile g k = 0#8)) := by
  unfold emptyIf
  cases c with
  | false => rfl
  | true => rw [if_pos rfl, hx rfl, cell_ok g k (h rfl)]; rfl

theorem area_ok {g : Game} {w h : Nat} (l : Legal g w h) : area g = .ok ((h * w : Nat) : Int) := by
  unfold area
  have h1 : g.height * g.width = ((h * w : Nat) : Int) := by rw [l.width, l.height]; simp
  rw [h1, if_pos]
  have := l.fits
  omega

theorem minus_ok (a b : Int) (h : -2 ^ 31 ≤ a - b ∧ a - b < 2 ^ 31) : minus a b = .ok (a - b) := if_pos h

theorem toIndex_ok (k : Nat) (h : k < 256) : toIndex k = k := by unfold toIndex; omega

/-- The place a tile moves to, as the code finds it: left, right, above, below. -/
theorem swapIndex_spec {g : Game} {w h : Nat} (l : Legal g w h) (i : Nat) (hi : i < h * w)
    (hb : i + w = h * w → (∃ j, CanMove g w h i j) ∨ tile g i = 0#8 ∨ (i + w < 64 ∧ tile g (i + w) ≠ 0#8)) :
    ∃ k, getTileSwapIndex g i = .ok k ∧ ((k = i ∧ ∀ j, ¬ CanMove g w h i j) ∨ (k ≠ i ∧ CanMove g w h i k)) := by
  have hf := l.fits
  have hw := l.pos
  have hadj := fun j => adjacent_cases w i j hw
  have hrows : i + 1 ≤ h * w := hi
  have hw64 : w ≤ 64 := by
    have h1 : 0 < h := by
      rcases Nat.eq_zero_or_pos h with rfl | h1
      · rw [Nat.zero_mul] at hi; omega
      · exact h1
    have := Nat.le_mul_of_pos_left w h1
    omega
  unfold getTileSwapIndex
  rw [cell_ok g i (by omega)]
  simp only [Cpp.bind]
  by_cases h0 : tile g i = 0#8
  · rw [if_pos h0]
    exact ⟨i, rfl, .inl ⟨rfl, fun j hj => hj.2.2.2 h0⟩⟩
  rw [if_neg h0, if_neg (by rw [l.width]; omega)]
  have hmod : Int.tmod i g.width = ((i % w : Nat) : Int) := by rw [l.width, Int.ofNat_tmod]
  have hml := Nat.mod_lt i hw
  have hmi : i % w ≤ i := Nat.mod_le i w
  -- left
  rw [emptyIf_ok g _ (i - 1) (i - 1) (fun hc => by
      rw [hmod] at hc; simp only [ne_eq, decide_eq_true_eq] at hc
      have : i % w ≠ 0 := fun h => hc (by rw [h]; rfl)
      omega) (by omega)]
  simp only
  by_cases hleft : i % w ≠ 0 ∧ tile g (i - 1) = 0#8
  · have hi0 : i ≠ 0 := fun h => hleft.1 (by rw [h]; exact Nat.zero_mod w)
    rw [if_pos (by rw [hmod]; simp only [ne_eq, Bool.and_eq_true, decide_eq_true_eq]; exact ⟨by omega, hleft.2⟩)]
    refine ⟨i - 1, ?_, .inr ⟨by omega, by omega, (hadj _).2 (.inl ⟨hleft.1, by omega⟩), hleft.2, h0⟩⟩
    rw [show ((i : Int) - 1) = ((i - 1 : Nat) : Int) by omega, toIndex_ok _ (by omega)]
  rw [if_neg (by
    rw [hmod]; simp only [ne_eq, Bool.and_eq_true, decide_eq_true_eq]
    rintro ⟨h1, h2⟩; exact hleft ⟨by omega, h2⟩)]
  -- right
  have hright_in : i % w ≠ w - 1 → i + 1 < h * w := by
    intro hne
    have d := Nat.div_add_mod i w
    have hq : i / w < h := by
      rw [Nat.div_lt_iff_lt_mul hw]; exact hi
    have : w * (i / w) + w ≤ h * w := by
      rw [← Nat.mul_succ, Nat.mul_comm h w]
      exact Nat.mul_le_mul_left w hq
    omega
  rw [minus_ok g.width 1 (by rw [l.width]; omega)]
  simp only
  rw [emptyIf_ok g _ (i + 1) (i + 1) (fun _ => by omega) (fun hc => by
      rw [hmod, l.width] at hc; simp only [ne_eq, decide_eq_true_eq] at hc
      have := hright_in (by omega)
      omega)]
  simp only
  by_cases hright : i % w ≠ w - 1 ∧ tile g (i + 1) = 0#8
  · have hin := hright_in hright.1
    rw [if_pos (by
      rw [hmod, l.width]; simp only [ne_eq, Bool.and_eq_true, decide_eq_true_eq]; exact ⟨by omega, hright.2⟩)]
    refine ⟨i + 1, ?_, .inr ⟨by omega, hin, (hadj _).2 (.inr (.inl ⟨hright.1, rfl⟩)), hright.2, h0⟩⟩
    rw [show ((i : Int) + 1) = ((i + 1 : Nat) : Int) by omega, toIndex_ok _ (by omega)]
  rw [if_neg (by
    rw [hmod, l.width]; simp only [ne_eq, Bool.and_eq_true, decide_eq_true_eq]
    rintro ⟨h1, h2⟩; exact hright ⟨by omega, h2⟩)]
  -- above
  rw [emptyIf_ok g _ (i - w) (i - g.width) (fun hc => by
      rw [l.width] at hc ⊢; simp only [decide_eq_true_eq] at hc; omega) (by omega)]
  simp only
  by_cases habove : w ≤ i ∧ tile g (i - w) = 0#8
  · rw [if_pos (by rw [l.width]; simp only [Bool.and_eq_true, decide_eq_true_eq]; exact ⟨by omega, habove.2⟩)]
    refine ⟨i - w, ?_, .inr ⟨by omega, by omega, (hadj _).2 (.inr (.inr (.inl (by omega)))), habove.2, h0⟩⟩
    rw [l.width, show ((i : Int) - (w : Int)) = ((i - w : Nat) : Int) by omega, toIndex_ok _ (by omega)]
  rw [if_neg (by
    rw [l.width]; simp only [Bool.and_eq_true, decide_eq_true_eq]
    rintro ⟨h1, h2⟩; exact habove ⟨by omega, h2⟩)]
  -- below
  rw [area_ok l]
  simp only
  rw [minus_ok _ g.width (by rw [l.width]; omega)]
  simp only
  have hb' : i + w = h * w → i + w < 64 ∧ tile g (i + w) ≠ 0#8 := by
    intro he
    rcases hb he with ⟨j, hj⟩ | hz | hn
    · exfalso
      obtain ⟨hj1, hj2, hj3, -⟩ := hj
      rcases (hadj j).1 hj2 with ⟨a, rfl⟩ | ⟨a, rfl⟩ | rfl | rfl
      · exact hleft ⟨a, by rw [Nat.add_sub_cancel]; exact hj3⟩
      · exact hright ⟨a, hj3⟩
      · exact habove ⟨by omega, by rw [Nat.add_sub_cancel]; exact hj3⟩
      · omega
    · exact absurd hz h0
    · exact hn
  rw [emptyIf_ok g _ (i + w) (i + g.width) (fun _ => by rw [l.width]; omega) (fun hc => by
      rw [l.width] at hc; simp only [decide_eq_true_eq] at hc
      by_cases he : i + w = h * w
      · exact (hb' he).1
      · omega)]
  simp only
  by_cases hbelow : i + w < h * w ∧ tile g (i + w) = 0#8
  · rw [if_pos (by rw [l.width]; simp only [Bool.and_eq_true, decide_eq_true_eq]; exact ⟨by omega, hbelow.2⟩)]
    refine ⟨i + w, ?_, .inr ⟨by omega, hbelow.1, (hadj _).2 (.inr (.inr (.inr rfl))), hbelow.2, h0⟩⟩
    rw [l.width, show ((i : Int) + (w : Int)) = ((i + w : Nat) : Int) by omega, toIndex_ok _ (by omega)]
  rw [if_neg (by
    rw [l.width]; simp only [Bool.and_eq_true, decide_eq_true_eq]
    rintro ⟨h1, h2⟩
    by_cases he : i + w = h * w
    · exact (hb' he).2 h2
    · exact hbelow ⟨by omega, h2⟩)]
  refine ⟨i, rfl, .inl ⟨rfl, fun j hj => ?_⟩⟩
  obtain ⟨hj1, hj2, hj3, -⟩ := hj
  rcases (hadj j).1 hj2 with ⟨a, rfl⟩ | ⟨a, rfl⟩ | rfl | rfl
  · exact hleft ⟨a, by rw [Nat.add_sub_cancel]; exact hj3⟩
  · exact hright ⟨a, hj3⟩
  · exact habove ⟨by omega, by rw [Nat.add_sub_cancel]; exact hj3⟩
  · exact hbelow ⟨hj1, hj3⟩

/-- C53, proved part: a move swaps the chosen tile with an empty neighbour if there is one and then reports
true; otherwise it changes nothing and reports false.  Missing: the first place of the last row, when it has
no empty neighbour and the cell after the board is zero or does not exist. -/
theorem move_spec_partial {g : Game} {w h : Nat} (l : Legal g w h) (i : Nat) (hi : i < h * w)
    (hb : i + w = h * w → (∃ j, CanMove g w h i j) ∨ tile g i = 0#8 ∨ (i + w < 64 ∧ tile g (i + w) ≠ 0#8)) :
    (∃ j, CanMove g w h i j ∧ applyGameMove g i = .ok (true, { g with board := swap g.board i j }))
      ∨ ((∀ j, ¬ CanMove g w h i j) ∧ applyGameMove g i = .ok (false, g)) := by
  obtain ⟨k, h1, h2⟩ := swapIndex_spec l i hi hb
  unfold applyGameMove
  rw [area_ok l]
  simp only [Cpp.bind]
  rw [if_neg (by omega), h1]
  simp only
  rcases h2 with ⟨rfl, h2⟩ | ⟨hne, h2⟩
  · right
    exact ⟨h2, by rw [if_neg (by simp)]⟩
  · left
    exact ⟨k, h2, by rw [if_pos hne]⟩

/-- C53: a move outside of the board does nothing. -/
theorem move_outside {g : Game} {w h : Nat} (l : Legal g w h) (i : Nat) (hi : h * w ≤ i) :
    applyGameMove g i = .ok (false, g) := by
  unfold applyGameMove
  rw [area_ok l]
  simp only [Cpp.bind]
  rw [if_pos (by omega)]

theorem swap_tile (g : Game) (i j k : Nat) (hi : i < g.board.length) (hj : j < g.board.length) :
    tile { g with board := swap g.board i j } k
      = if k = j then tile g i else if k = i then tile g j else tile g k := by
  unfold tile swap
  simp only [List.getD_eq_getElem?_getD, List.getElem?_set, List.length_set]
  by_cases h1 : j = k
  · subst h1; simp [hj]
  · by_cases h2 : i = k
    · subst h2; simp [h1, Ne.symm h1, hi]
    · simp [h1, h2, Ne.symm h1, Ne.symm h2]

/-- C53: the tiles of the board stay the same, and nothing outside of the board changes. -/
theorem move_permutes_partial {g : Game} {w h : Nat} (l : Legal g w h) (i : Nat) (hi : i < h * w)
    (hb : i + w = h * w → (∃ j, CanMove g w h i j) ∨ tile g i = 0#8 ∨ (i + w < 64 ∧ tile g (i + w) ≠ 0#8)) :
    ∃ r g', applyGameMove g i = .ok (r, g') ∧ Legal g' w h
      ∧ (g'.board.take (h * w)).Perm (g.board.take (h * w)) ∧ g'.board.drop (h * w) = g.board.drop (h * w) := by
  rcases move_spec_partial l i hi hb with ⟨j, hj, he⟩ | ⟨-, he⟩
  · refine ⟨_, _, he, ⟨l.width, l.height, l.pos, l.fits, by simp [swap, l.size]⟩, ?_, ?_⟩
    · have hs := l.size
      have hf := l.fits
      have hj1 := hj.1
      have hi' : i < (g.board.take (h * w)).length := by simp; omega
      have hj' : j < (g.board.take (h * w)).length := by simp; omega
      have := List.set_set_perm (as := g.board.take (h * w)) hi' hj'
      simp only [swap, List.take_set]
      have e1 : g.board.getD j 0#8 = (g.board.take (h * w))[j] := by
        rw [List.getD_eq_getElem?_getD, List.getElem_take, List.getElem?_eq_getElem (by omega)]; rfl
      have e2 : g.board.getD i 0#8 = (g.board.take (h * w))[i] := by
        rw [List.getD_eq_getElem?_getD, List.getElem_take, List.getElem?_eq_getElem (by omega)]; rfl
      rw [e1, e2]
      exact this
    · simp only [swap, List.drop_set]
      rw [if_pos (by have := hj.1; omega), if_pos hi]
  · exact ⟨_, _, he, l, .refl _, rfl⟩

/-- C53: a legal game with one empty place keeps one empty place. -/
theorem move_one_empty_partial {g : Game} {w h : Nat} (l : Legal g w h) (h1 : OneEmpty g w h) (i : Nat)
    (hi : i < h * w)
    (hb : i + w = h * w → (∃ j, CanMove g w h i j) ∨ tile g i = 0#8 ∨ (i + w < 64 ∧ tile g (i + w) ≠ 0#8)) :
    ∃ r g', applyGameMove g i = .ok (r, g') ∧ OneEmpty g' w h := by
  rcases move_spec_partial l i hi hb with ⟨j, hj, he⟩ | ⟨-, he⟩
  · refine ⟨_, _, he, i, hi, ?_, ?_⟩
    · have hs := l.size
      have hf := l.fits
      have hj1 := hj.1
      rw [swap_tile g i j i (by omega) (by omega)]
      split
      · rename_i h; subst h; exact hj.2.2.1
      · rw [if_pos rfl]; exact hj.2.2.1
    · intro k hk hz
      have hs := l.size
      have hf := l.fits
      have hj1 := hj.1
      rw [swap_tile g i j k (by omega) (by omega)] at hz
      obtain ⟨e, he1, he2, he3⟩ := h1
      split at hz
      · exact absurd hz hj.2.2.2
      · split at hz
        · assumption
        · rename_i hkj _
          exact absurd ((he3 k hk hz).trans (he3 j hj.1 hj.2.2.1).symm) hkj
  · exact ⟨_, _, he, h1⟩

theorem adjacent_symm {w i j : Nat} (h : Adjacent w i j) : Adjacent w j i := by
  rcases h with ⟨h1, h2 | h2⟩ | ⟨h1, h2 | h2⟩
  · exact .inl ⟨h1.symm, .inr h2⟩
  · exact .inl ⟨h1.symm, .inl h2⟩
  · exact .inr ⟨h1.symm, .inr h2⟩
  · exact .inr ⟨h1.symm, .inl h2⟩

theorem swap_swap (b : List Byte) (i j : Nat) (hi : i < b.length) (hj : j < b.length) :
    swap (swap b i j) j i = b := by
  apply List.ext_getElem?
  intro k
  unfold swap
  simp only [List.getD_eq_getElem?_getD, List.getElem?_set, List.length_set]
  by_cases h1 : i = k
  · subst h1
    by_cases h2 : j = i
    · subst h2; simp [hi]
    · simp [h2, Ne.symm h2, hi, hj]
  · by_cases h2 : j = k
    · subst h2; simp [h1, Ne.symm h1, hi, hj]
    · simp [h1, h2]

/-- C53: with one empty place, moving the tile back from where it went restores the game.  (Here nothing is
missing: the tile has an empty neighbour.) -/
theorem move_undo {g : Game} {w h : Nat} (l : Legal g w h) (h1 : OneEmpty g w h) (i j : Nat) (hi : i < h * w)
    (hj : CanMove g w h i j) :
    ∃ g', applyGameMove g i = .ok (true, g') ∧ g'.board = swap g.board i j ∧ applyGameMove g' j = .ok (true, g) := by
  obtain ⟨e, he1, he2, he3⟩ := h1
  have hs := l.size
  have hf := l.fits
  have hj1 := hj.1
  have hne : i ≠ j := by rintro rfl; exact hj.2.2.2 hj.2.2.1
  rcases move_spec_partial l i hi (fun _ => .inl ⟨j, hj⟩) with ⟨j', hj', he⟩ | ⟨hn, -⟩
  · have hjj : j' = j := (he3 j' hj'.1 hj'.2.2.1).trans (he3 j hj.1 hj.2.2.1).symm
    subst hjj
    refine ⟨_, he, rfl, ?_⟩
    have l' : Legal { g with board := swap g.board i j' } w h :=
      ⟨l.width, l.height, l.pos, l.fits, by simp [swap, l.size]⟩
    have ht := fun k => swap_tile g i j' k (by omega) (by omega)
    have hback : CanMove { g with board := swap g.board i j' } w h j' i := by
      refine ⟨hi, adjacent_symm hj.2.1, ?_, ?_⟩
      · rw [ht, if_neg hne, if_pos rfl]; exact hj.2.2.1
      · rw [ht, if_pos rfl]; exact hj.2.2.2
    rcases move_spec_partial l' j' hj1 (fun _ => .inl ⟨i, hback⟩) with ⟨k, hk, hek⟩ | ⟨hn, -⟩
    · have hki : k = i := by
        have hz := hk.2.2.1
        rw [ht] at hz
        split at hz
        · exact absurd hz hj.2.2.2
        · split at hz
          · assumption
          · rename_i hkj _
            exact absurd ((he3 k hk.1 hz).trans (he3 j' hj1 hj.2.2.1).symm) hkj
      subst hki
      rw [hek]
      simp only
      rw [swap_swap g.board k j' (by omega) (by omega)]
    · exact absurd hback (hn i)
  · exact absurd hj (hn j)

/-- The game of the example is legal, and its moves are covered except for the one of place 6. -/
theorem initial_legal : Legal initial 3 3 :=
  ⟨rfl, rfl, by decide, by decide, by decide⟩
example : OneEmpty initial 3 3 := by
  refine ⟨4, by decide, by decide, ?_⟩
  decide +kernel
example : CanMove initial 3 3 1 4 := by
  refine ⟨by decide, .inr (by decide), by decide, by decide⟩
example : applyGameMove initial 1 = .ok (true, { initial with board := swap initial.board 1 4 }) := by
  have h := move_spec_partial initial_legal 1 (by decide) (by omega)
  rcases h with ⟨j, hj, he⟩ | ⟨hn, -⟩
  · have : j = 4 := by
      have : ∀ k < 9, tile initial k = 0#8 → k = 4 := by decide +kernel
      exact this j hj.1 hj.2.2.1
    subst this; exact he
  · exact absurd ⟨by decide, .inr (by decide), by decide, by decide⟩ (hn 4)

/-- C53 violated, and exactly how, in all that `move_spec_partial` leaves out: the tile in the lower left corner
that has no empty neighbour is put into the cell after the board if that is zero, and if the board fills the
array the array is read outside of its bounds. -/
theorem corner_violated {g : Game} {w h : Nat} (l : Legal g w h) (i : Nat) (hi : i + w = h * w)
    (hn : ∀ j, ¬ CanMove g w h i j) (h0 : tile g i ≠ 0#8) (hz : i + w < 64 → tile g (i + w) = 0#8) :
    applyGameMove g i =
      if i + w < 64 then .ok (true, { g with board := swap g.board i (i + w) }) else .ub := by
  have hf := l.fits
  have hw := l.pos
  have hadj := fun j => adjacent_cases w i j hw
  have hi0 : i % w = 0 := by
    have : i = (h - 1) * w := by rw [Nat.sub_mul]; omega
    rw [this]; exact Nat.mul_mod_left _ _
  have hmod : Int.tmod i g.width = 0 := by rw [l.width, ← Int.ofNat_tmod, hi0]; rfl
  unfold applyGameMove
  rw [area_ok l]
  simp only [Cpp.bind]
  rw [if_neg (by omega)]
  unfold getTileSwapIndex
  rw [cell_ok g i (by omega)]
  simp only [Cpp.bind]
  rw [if_neg h0, if_neg (by rw [l.width]; omega)]
  have e1 : emptyIf g (decide (Int.tmod i g.width ≠ 0)) (i - 1) = .ok false := by
    rw [hmod]; rfl
  rw [e1]
  simp only [Bool.false_eq_true, if_false]
  rw [minus_ok g.width 1 (by rw [l.width]; omega)]
  simp only
  have e2 : emptyIf g (decide (Int.tmod i g.width ≠ g.width - 1)) (i + 1) = .ok false := by
    rw [hmod]
    by_cases h1 : w = 1
    · rw [l.width, h1]; rfl
    · rw [emptyIf_ok g _ (i + 1) (i + 1) (fun _ => by omega) (fun _ => by omega)]
      have : ¬ tile g (i + 1) = 0#8 := fun hz =>
        hn (i + 1) ⟨by omega, (hadj _).2 (.inr (.inl ⟨by omega, rfl⟩)), hz, h0⟩
      simp [this]
  rw [e2]
  simp only [Bool.false_eq_true, if_false]
  have e3 : emptyIf g (decide ((i : Int) ≥ g.width)) (i - g.width) = .ok false := by
    rw [emptyIf_ok g _ (i - w) (i - g.width) (fun hc => by
      rw [l.width] at hc ⊢; simp only [decide_eq_true_eq] at hc; omega) (by omega)]
    by_cases hc : w ≤ i
    · have : ¬ tile g (i - w) = 0#8 := fun hz =>
        hn (i - w) ⟨by omega, (hadj _).2 (.inr (.inr (.inl (by omega)))), hz, h0⟩
      simp [this]
    · rw [l.width]; simp; omega
  rw [e3]
  simp only [Bool.false_eq_true, if_false]
  rw [area_ok l]
  simp only
  rw [minus_ok _ g.width (by rw [l.width]; omega)]
  simp only
  have hc : decide ((i : Int) ≤ ((h * w : Nat) : Int) - g.width) = true := by
    rw [l.width]; simp only [decide_eq_true_eq]; omega
  rw [hc]
  by_cases h64 : i + w < 64
  · rw [emptyIf_ok g _ (i + w) (i + g.width) (fun _ => by rw [l.width]; omega) (fun _ => h64), hz h64]
    simp only [Bool.true_and, decide_true, if_true]
    rw [l.width, show ((i : Int) + (w : Int)) = ((i + w : Nat) : Int) by omega, toIndex_ok _ (by omega)]
    rw [if_pos (by omega), if_pos h64]
  · have : emptyIf g true (i + g.width) = .ub := by
      rw [emptyIf, if_pos rfl, cell, l.width, if_neg (by omega)]; rfl
    rw [this, if_neg h64]

/-- C53 violated: in the game the example starts with, moving the tile in the lower left corner, which has no
empty neighbour, puts it into a cell outside of the board and leaves two empty places. -/
theorem tile_leaves_board_violated :
    (∀ j, ¬ CanMove initial 3 3 6 j)
      ∧ applyGameMove initial 6 = .ok (true, { initial with board := swap initial.board 6 9 })
      ∧ tile { initial with board := swap initial.board 6 9 } 6 = 0#8
      ∧ tile { initial with board := swap initial.board 6 9 } 4 = 0#8 := by
  refine ⟨?_, ?_, by decide +kernel, by decide +kernel⟩
  · intro j hj
    have : ∀ k < 9, tile initial k = 0#8 → k = 4 := by decide +kernel
    have : j = 4 := this j hj.1 hj.2.2.1
    subst this
    rcases (adjacent_cases 3 6 4 (by decide)).1 hj.2.1 with h | h | h | h <;> omega
  · have h1 : getTileSwapIndex initial 6 = .ok 9 := by decide +kernel
    unfold applyGameMove
    rw [area_ok initial_legal]
    simp only [Cpp.bind]
    rw [if_neg (by omega), h1]
    simp

/-- C53 violated: on a full 8 by 8 board the same move reads outside of the array. -/
theorem reads_outside_violated :
    applyGameMove { width := 8, height := 8, board := 0#8 :: List.replicate 63 1#8 } 56 = .ub := by
  have h1 : getTileSwapIndex { width := 8, height := 8, board := 0#8 :: List.replicate 63 1#8 } 56 = .ub := by
    decide +kernel
  unfold applyGameMove
  rw [area_ok (w := 8) (h := 8) ⟨rfl, rfl, by decide, by decide, by simp⟩]
  simp only [Cpp.bind]
  rw [if_neg (by omega), h1]

end Nbdl.Tiles
