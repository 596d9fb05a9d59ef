import Verif.Tiles.Play
/-!
C137: playing the tiles example.
-/
namespace Nbdl.Tiles
open MapStore (Msg View Payload)
open Context (Config Actor StoreOps)
open Nested (Code Prog Call Task Entry World State run run_add)
open Spec

namespace Spec

/-- `g'` is `g` after the tile at `i` went to `j`. -/
structure Slid (g : Game) (i j : Nat) (g' : Game) : Prop where
  width : g'.width = g.width
  height : g'.height = g.height
  size : g'.board.length = g.board.length
  tiles : ∀ k, tile g' k = if k = j then tile g i else if k = i then tile g j else tile g k

/-- A game as it should go: a tile with an empty neighbour goes there, all other moves do nothing.  `shown`
are the games after each change. -/
inductive Played (w h : Nat) : Game → List Byte → List Game → Game → Prop
  | nil (g) : Played w h g [] [] g
  | slide {g g' g'' i j is shown} : i.toNat < h * w → CanMove g w h i.toNat j → Slid g i.toNat j g' →
      Played w h g' is shown g'' → Played w h g (i :: is) (g' :: shown) g''
  | stay {g g'' i is shown} : (i.toNat < h * w → ∀ j, ¬ CanMove g w h i.toNat j) →
      Played w h g is shown g'' → Played w h g (i :: is) shown g''

/-- What actor `a` is told, and the game it then finds in the store. -/
def told (a : Nat) (log : List (Entry (Cpp Game) Keys Val)) : List (Nat × Keys × Cpp Game) :=
  log.filterMap fun e => match e with
    | .called _ _ (.notify a' t p) st => if a' = a then some (t, p, st 0) else none
    | _ => none

end Spec

/-- The definition gives this context: both path types belong to the producer, which is actor 0, the consumer
is actor 1, and the game listens to the moves, which have no store. -/
example : Def.contextMeta (fun _ => false) definition = some {
    lookup := [(.path [.user 3], 0), (.path [.user 3, .user 3], 0), (.name (.user 0), 0)]
    actorTypes := [.user 1, .user 7]
    actorNames := [.user 0, .user 6]
    stores := [([.user 3], .user 4, .user 2), ([.user 3, .user 3], .nullStore, .user 5)]
    upstream := [⟨.upCreate, [.user 3, .user 3], true, .entity (.user 5)⟩]
    downstream := [⟨.downCreate, [.user 3, .user 3], false, .entity (.user 5)⟩]
    listeners := [([.user 3, .user 3], [[.user 3]])] } := by decide +kernel

/-! ## The rules -/

theorem swap_slid (g : Game) (i j : Nat) (hi : i < g.board.length) (hj : j < g.board.length) :
    Slid g i j { g with board := swap g.board i j } :=
  ⟨rfl, rfl, by simp [swap], fun k => swap_tile g i j k hi hj⟩

/-- The first place of the last row, with no empty neighbour, when the cell after the board is free. -/
theorem swapIndex_corner {g : Game} {w h : Nat} (l : Legal g w h) (i : Nat) (hi : i + w = h * w) (h64 : h * w < 64)
    (h0 : tile g i ≠ 0#8) (hz : tile g (h * w) = 0#8) (hn : ∀ j, ¬ CanMove g w h i j) :
    getTileSwapIndex g i = .ok (h * w) := by
  have hw := l.pos
  have hadj := fun j => adjacent_cases w i j hw
  have hmod : Int.tmod i g.width = ((i % w : Nat) : Int) := by rw [l.width, Int.ofNat_tmod]
  have hmi : i % w = 0 := by
    have h1 : (i + w) % w = 0 := by rw [hi]; exact Nat.mul_mod_left h w
    rwa [Nat.add_mod_right] at h1
  unfold getTileSwapIndex
  rw [cell_ok g i (by omega)]
  simp only [Cpp.bind]
  rw [if_neg h0, if_neg (by rw [l.width]; omega)]
  rw [emptyIf_ok g _ 0 (i - 1) (fun hc => by rw [hmod, hmi] at hc; simp at hc) (by omega)]
  simp only
  rw [if_neg (by rw [hmod, hmi]; simp)]
  rw [minus_ok g.width 1 (by rw [l.width]; omega)]
  simp only
  rw [emptyIf_ok g _ (i + 1) (i + 1) (fun _ => by omega) (fun _ => by omega)]
  simp only
  rw [if_neg (by
    rw [hmod, l.width]; simp only [ne_eq, Bool.and_eq_true, decide_eq_true_eq]
    rintro ⟨h1, h2⟩
    exact hn (i + 1) ⟨by omega, (hadj _).2 (.inr (.inl ⟨by omega, rfl⟩)), h2, h0⟩)]
  rw [emptyIf_ok g _ (i - w) (i - g.width) (fun hc => by
      rw [l.width] at hc ⊢; simp only [decide_eq_true_eq] at hc; omega) (by omega)]
  simp only
  rw [if_neg (by
    rw [l.width]; simp only [Bool.and_eq_true, decide_eq_true_eq]
    rintro ⟨h1, h2⟩
    exact hn (i - w) ⟨by omega, (hadj _).2 (.inr (.inr (.inl (by omega)))), h2, h0⟩)]
  rw [area_ok l]
  simp only
  rw [minus_ok _ g.width (by rw [l.width]; omega)]
  simp only
  rw [emptyIf_ok g _ (i + w) (i + g.width) (fun _ => by rw [l.width]; omega) (fun _ => by omega)]
  simp only
  rw [if_pos (by
    rw [l.width]; simp only [Bool.and_eq_true, decide_eq_true_eq]
    exact ⟨by omega, by rw [hi]; exact hz⟩)]
  rw [l.width, show ((i : Int) + (w : Int)) = ((h * w : Nat) : Int) by omega, toIndex_ok _ (by omega)]

/-- One move on a board that does not fill the array: as it should be, or the tile in the corner leaves. -/
inductive Moved (w h : Nat) (g : Game) (i : Nat) : Bool → Game → Prop
  | slide {j g'} : i < h * w → CanMove g w h i j → Slid g i j g' → Moved w h g i true g'
  | stay : (i < h * w → ∀ j, ¬ CanMove g w h i j) → Moved w h g i false g
  | lose {g'} : i + w = h * w → (∀ j, ¬ CanMove g w h i j) → tile g i ≠ 0#8 → tile g (h * w) = 0#8 →
      Slid g i (h * w) g' → Moved w h g i true g'

theorem slid_legal {g g' : Game} {w h i j : Nat} (l : Legal g w h) (s : Slid g i j g') : Legal g' w h :=
  ⟨s.width.trans l.width, s.height.trans l.height, l.pos, l.fits, s.size.trans l.size⟩

theorem moved {g : Game} {w h : Nat} (l : Legal g w h) (h64 : h * w < 64) (i : Nat) :
    ∃ r g', applyGameMove g i = .ok (r, g') ∧ Moved w h g i r g' := by
  have hs := l.size
  by_cases hi : i < h * w
  · by_cases hc : i + w = h * w ∧ (∀ j, ¬ CanMove g w h i j) ∧ tile g i ≠ 0#8 ∧ tile g (h * w) = 0#8
    · obtain ⟨h1, h2, h3, h4⟩ := hc
      refine ⟨true, _, ?_, .lose h1 h2 h3 h4 (swap_slid g i (h * w) (by omega) (by omega))⟩
      unfold applyGameMove
      rw [area_ok l]
      simp only [Cpp.bind]
      rw [if_neg (by omega), swapIndex_corner l i h1 h64 h3 h4 h2]
      simp only
      rw [if_pos (by omega)]
    · have hb : i + w = h * w →
          (∃ j, CanMove g w h i j) ∨ tile g i = 0#8 ∨ (i + w < 64 ∧ tile g (i + w) ≠ 0#8) := by
        intro he
        by_cases c1 : ∃ j, CanMove g w h i j
        · exact .inl c1
        · by_cases c2 : tile g i = 0#8
          · exact .inr (.inl c2)
          · refine .inr (.inr ⟨by omega, fun c3 => hc ⟨he, fun j hj => c1 ⟨j, hj⟩, c2, by rw [← he]; exact c3⟩⟩)
      rcases move_spec_partial l i hi hb with ⟨j, hj, he⟩ | ⟨hn, he⟩
      · exact ⟨true, _, he, .slide hi hj (swap_slid g i j (by omega) (by have := hj.1; omega))⟩
      · exact ⟨false, g, he, .stay fun _ => hn⟩
  · exact ⟨false, g, move_outside l i (by omega), .stay fun hh => absurd hh hi⟩

/-! ## One move in the context -/

variable {others : List Actor}

theorem indices_nodup (f : Actor → Bool) (l : List Actor) : (Context.indices f l).Nodup := by
  unfold Context.indices
  have h : (l.zipIdx.map (·.2)).Nodup := by
    rw [List.zipIdx_map_snd]; exact List.nodup_range'
  exact h.sublist (List.Sublist.map _ List.filter_sublist)

/-- Calls of actors that do nothing. -/
theorem run_calls (c : Config (Cpp Game) Keys Val) (cs : List (Call Keys Val)) (hq : ∀ a ∈ cs, echoMove a = .done)
    (i : Nat) (src : Option Nat) (w : World (Cpp Int) (Cpp Game) Keys Val) (r : List (Task (Cpp Int) Keys Val)) :
    ∃ n, run c echoMove n ⟨w, cs.map (.call i src) ++ r⟩
      = ⟨⟨w.stores, w.vars, w.next, w.log ++ cs.map fun a => .called i src a w.stores⟩, r⟩ := by
  induction cs generalizing w with
  | nil => exact ⟨0, by simp [run]⟩
  | cons a cs ih =>
    obtain ⟨n, hn⟩ := ih (fun b hb => hq b (List.mem_cons_of_mem _ hb))
      ⟨w.stores, w.vars, w.next, w.log ++ [.called i src a w.stores]⟩
    refine ⟨n + 2, ?_⟩
    show run c echoMove n (Nested.step c echoMove (Nested.step c echoMove _)) = _
    have e1 : Nested.step c echoMove ⟨w, (a :: cs).map (.call i src) ++ r⟩
        = ⟨⟨w.stores, w.vars, w.next, w.log ++ [.called i src a w.stores]⟩, .prog .done :: (cs.map (.call i src) ++ r)⟩ := by
      simp only [List.map_cons, List.cons_append, Nested.step, Nested.exec, hq a List.mem_cons_self]; rfl
    have e2 : Nested.step c echoMove ⟨(⟨w.stores, w.vars, w.next, w.log ++ [.called i src a w.stores]⟩ :
        World (Cpp Int) (Cpp Game) Keys Val), .prog .done :: (cs.map (.call i src) ++ r)⟩
        = ⟨⟨w.stores, w.vars, w.next, w.log ++ [.called i src a w.stores]⟩, cs.map (.call i src) ++ r⟩ := rfl
    rw [e1, e2, hn]
    simp

theorem told_append (a : Nat) (x y : List (Entry (Cpp Game) Keys Val)) : told a (x ++ y) = told a x ++ told a y :=
  List.filterMap_append

theorem told_down (a i : Nat) (src : Option Nat) (st : Nat → Cpp Game) (is : List Nat) (t : Nat) (m : Msg Keys Val) :
    told a (is.map fun b => Entry.called i src (Call.down b t m) st) = [] := by
  induction is with
  | nil => rfl
  | cons b is ih => exact ih

theorem told_notify (a i : Nat) (src : Option Nat) (st : Nat → Cpp Game) (is : List Nat) (hd : is.Nodup) (t : Nat) (p : Keys) :
    told a (is.map fun b => Entry.called i src (Call.notify b t p) st) = if a ∈ is then [(t, p, st 0)] else [] := by
  induction is with
  | nil => rfl
  | cons b is ih =>
    have h := ih (List.nodup_cons.1 hd).2
    have hb := (List.nodup_cons.1 hd).1
    unfold told at h ⊢
    rw [List.map_cons, List.filterMap_cons]
    by_cases hab : b = a
    · subst hab
      simp only [if_true, List.mem_cons, true_or]
      rw [h, if_neg hb]
    · simp only [if_neg hab]
      rw [h]
      simp [Ne.symm hab]

/-- The state consumers of the context. -/
def watchers (others : List Actor) : List Nat := Context.indices Actor.stateConsumer (game others).actors

/-- One move that is asked for. -/
theorem one_move (others : List Actor) (w : World (Cpp Int) (Cpp Game) Keys Val) (r : List (Task (Cpp Int) Keys Val))
    (k : Int) (hk : w.vars = .ok k) (hk' : k + 1 < 2 ^ 31) (g g' : Game) (hg : w.stores 0 = .ok g) (i : Byte) (b : Bool)
    (hm : applyGameMove g i.toNat = .ok (b, g')) :
    ∃ n w', run (game others) echoMove n ⟨w, .submit 1 (.upCreate [0] (.move i)) :: r⟩ = ⟨w', r⟩
      ∧ w'.vars = .ok (k + 1) ∧ w'.stores 0 = .ok g'
      ∧ ∀ a, told a w'.log = told a w.log ++ if b = true ∧ a ∈ watchers others then [(0, [0], .ok g')] else [] := by
  let c := game others
  let d : Msg Keys Val := .downCreate [0, k + 1] (.value (.move i))
  let up : Call Keys Val := .up 0 1 (.upCreate [0] (.move i))
  -- up to the push of the producer
  let w1 : World (Cpp Int) (Cpp Game) Keys Val := ⟨w.stores, .ok (k + 1), w.next + 1,
    w.log ++ [.submitted w.next 1 (.upCreate [0] (.move i))] ++ [.called w.next none up w.stores]⟩
  have s1 : run c echoMove 4 ⟨w, .submit 1 (.upCreate [0] (.move i)) :: r⟩
      = ⟨w1, .prog (.push 1 d .done) :: r⟩ := by
    simp only [run, Nested.step, Nested.exec, echoMove, List.cons_append, List.nil_append]
    rw [hk]
    simp only [nextKey, if_pos hk']
    rfl
  have hmain : Nested.mainCalls c w1.stores 1 d = (Context.indices Actor.consumer c.actors).map fun a => .down a 1 d := by
    show ((Context.pushMain c w1.stores 1 d).2).map Nested.callOf = _
    have e : (Context.pushMain c w1.stores 1 d).2 = Context.propagateDownstream c w1.stores 1 d := by
      unfold Context.pushMain
      simp only [show d.isUpRead = false from rfl, show d.isUpstream = false from rfl, Bool.false_eq_true, if_false]
      rw [show (c.ops 1).never d = true from rfl]
      simp only [if_true, Bool.false_eq_true, if_false, List.nil_append]
      congr 1
      funext u; unfold Context.setStore; split
      · rename_i h; rw [h]
      · rfl
    rw [e]
    unfold Context.propagateDownstream
    rw [List.map_map]
    rfl
  have hst : (Context.pushMain c w1.stores 1 d).1 = w1.stores := by
    unfold Context.pushMain
    simp only [show d.isUpRead = false from rfl, Bool.false_eq_true, if_false]
    rw [show (c.ops 1).never d = true from rfl]
    simp only [if_true]
    funext u; unfold Context.setStore; split
    · rename_i h; rw [h]
    · rfl
  let w2 : World (Cpp Int) (Cpp Game) Keys Val := ⟨w.stores, .ok (k + 1), w.next + 1 + 1, w1.log ++ [.pushed (w.next + 1) 1 d w.stores]⟩
  have s2 : run c echoMove 2 ⟨w1, .prog (.push 1 d .done) :: r⟩
      = ⟨w2, ((Context.indices Actor.consumer c.actors).map fun a => .down a 1 d).map (.call (w.next + 1) none)
          ++ (.listen (w.next + 1) 0 1 d :: .prog .done :: r)⟩ := by
    simp only [run, Nested.step, Nested.exec, List.cons_append, List.nil_append]
    rw [hst, hmain, show c.listeners 1 = [0] from rfl]
    simp only [List.map_cons, List.map_nil, List.append_assoc, List.cons_append, List.nil_append]
    rfl
  obtain ⟨n3, s3⟩ := run_calls c ((Context.indices Actor.consumer c.actors).map fun a => .down a 1 d)
    (fun a ha => by obtain ⟨x, -, rfl⟩ := List.mem_map.1 ha; rfl) (w.next + 1) none w2
    (.listen (w.next + 1) 0 1 d :: .prog .done :: r)
  let w3 : World (Cpp Int) (Cpp Game) Keys Val := ⟨w2.stores, w2.vars, w2.next,
    w2.log ++ ((Context.indices Actor.consumer c.actors).map fun a => Call.down a 1 d).map
      fun a => .called (w.next + 1) none a w2.stores⟩
  -- the game is shown the move
  have hf : (c.ops 0).foreign (w3.stores 0) 1 d = (.ok g', if b then [[0]] else []) := by
    show hearMove (w.stores 0) 1 d = _
    rw [hg]
    simp only [hearMove, d, if_true]
    rw [hm]
    cases b <;> rfl
  let st4 : Nat → Cpp Game := Context.setStore w.stores 0 (.ok g')
  let w4 : World (Cpp Int) (Cpp Game) Keys Val := ⟨st4, w3.vars, w3.next, w3.log ++ [.heard (w.next + 1) 0 1 d w3.stores]⟩
  let cs : List (Call Keys Val) := if b then (watchers others).map (fun a => .notify a 0 [0]) else []
  have s4 : run c echoMove 1 ⟨w3, .listen (w.next + 1) 0 1 d :: .prog .done :: r⟩
      = ⟨w4, cs.map (.call (w.next + 1) (some 0)) ++ .prog .done :: r⟩ := by
    simp only [run, Nested.step, Nested.exec]
    rw [hf]
    simp only
    have hcs : (if b = true then [[0]] else ([] : List Keys)).flatMap (Nested.notifyCalls c 0) = cs := by
      cases b
      · rfl
      · simp only [if_true, List.flatMap_cons, List.flatMap_nil, List.append_nil]; rfl
    rw [hcs]
  obtain ⟨n5, s5⟩ := run_calls c cs (fun a ha => by
    simp only [cs] at ha
    split at ha
    · obtain ⟨x, -, rfl⟩ := List.mem_map.1 ha; rfl
    · cases ha) (w.next + 1) (some 0) w4 (.prog .done :: r)
  refine ⟨4 + (2 + (n3 + (1 + (n5 + 1)))), ⟨w4.stores, w4.vars, w4.next,
    w4.log ++ cs.map fun a => .called (w.next + 1) (some 0) a w4.stores⟩, ?_, rfl, rfl, ?_⟩
  · rw [run_add, s1, run_add, s2, run_add, s3, run_add, s4, run_add, s5]
    rfl
  · intro a
    have e4 : told a w4.log = told a w.log := by
      show told a (((((w.log ++ [_]) ++ [_]) ++ [_]) ++ _) ++ [_]) = _
      rw [told_append, told_append, told_append, told_append, told_append, List.map_map]
      rw [show ((fun a => Entry.called (S := Cpp Game) (w.next + 1) none a w2.stores) ∘ fun a => Call.down a 1 d)
        = fun b => Entry.called (w.next + 1) none (Call.down b 1 d) w2.stores from rfl, told_down]
      simp [told, up]
    show told a (w4.log ++ _) = _
    rw [told_append, e4]
    congr 1
    cases b
    · rfl
    · simp only [cs, if_true, true_and, List.map_map]
      exact told_notify a _ _ _ _ (indices_nodup _ _) 0 [0]

/-! ## All moves -/

/-- What may have happened: all went as it should, or once the tile in the corner left the board. -/
def Outcome (w h : Nat) (g : Game) (is : List Byte) (shown : List Game) (g' : Game) : Prop :=
  Played w h g is shown g'
  ∨ ∃ before i after shown₁ shown₂ g₁ g₂, is = before ++ i :: after ∧ shown = shown₁ ++ g₂ :: shown₂
    ∧ Played w h g before shown₁ g₁
    ∧ i.toNat + w = h * w ∧ (∀ j, ¬ CanMove g₁ w h i.toNat j) ∧ tile g₁ i.toNat ≠ 0#8 ∧ tile g₁ (h * w) = 0#8
    ∧ Slid g₁ i.toNat (h * w) g₂ ∧ Played w h g₂ after shown₂ g'

theorem played_legal {w h : Nat} {g g' : Game} {is : List Byte} {shown : List Game} (l : Legal g w h)
    (p : Played w h g is shown g') : Legal g' w h := by
  induction p with
  | nil _ => exact l
  | slide _ _ hs _ ih => exact ih (slid_legal l hs)
  | stay _ _ ih => exact ih l

/-- Nothing outside of the board changes. -/
theorem played_outside {w h : Nat} {g g' : Game} {is : List Byte} {shown : List Game}
    (p : Played w h g is shown g') (k : Nat) (hk : h * w ≤ k) : tile g' k = tile g k := by
  induction p with
  | nil _ => rfl
  | slide hi hc hs _ ih => rw [ih, hs.tiles, if_neg (by have := hc.1; omega), if_neg (by omega)]
  | stay _ _ ih => exact ih

theorem outcome_cons {w h : Nat} {g g₁ g' : Game} {i : Byte} {is : List Byte} {shown : List Game} {b : Bool}
    (hi : i.toNat < h * w ∨ b = false)
    (m : Moved w h g i.toNat b g₁) (o : Outcome w h g₁ is shown g') :
    Outcome w h g (i :: is) ((if b then [g₁] else []) ++ shown) g' := by
  cases m with
  | slide hi' hc hs =>
    rcases o with o | ⟨before, i', after, s₁, s₂, x₁, x₂, rfl, rfl, p, rest⟩
    · exact .inl (.slide hi' hc hs o)
    · exact .inr ⟨i :: before, i', after, g₁ :: s₁, s₂, x₁, x₂, rfl, rfl, .slide hi' hc hs p, rest⟩
  | stay hn =>
    rcases o with o | ⟨before, i', after, s₁, s₂, x₁, x₂, rfl, rfl, p, rest⟩
    · exact .inl (.stay hn o)
    · exact .inr ⟨i :: before, i', after, s₁, s₂, x₁, x₂, rfl, rfl, .stay hn p, rest⟩
  | lose he hn h0 hz hs =>
    rcases o with o | ⟨before, i', after, s₁, s₂, x₁, x₂, rfl, rfl, p, _, _, _, hz', _⟩
    · exact .inr ⟨[], i, is, [], shown, g, g₁, rfl, rfl, .nil g, he, hn, h0, hz, hs, o⟩
    · exfalso
      rw [played_outside p _ (Nat.le_refl _), hs.tiles, if_pos rfl] at hz'
      exact h0 hz'

theorem moved_inside {w h : Nat} (hw : 0 < w) {g g' : Game} {i : Nat} {b : Bool} (m : Moved w h g i b g') :
    i < h * w ∨ b = false := by
  cases m with
  | slide hi _ _ => exact .inl hi
  | stay _ => exact .inr rfl
  | lose he _ _ _ _ => exact .inl (by omega)

theorem moved_legal {w h : Nat} {g g' : Game} {i : Nat} {b : Bool} (l : Legal g w h) (m : Moved w h g i b g') :
    Legal g' w h := by
  cases m with
  | slide _ _ hs => exact slid_legal l hs
  | stay _ => exact l
  | lose _ _ _ _ hs => exact slid_legal l hs

theorem all_moves (others : List Actor) {w h : Nat} (h64 : h * w < 64) (is more : List Byte)
    (r : List (Task (Cpp Int) Keys Val)) :
    ∀ (x : World (Cpp Int) (Cpp Game) Keys Val) (k : Int) (g : Game), x.vars = .ok k → k + is.length < 2 ^ 31 →
      x.stores 0 = .ok g → Legal g w h →
      ∃ n x' shown g', run (game others) echoMove n ⟨x, .prog (askMoves (is ++ more)) :: r⟩
          = ⟨x', .prog (askMoves more) :: r⟩
        ∧ x'.vars = .ok (k + is.length) ∧ x'.stores 0 = .ok g' ∧ Outcome w h g is shown g'
        ∧ ∀ a, told a x'.log = told a x.log
            ++ if a ∈ watchers others then shown.map (fun y => (0, [0], .ok y)) else [] := by
  induction is with
  | nil =>
    intro x k g hv _ hs l
    refine ⟨0, x, [], g, rfl, by rw [hv]; simp, hs, .inl (.nil g), fun a => by simp⟩
  | cons i is ih =>
    intro x k g hv hk hs l
    simp only [List.length_cons] at hk
    obtain ⟨b, g₁, hm, hmv⟩ := moved l h64 i.toNat
    obtain ⟨n₁, x₁, e₁, hv₁, hs₁, ht₁⟩ := one_move others x (.prog (askMoves (is ++ more)) :: r) k hv (by omega) g g₁ hs i b hm
    obtain ⟨n₂, x₂, shown, g', e₂, hv₂, hs₂, o, ht₂⟩ := ih x₁ (k + 1) g₁ hv₁ (by omega) hs₁ (moved_legal l hmv)
    refine ⟨1 + (n₁ + n₂), x₂, (if b then [g₁] else []) ++ shown, g', ?_, ?_, hs₂,
      outcome_cons (moved_inside l.pos hmv) hmv o, ?_⟩
    · rw [run_add]
      have e0 : run (game others) echoMove 1 ⟨x, .prog (askMoves (i :: is ++ more)) :: r⟩
          = ⟨x, .submit 1 (.upCreate [0] (.move i)) :: .prog (askMoves (is ++ more)) :: r⟩ := rfl
      rw [e0, run_add, e₁, e₂]
    · rw [hv₂]; simp only [List.length_cons]; congr 1; omega
    · intro a
      rw [ht₂, ht₁, List.append_assoc]
      congr 1
      cases b <;> by_cases ha : a ∈ watchers others <;> simp [ha]

/-- C137: in the example, with a board that does not fill the array and less than 2^31 moves, every request
comes to an end, nothing is undefined, and the moves are carried out in the order in which they are asked for:
each state consumer is told of the game exactly when it has changed, and then finds the changed game.  Proved
up to the one exception: a tile in the first place of the last row that has no empty neighbour leaves the
board; this happens at most once. -/
theorem play_partial (others : List Actor) {w h : Nat} (h64 : h * w < 64) (g : Game) (l : Legal g w h)
    (is : List Byte) (hn : is.length < 2 ^ 31) :
    ∃ n x shown g', run (game others) echoMove n (begin g is) = ⟨x, []⟩
      ∧ x.vars = .ok (is.length : Int) ∧ x.stores 0 = .ok g' ∧ Outcome w h g is shown g'
      ∧ ∀ a, told a x.log = if a ∈ watchers others then shown.map (fun y => (0, [0], .ok y)) else [] := by
  obtain ⟨n, x, shown, g', e, hv, hs, o, ht⟩ := all_moves others h64 is [] [] ⟨fun _ => .ok g, .ok 0, 0, []⟩ 0 g rfl
    (by omega) rfl l
  rw [List.append_nil] at e
  refine ⟨n + 1, x, shown, g', by rw [run_add]; exact congrArg _ e, by rw [hv]; simp, hs, o, fun a => ?_⟩
  rw [ht]
  rfl

/-- C137: whoever looks at the game, wherever they are told to, is shown the game in the store, and nothing is
changed or asked for by that. -/
theorem look_shows (others : List Actor) (st : Nat → Cpp Game) (g : Game) (hg : st 0 = .ok g) (p : Keys) :
    Context.matchCtx (game others) st 0 p = (st, [], .value (.value (.game (.ok g)))) := by
  rw [← hg]
  rfl

/-! ## The tiles -/

theorem ext_tiles {a b : List Byte} (hl : a.length = b.length) (h : ∀ k, a.getD k 0#8 = b.getD k 0#8) : a = b := by
  apply List.ext_getElem hl
  intro k h1 h2
  have := h k
  rw [List.getD_eq_getElem?_getD, List.getD_eq_getElem?_getD, List.getElem?_eq_getElem h1,
    List.getElem?_eq_getElem h2] at this
  exact this

theorem slid_eq {g g' : Game} {i j : Nat} (hi : i < g.board.length) (hj : j < g.board.length) (s : Slid g i j g') :
    g' = { g with board := swap g.board i j } := by
  have s' := swap_slid g i j hi hj
  have hb : g'.board = swap g.board i j := by
    apply ext_tiles (s.size.trans s'.size.symm)
    intro k
    exact (s.tiles k).trans (s'.tiles k).symm
  have hw := s.width
  have hh := s.height
  cases g'
  simp only at hb hw hh ⊢
  rw [hb, hw, hh]

theorem slid_perm {g g' : Game} {i j n : Nat} (hn : n ≤ g.board.length) (hi : i < n) (hj : j < n) (s : Slid g i j g') :
    (g'.board.take n).Perm (g.board.take n) := by
  rw [slid_eq (by omega) (by omega) s]
  have hi' : i < (g.board.take n).length := by simp; omega
  have hj' : j < (g.board.take n).length := by simp; omega
  have := List.set_set_perm (as := g.board.take n) hi' hj'
  simp only [swap, List.take_set]
  have e1 : g.board.getD j 0#8 = (g.board.take n)[j] := by
    rw [List.getD_eq_getElem?_getD, List.getElem_take, List.getElem?_eq_getElem (by omega)]; rfl
  have e2 : g.board.getD i 0#8 = (g.board.take n)[i] := by
    rw [List.getD_eq_getElem?_getD, List.getElem_take, List.getElem?_eq_getElem (by omega)]; rfl
  rw [e1, e2]
  exact this

/-- C137: a game that goes as it should keeps its tiles, and so does every game shown on the way. -/
theorem played_tiles {w h : Nat} {g g' : Game} {is : List Byte} {shown : List Game} (l : Legal g w h)
    (p : Played w h g is shown g') :
    (g'.board.take (h * w)).Perm (g.board.take (h * w))
    ∧ ∀ y ∈ shown, (y.board.take (h * w)).Perm (g.board.take (h * w)) := by
  induction p with
  | nil _ => exact ⟨.refl _, fun y hy => by cases hy⟩
  | slide hi hc hsl _ ih =>
    have l' := slid_legal l hsl
    have hp := slid_perm (by rw [l.size]; exact l.fits) hi hc.1 hsl
    obtain ⟨h1, h2⟩ := ih l'
    refine ⟨h1.trans hp, fun y hy => ?_⟩
    rcases List.mem_cons.1 hy with rfl | hy
    · exact hp
    · exact (h2 y hy).trans hp
  | stay _ _ ih => exact ih l

/-- C137: whatever moves are asked for, of the tiles at most one is lost for good: the board and the cell after
it together keep what they hold. -/
theorem outcome_tiles {w h : Nat} {g g' : Game} {is : List Byte} {shown : List Game} (h64 : h * w < 64) (l : Legal g w h)
    (o : Outcome w h g is shown g') :
    (g'.board.take (h * w + 1)).Perm (g.board.take (h * w + 1)) := by
  have key : ∀ {g g' : Game} {is : List Byte} {shown : List Game}, Legal g w h → Played w h g is shown g' →
      (g'.board.take (h * w + 1)).Perm (g.board.take (h * w + 1)) := by
    intro g g' is shown l p
    induction p with
    | nil _ => exact .refl _
    | slide hi hc hsl _ ih =>
      exact (ih (slid_legal l hsl)).trans (slid_perm (by rw [l.size]; omega) (by omega) (by have := hc.1; omega) hsl)
    | stay _ _ ih => exact ih l
  rcases o with o | ⟨before, i, after, s₁, s₂, g₁, g₂, -, -, p, he, -, -, -, hs, q⟩
  · exact key l o
  · have l₁ := played_legal l p
    have hw := l.pos
    exact ((key (slid_legal l₁ hs) q).trans (slid_perm (by rw [l₁.size]; omega) (by omega) (by omega) hs)).trans (key l p)

/-- C137, exactly: the board keeps its tiles if and only if the game went as it should, that is, if and only if no tile
left the board. -/
theorem tiles_kept_iff {w h : Nat} {g g' : Game} {is : List Byte} {shown : List Game} (h64 : h * w < 64) (l : Legal g w h)
    (o : Outcome w h g is shown g') :
    (g'.board.take (h * w)).Perm (g.board.take (h * w)) ↔ Played w h g is shown g' := by
  refine ⟨fun hp => ?_, fun p => (played_tiles l p).1⟩
  have hall := outcome_tiles h64 l o
  rcases o with o | ⟨before, i, after, s₁, s₂, g₁, g₂, -, -, p, he, -, hne, hz, hs, q⟩
  · exact o
  · exfalso
    have l₁ := played_legal l p
    have l₂ := slid_legal l₁ hs
    have l' := played_legal l₂ q
    have last : ∀ x : Game, Legal x w h → x.board.take (h * w + 1) = x.board.take (h * w) ++ [tile x (h * w)] := by
      intro x lx
      rw [List.take_add_one, tile, List.getD_eq_getElem?_getD, List.getElem?_eq_getElem (by rw [lx.size]; exact h64)]
      rfl
    rw [last g l, last g' l'] at hall
    have h1 : [tile g' (h * w)].Perm [tile g (h * w)] :=
      (List.perm_append_left_iff _).1 ((hp.symm.append_right _).trans hall)
    have h2 : tile g' (h * w) = tile g (h * w) := by simpa using h1
    have h3 : tile g₁ (h * w) = tile g (h * w) := played_outside p (h * w) (Nat.le_refl _)
    have h4 : tile g' (h * w) = tile g₂ (h * w) := played_outside q (h * w) (Nat.le_refl _)
    have h5 := hs.tiles (h * w)
    rw [if_pos rfl] at h5
    exact hne (by rw [← h5, ← h4, h2, ← h3, hz])

/-! ## The game of the example -/

/-- A board of nine tiles. -/
def nine (l : List Byte) : Game := ⟨3, 3, l ++ List.replicate 55 0#8⟩

/-- One consumer that is told of changes, as in context.cpp. -/
def watching : List Actor := [⟨false, false, true⟩]

/-- context.cpp:35-50, and four more moves, one with no empty neighbour and one outside of the board: what the
consumer is told, and what the producer is not. -/
example : told 1 (run (game watching) echoMove 100 (begin initial [5#8, 0#8, 2#8, 1#8, 200#8])).world.log
    = [(0, [0], .ok (nine [3#8, 4#8, 6#8, 8#8, 1#8, 0#8, 2#8, 5#8, 7#8])),
       (0, [0], .ok (nine [3#8, 4#8, 0#8, 8#8, 1#8, 6#8, 2#8, 5#8, 7#8])),
       (0, [0], .ok (nine [3#8, 0#8, 4#8, 8#8, 1#8, 6#8, 2#8, 5#8, 7#8]))] := by decide +kernel
example : told 0 (run (game watching) echoMove 100 (begin initial [5#8, 0#8, 2#8, 1#8, 200#8])).world.log = [] := by
  decide +kernel
example : watchers watching = [1] := by decide +kernel

/-- A game that goes as it should. -/
example : Played 3 3 initial [5#8, 0#8] [nine [3#8, 4#8, 6#8, 8#8, 1#8, 0#8, 2#8, 5#8, 7#8]]
    (nine [3#8, 4#8, 6#8, 8#8, 1#8, 0#8, 2#8, 5#8, 7#8]) := by
  refine .slide (j := 4) (by decide) ⟨by decide, .inl (by decide), by decide, by decide⟩
    (swap_slid initial 5 4 (by decide) (by decide)) (.stay (fun _ j hj => ?_) (.nil _))
  have h5 : ∀ k < 9, tile (nine [3#8, 4#8, 6#8, 8#8, 1#8, 0#8, 2#8, 5#8, 7#8]) k = 0#8 → k = 5 := by decide +kernel
  have := h5 j hj.1 hj.2.2.1
  subst this
  rcases (adjacent_cases 3 0 5 (by decide)).1 hj.2.1 with h | h | h | h <;> omega

/-- C137 violated: in the game the example starts with, the first move asked for may take a tile off the
board.  The consumer is told, and finds a board with two empty places. -/
theorem play_violated :
    ∃ n x g', run (game watching) echoMove n (begin initial [6#8]) = ⟨x, []⟩ ∧ x.stores 0 = .ok g'
      ∧ told 1 x.log = [(0, [0], .ok g')] ∧ ¬ (g'.board.take 9).Perm (initial.board.take 9) := by
  refine ⟨40, (run (game watching) echoMove 40 (begin initial [6#8])).world,
    nine [3#8, 4#8, 6#8, 8#8, 0#8, 1#8, 0#8, 5#8, 7#8, 2#8] |> fun g => { g with board := g.board.take 64 }, ?_, ?_, ?_, ?_⟩
  · have h : (run (game watching) echoMove 40 (begin initial [6#8])).tasks = [] := List.isEmpty_iff.1 (by decide +kernel)
    rw [← h]
  · decide +kernel
  · decide +kernel
  · intro hp
    have := hp.count_eq 2#8
    exact absurd this (by decide +kernel)

/-- C137 violated: the keys of the moves are `int`s counted up by the producer, which overflows (undefined
behaviour) at the move after 2^31 - 1 others, whatever they are. -/
theorem keys_violated (others : List Actor) {w h : Nat} (h64 : h * w < 64) (g : Game) (l : Legal g w h)
    (is : List Byte) (hn : is.length = 2 ^ 31 - 1) (i : Byte) :
    ∃ n x, run (game others) echoMove n (begin g (is ++ [i])) = ⟨x, []⟩ ∧ x.vars = .ub := by
  obtain ⟨n, x, shown, g', e, hv, hs, o, ht⟩ := all_moves others h64 is [i] [] ⟨fun _ => .ok g, .ok 0, 0, []⟩ 0 g rfl
    (by omega) rfl l
  have hv' : x.vars = .ok (2 ^ 31 - 1) := by rw [hv, hn]; rfl
  have s : run (game others) echoMove 7 ⟨x, [.prog (askMoves [i])]⟩
      = ⟨⟨x.stores, .ub, x.next + 1, x.log ++ [.submitted x.next 1 (.upCreate [0] (.move i))]
          ++ [.called x.next none (.up 0 1 (.upCreate [0] (.move i))) x.stores]⟩, []⟩ := by
    simp only [run, askMoves, Nested.step, Nested.exec, echoMove, List.cons_append, List.nil_append]
    rw [hv']
    rfl
  have t := (run_add (game others) echoMove n 7 (begin g (is ++ [i]))).trans
    ((congrArg (run (game others) echoMove 7) e).trans s)
  exact ⟨n + 7, _, t, rfl⟩

/-- There are such moves. -/
example : (List.replicate (2 ^ 31 - 1) 5#8).length = 2 ^ 31 - 1 := List.length_replicate

end Nbdl.Tiles
