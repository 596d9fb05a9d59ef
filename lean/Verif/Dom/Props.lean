import Verif.Dom.Remember
/-!
# Rendering and updating: the properties
-/
namespace Nbdl.Dom
open Spec

variable {S : Type}

/-- The attributes an item gives the element it is put in are those of the specification; the others stay. -/
def SetsOnly (h h' : Dom) (p : Nat) (s : S) (x : Item S) : Prop :=
  (∀ n, (h'.node p).attrs n = if n ∈ attrNames [x] then attrOf s n [x] else (h.node p).attrs n) ∧
  ∀ n, (h'.node p).classes n = if n ∈ classNames [x] then classOf s n [x] else (h.node p).classes n

/-- There is room for the item in the element: nothing was rendered there that it would overwrite. -/
structure Room (h : Dom) (p : Nat) (x : Item S) : Prop where
  node : p < h.next
  children : ∀ c ∈ (h.node p).children, c < h.next
  filler : Filler x → (h.node p).children = []
  attrs : ∀ n ∈ attrNames [x], (h.node p).attrs n = none
  classes : ∀ n ∈ classNames [x], (h.node p).classes n = false

theorem single_names (x : Item S) : (attrNames [x]).Nodup ∧ (classNames [x]).Nodup := by
  cases x <;> constructor <;> simp [attrNames, classNames]

theorem sets_only {h h' : Dom} {p : Nat} {o : S × List S} {x : Item S} {ids fp ms own}
    (hb : Built h' o p x ids fp ms) (hc : Chg h h' p own (attrNames [x]) (classNames [x])) :
    SetsOnly h h' p o (remember x) := by
  have b : BuiltAll h' o p [x] (ids ++ []) (fp ++ []) (ms ++ []) := by
    rw [BuiltAll]
    exact ⟨ids, [], fp, [], ms, [], rfl, rfl, rfl, hb, by rw [BuiltAll]; exact ⟨rfl, rfl, rfl⟩⟩
  have ea : rememberAll [x] = [remember x] := by rw [rememberAll, rememberAll]
  refine ⟨fun n => ?_, fun n => ?_⟩
  · rw [← ea, attrNames_remember]
    split
    · exact attrOf_built [x] b (single_names x).1 n (by assumption)
    · exact hc.attrs n (by assumption)
  · rw [← ea, classNames_remember]
    split
    · exact classOf_built [x] b (single_names x).2 n (by assumption)
    · exact hc.classes n (by assumption)

/-- Where the past does not matter, the attributes are those of the present state. -/
theorem sets_current {h h' : Dom} {p : Nat} {o : S × List S} {x : Item S} (hc : Current o x)
    (hs : SetsOnly h h' p o (remember x)) : SetsOnly h h' p o.1 x := by
  have ea : rememberAll [x] = [remember x] := by rw [rememberAll, rememberAll]
  have hc1 : CurrentAll o [x] := by rw [CurrentAll, CurrentAll]; exact ⟨hc, trivial⟩
  rw [SetsOnly, ← ea] at hs
  simp only [attrNames_remember, classNames_remember, attrOf_current _ [x] hc1, classOf_current _ [x] hc1] at hs
  exact hs

/-! ## C47: rendering -/

/-- C47.  Running the flat list of instructions of a specification appends to the element exactly the trees of the
nested specification, and the parent for what comes next is the element again.  The nodes that were there before
are left as they were, except that the element has more children and the attributes it was given.

Partial: `Shape` leaves out the specifications for which it fails (below), and `InRange` asks that every match
has a branch. -/
theorem render_correct_partial (x : Item S) (s : S) (h : Dom) (p : Nat) (hs : Shape x) (hr : InRange s x)
    (hp : Room h p x) :
    ∃ h' ms ids, runAll s h (some p) (flatten x) = .ok (h', some p, ms) ∧
      (h'.node p).children = (h.node p).children ++ ids ∧ ShowsAll h' (trees s x) ids ∧
      (∀ i ∈ ids, h.next ≤ i ∧ i < h'.next) ∧ (∀ i, i < h.next → i ≠ p → h'.node i = h.node i) ∧
      (h'.node p).kind = (h.node p).kind ∧ (h'.node p).parent = (h.node p).parent ∧ SetsOnly h h' p s x := by
  obtain ⟨h', ids, fp, ms, e, b, r, -⟩ := render_item x s h p hs hr hp.node hp.filler hp.attrs hp.classes
  exact ⟨h', ms, ids, e, r.children, by have := shows_item x (s, []) p hs b; rwa [trees_current x (current_new s x)] at this,
    fun i hi => r.fresh i (built_sub x b i hi), fun i h1 h2 => r.chg.other i h1 (by simp) h2, r.chg.kind, r.chg.parent,
    sets_current (current_new s x) (sets_only b r.chg)⟩

/-! ## C48: updates -/

/-- What holds between updates. -/
structure Inv (h0 h : Dom) (o : S × List S) (p : Nat) (x : Item S) (ids fp : List Nat) (ms : List (Inst S)) : Prop where
  built : Built h o p x ids fp ms
  fresh : ∀ i ∈ fp, h0.next ≤ i ∧ i < h.next
  nodup : fp.Nodup
  children : (h.node p).children = (h0.node p).children ++ ids
  chg : Chg h0 h p [] (attrNames [x]) (classNames [x])

theorem update_step {h0 h : Dom} {p : Nat} {x : Item S} {ids fp ms} (s : S) (o : S × List S) (hs : Shape x)
    (hr : InRange s x) (hp : Room h0 p x) (hi : Inv h0 h o p x ids fp ms) :
    ∃ h' ids' fp' ms', updateAll s h ms = .ok (h', ms') ∧ Inv h0 h' (s, o.1 :: o.2) p x ids' fp' ms' := by
  have hn := hi.chg.next
  have hp0 := hp.node
  obtain ⟨h', ids', fp', ms', e, b, g, u, c⟩ := update_item x s o h p (h0.node p).children [] hs hr hi.built
    (by omega) (fun h => by have := (hi.fresh p h).1; omega) hi.nodup (fun i h => (hi.fresh i h).2)
    (by rw [hi.children]; simp) (fun hf => ⟨hp.filler hf, rfl⟩)
    (fun i h => ⟨fun h1 => by have := hp.children i h1; have := (hi.fresh i h).1; omega, by simp⟩)
  refine ⟨h', ids', fp', ms', e, b, fun i h => ⟨?_, u.lt i h⟩, u.nodup, by rw [c]; simp, ?_⟩
  · rcases u.sub i h with h1 | h1
    · exact (hi.fresh i h1).1
    · omega
  · have := hi.chg.trans g fun i h => .inr (hi.fresh i h).1
    refine ⟨this.next, this.other, this.kind, this.parent, fun n hn => this.attrs n ?_, fun n hn => this.classes n ?_⟩
    · simpa using hn
    · simpa using hn

theorem updates_append (ss : List S) (s : S) (h : Dom) (ms : List (Inst S)) :
    updates h ms (ss ++ [s]) = (updates h ms ss).bind fun r => updateAll s r.1 r.2 := by
  induction ss generalizing h ms with
  | nil =>
    simp only [List.nil_append, updates, bind, Except.bind]
    cases updateAll s h ms <;> rfl
  | cons t ss ih =>
    simp only [List.cons_append, updates, bind]
    cases updateAll t h ms with
    | error e => rfl
    | ok r => simp only [Except.bind]; exact ih r.1 r.2

/-- The states after some more of them. -/
def after (o : S × List S) : List S → S × List S
  | [] => o
  | s :: ss => after (s, o.1 :: o.2) ss

theorem after_eq (o : S × List S) (ss : List S) (s : S) :
    after o (ss ++ [s]) = (s, ss.reverse ++ o.1 :: o.2) := by
  induction ss generalizing o with
  | nil => rfl
  | cons t ss ih =>
    rw [List.cons_append, after, ih]
    simp

theorem updates_inv {h0 : Dom} {p : Nat} {x : Item S} (hs : Shape x) (hp : Room h0 p x) (ss : List S)
    (hr : ∀ s ∈ ss, InRange s x) {h : Dom} {o ids fp ms} (hi : Inv h0 h o p x ids fp ms) :
    ∃ h' ids' fp' ms', updates h ms ss = .ok (h', ms') ∧ Inv h0 h' (after o ss) p x ids' fp' ms' := by
  induction ss generalizing h o ids fp ms with
  | nil => exact ⟨h, ids, fp, ms, rfl, hi⟩
  | cons s ss ih =>
    obtain ⟨h1, i1, f1, m1, e1, j1⟩ := update_step s o hs (hr s (by simp)) hp hi
    obtain ⟨h2, i2, f2, m2, e2, j2⟩ := ih (fun s' hs' => hr s' (by simp [hs'])) j1
    exact ⟨h2, i2, f2, m2, by simp only [updates, e1, bind, Except.bind, e2], j2⟩

/-- C48, for any states: after the last update the element shows the trees of the specification with paths that
remember, that is, a text, or an attribute or class that is there or not, is as the path last told, shown or hidden
at the time.  Nothing else in the document has changed.

Partial: `Shape`, and `InRange` for all the states, as for C47. -/
theorem update_shows_partial (x : Item S) (s0 : S) (ss : List S) (s : S) (h : Dom) (p : Nat) (hs : Shape x)
    (hr : ∀ s' ∈ s0 :: (ss ++ [s]), InRange s' x) (hp : Room h p x) :
    ∃ h1 m1 h2 m2 ids, render s0 h p x = .ok (h1, m1) ∧ updates h1 m1 (ss ++ [s]) = .ok (h2, m2) ∧
      (h2.node p).children = (h.node p).children ++ ids ∧
      ShowsAll h2 (trees (s, ss.reverse ++ [s0]) (remember x)) ids ∧
      (∀ i ∈ ids, h.next ≤ i ∧ i < h2.next) ∧ (∀ i, i < h.next → i ≠ p → h2.node i = h.node i) ∧
      (h2.node p).kind = (h.node p).kind ∧ (h2.node p).parent = (h.node p).parent ∧
      SetsOnly h h2 p (s, ss.reverse ++ [s0]) (remember x) := by
  obtain ⟨h1, i1, f1, m1, e1, b1, r1, -⟩ := render_item x s0 h p hs (hr s0 (by simp)) hp.node hp.filler hp.attrs hp.classes
  have j1 : Inv h h1 (s0, []) p x i1 f1 m1 := ⟨b1, r1.fresh, r1.nodup, r1.children, r1.chg⟩
  obtain ⟨h2, i2, f2, m2, e2, j2⟩ := updates_inv hs hp (ss ++ [s]) (fun s' hs' => hr s' (List.mem_cons_of_mem _ hs')) j1
  rw [after_eq] at j2
  exact ⟨h1, m1, h2, m2, i2, by rw [render, e1]; rfl, e2, j2.children, shows_item x _ p hs j2.built,
    fun i hi => j2.fresh i (built_sub x j2.built i hi), fun i h1 h2 => j2.chg.other i h1 (by simp) h2, j2.chg.kind,
    j2.chg.parent, sets_only j2.built j2.chg⟩

/-- C48.  Whatever states the stores went through after the first rendering, after the last update the element has
the same trees, attributes and classes as a rendering of the last state, and nothing else in the document has
changed.

Partial: `Shape`, and `InRange` for all the states, as for C47; and in the last state the paths that are shown must
match. -/
theorem update_correct_partial (x : Item S) (s0 : S) (ss : List S) (s : S) (h : Dom) (p : Nat) (hs : Shape x)
    (hr : ∀ s' ∈ s0 :: (ss ++ [s]), InRange s' x) (hm : Matched s x) (hp : Room h p x) :
    ∃ h1 m1 h2 m2 ids, render s0 h p x = .ok (h1, m1) ∧ updates h1 m1 (ss ++ [s]) = .ok (h2, m2) ∧
      (h2.node p).children = (h.node p).children ++ ids ∧ ShowsAll h2 (trees s x) ids ∧
      (∀ i ∈ ids, h.next ≤ i ∧ i < h2.next) ∧ (∀ i, i < h.next → i ≠ p → h2.node i = h.node i) ∧
      (h2.node p).kind = (h.node p).kind ∧ (h2.node p).parent = (h.node p).parent ∧ SetsOnly h h2 p s x := by
  obtain ⟨h1, m1, h2, m2, ids, e1, e2, hc, hsh, hf, ho, hk, hpar, hset⟩ := update_shows_partial x s0 ss s h p hs hr hp
  have hcur : Current (s, ss.reverse ++ [s0]) x := current_matched x hm
  rw [trees_current x hcur] at hsh
  exact ⟨h1, m1, h2, m2, ids, e1, e2, hc, hsh, hf, ho, hk, hpar, sets_current hcur hset⟩

/-! ## Examples -/

/-- A document with one empty element, number 0. -/
def doc0 : Dom := ⟨fun _ => ⟨.elem "body".toList, fun _ => none, fun _ => false, [], none⟩, 1⟩

/-- Stores for the examples: a list of numbers. -/
abbrev St := List Nat

def digits (n : Nat) : Text := (toString n).toList

/-- A list of what is there, with a header. -/
def page : Item St :=
  .elem "div".toList
    [.attr "id".toList "list".toList, .classIf "empty".toList (fun s => some s.isEmpty),
      .elem "p".toList [.text (.concat [.const "n = ".toList, .path fun s => some (digits s.length)])],
      .branch (fun s => some (if s.isEmpty then 0 else 1))
        [.text (.const "nothing".toList),
          .elem "ul".toList [.forEach (fun s => some (s.map fun n => [n])) (.elem "li".toList
            [.text (.path fun s => s.head?.map digits)])]]]

example : Shape page := by
  simp only [page, Shape, ShapeAll, OneNode, IsAttr, Filler, attrNames, classNames]
  simp

example (s : St) : InRange s page := by
  simp only [page, InRange, InRangeAll]
  simp
  split <;> simp

example (s : St) : Matched s page := by
  simp only [page, Matched, MatchedAll, MatchedText, MatchedTexts]
  by_cases h : s.isEmpty <;> simp [h, MatchedAt, Matched, MatchedAll, MatchedText]

example : Room doc0 0 page where
  node := by decide
  children := by simp [doc0]
  filler h := h.elim
  attrs := by simp [page, attrNames]
  classes := by simp [page, classNames]

/-- The nodes below a node, with their kinds, to a depth. -/
def look (h : Dom) : Nat → Nat → List (Nat × Kind)
  | 0, _ => []
  | d + 1, i => (h.node i).children.flatMap fun c => (d, (h.node c).kind) :: look h d c

/-- What is seen, or what went wrong. -/
inductive Out where
  | seen (nodes : List (Nat × Kind))
  | fault (e : Fault)
  deriving DecidableEq

def lookAt (p : Nat) : Except Fault (Dom × List (Inst S)) → Out
  | .ok (h, _) => .seen (look h 9 p)
  | .error e => .fault e

def rerender (x : Item S) (s : S) (ss : List S) : Except Fault (Dom × List (Inst S)) := do
  let (h, ms) ← render s doc0 0 x
  updates h ms ss

example : lookAt 0 (rerender page [] [[3, 4], [5]]) = .seen
    [(8, .elem ['d', 'i', 'v']), (7, .elem ['p']), (6, .text ['n', ' ', '=', ' ']), (6, .text ['1']),
      (7, .elem ['u', 'l']), (6, .elem ['l', 'i']), (5, .text ['5'])] := by decide +kernel

/-! ## What fails -/

theorem shows_length {h : Dom} : ∀ {ts : List Tree} {is : List Nat}, ShowsAll h ts is → is.length = ts.length
  | [], _, hs => by rw [ShowsAll] at hs; rw [hs]; rfl
  | t :: ts, _, hs => by
    rw [ShowsAll] at hs
    obtain ⟨i, is, rfl, -, h2⟩ := hs
    simp [shows_length h2]

/-- Without `Shape`: a loop removes the siblings that were rendered before it. -/
theorem loop_siblings_violated : ∃ (x : Item Bool) (h : Dom) (ms : List (Inst Bool)),
    InRange true x ∧ Room doc0 0 x ∧ render true doc0 0 x = .ok (h, ms) ∧
      ¬ ShowsAll h (trees true x) (h.node 0).children := by
  refine ⟨.elem ['p'] [.text (.const ['a']), .forEach (fun _ => some []) .noop], _, _, ?_, ?_, rfl, fun hs => ?_⟩
  · simp [InRange, InRangeAll]
  · exact ⟨by decide, by simp [doc0], fun h => h.elim, by simp [attrNames], by simp [classNames]⟩
  · simp only [trees, treesAll, textNodes, ShowsAll, Shows] at hs
    obtain ⟨i, is, e, ⟨-, -, -, j, js, e2, -⟩, -⟩ := hs
    have e1 : i = 1 := by
      have : (1 : Nat) :: [] = i :: is := e
      simpa using (List.cons.inj this).1.symm
    subst e1
    have e3 : ([] : List Nat) = j :: js := e2
    cases e3

/-- Neither does a piece of HTML leave its siblings alone: the text before it is gone. -/
theorem html_siblings_violated :
    lookAt 0 (render true doc0 0 (.elem ['p'] [.text (.const ['a']), .html ['b']])) =
      .seen [(8, .elem ['p']), (7, .raw ['b'])] ∧
    (treesAll true [.text (.const ['a']), .html ['b']]).length = 2 := by
  exact ⟨by decide +kernel, rfl⟩

/-- Of a branch of several nodes only the last one is shown. -/
theorem branch_concat_violated :
    let x : Item Bool := .branch (fun _ => some 0) [.text (.concat [.const ['a'], .const ['b']])]
    lookAt 0 (render true doc0 0 x) = .seen [(8, .text ['b'])] ∧ (trees true x).length = 2 := by
  exact ⟨by decide +kernel, rfl⟩

/-- A branch that is to show nothing shows the branch before it. -/
theorem branch_noop_violated :
    let x : Item Bool := .branch (fun b => some (if b then 1 else 0)) [.text (.const ['a']), .noop]
    lookAt 0 (render true doc0 0 x) = .seen [(8, .text ['a'])] ∧ (trees true x).length = 0 := by
  exact ⟨by decide +kernel, rfl⟩

/-- If that is the first branch, the browser throws. -/
theorem branch_noop_first_violated :
    lookAt 0 (render true doc0 0 (.branch (fun b => some (if b then 0 else 1)) [.noop, .text (.const ['a'])])) =
      .fault .exception := by decide +kernel

/-- An attribute in a branch is not given to the element, although the specification has it there. -/
theorem branch_attr_violated : ∃ (h : Dom) (ms : List (Inst Bool)),
    render true doc0 0 (.elem ['p'] [.branch (fun b => some (if b then 1 else 0))
      [.text (.const ['a']), .attr ['k'] ['v']]]) = .ok (h, ms) ∧
    (h.node 1).attrs ['k'] = none ∧ (h.node 2).attrs ['k'] = some ['v'] ∧ (h.node 2).parent = none :=
  ⟨_, _, rfl, by decide +kernel, by decide +kernel, by decide +kernel⟩

/-- A match directly in a branch of a match: when both change, the browser throws (the FIXME in the code). -/
theorem nested_branch_violated :
    let x : Item (Bool × Bool) := .branch (fun s => some (if s.1 then 0 else 1))
      [.branch (fun s => some (if s.2 then 0 else 1)) [.text (.const ['a']), .text (.const ['b'])], .text (.const ['c'])]
    lookAt 0 (rerender x (true, true) [(true, false)]) = .fault .exception ∧
    lookAt 0 (rerender x (false, true) []) = .seen [(8, .text ['c'])] := by
  exact ⟨by decide +kernel, by decide +kernel⟩

/-- A match in a branch that is not shown any more: if its path no longer leads anywhere, the update indexes an
array with -1, although what is to be shown is defined. -/
theorem hidden_match_violated :
    let x : Item (Option Bool) := .branch (fun s => some (if s.isSome then 0 else 1))
      [.elem ['p'] [.branch (fun s => s.map fun b => if b then 0 else 1) [.text (.const ['a']), .text (.const ['b'])]],
        .text (.const ['c'])]
    lookAt 0 (rerender x (some true) [none]) = .fault .ub ∧
    lookAt 0 (rerender x none []) = .seen [(8, .text ['c'])] := by
  exact ⟨by decide +kernel, by decide +kernel⟩

/-- A match without a branch at first: when it gets one, that goes to the end and not to its place. -/
theorem late_match_violated :
    let x : Item (Option Nat) := .elem ['p'] [.branch id [.text (.const ['a'])], .text (.const ['b'])]
    lookAt 0 (rerender x none [some 0]) = .seen [(8, .elem ['p']), (7, .text ['b']), (7, .text ['a'])] ∧
    lookAt 0 (rerender x (some 0) []) = .seen [(8, .elem ['p']), (7, .text ['a']), (7, .text ['b'])] := by
  exact ⟨by decide +kernel, by decide +kernel⟩

/-- A text whose path no longer leads anywhere stays as it was. -/
theorem stale_text_violated :
    let x : Item (Option Text) := .text (.path id)
    lookAt 0 (rerender x (some ['a']) [none]) = .seen [(8, .text ['a'])] ∧
    lookAt 0 (rerender x none []) = .seen [(8, .text [])] := by
  exact ⟨by decide +kernel, by decide +kernel⟩

/-- The value of an attribute of node 1. -/
def attr1 (n : Text) : Except Fault (Dom × List (Inst S)) → Option Text
  | .ok (h, _) => (h.node 1).attrs n
  | .error _ => none

/-- An attribute that is given twice: the later one wins when it is rendered, and the other one after an update. -/
theorem twice_attr_violated :
    let x : Item Text := .elem ['p'] [.attrDyn ['k'] id, .attr ['k'] ['v']]
    attr1 ['k'] (rerender x ['a'] [['b']]) = some ['b'] ∧ attr1 ['k'] (rerender x ['b'] []) = some ['v'] := by
  exact ⟨by decide +kernel, by decide +kernel⟩

end Nbdl.Dom
