import Verif.WebSpec.Lemmas
import Verif.Dom.Props
import Verif.UiPath.Exact
/-!
# Pages show what their paths mean (C152)
-/
namespace Nbdl.WebSpec
open Spec Dom.Spec
open UiPath (mkGet)
variable {V Ty : Type} [DecidableEq Ty]

theorem room_same (k : View V Ty) (x : Web V Ty) (h : Dom.Dom) (p : Nat) (hr : Dom.Room h p (means k x)) :
    Dom.Room h p (compile k x) := by
  have ea := attrNames_same k [x]
  have ec := classNames_same k [x]
  rw [compileAll, compileAll, meansAll, meansAll] at ea ec
  exact ⟨hr.node, hr.children, fun hf => hr.filler ((filler_same k x).1 hf), by rw [ea]; exact hr.attrs,
    by rw [ec]; exact hr.classes⟩

theorem sets_same (k : View V Ty) (x : Web V Ty) (s : V) (h h' : Dom.Dom) (p : Nat) (hf : Fine k s x)
    (hs : Dom.SetsOnly h h' p s (compile k x)) : Dom.SetsOnly h h' p s (means k x) := by
  have h1 : FineAll k s [x] := by rw [FineAll, FineAll]; exact ⟨hf, trivial⟩
  have ea := attrNames_same k [x]
  have ec := classNames_same k [x]
  have fa := fun n => attrOf_same k s n [x] h1
  have fc := fun n => classOf_same k s n [x] h1
  simp only [compileAll, meansAll] at ea ec fa fc
  rw [Dom.SetsOnly, ea, ec] at hs
  simp only [fa, fc] at hs
  exact hs

/-- **C152**, the first rendering: the page shows the values its paths lead to from the store.  Missing: pages with paths
for which the lookup is wrong (`default_alternative_violated`), or that the renderer does not render (see C47). -/
theorem page_rendered_partial (k : View V Ty) (x : Web V Ty) (s : V) (h : Dom.Dom) (p : Nat) (hf : Fine k s x)
    (hs : Shape (means k x)) (hr : InRange s (means k x)) (hp : Dom.Room h p (means k x)) :
    ∃ h' ms ids, Dom.render s h p (compile k x) = .ok (h', ms) ∧
      (h'.node p).children = (h.node p).children ++ ids ∧ ShowsAll h' (trees s (means k x)) ids ∧
      Dom.SetsOnly h h' p s (means k x) := by
  obtain ⟨h', ms, ids, e, hc, hsh, -, -, -, -, hset⟩ := Dom.render_correct_partial (compile k x) s h p ((shape_same k x).2 hs)
    ((inRange_same k s x hf).2 hr) (room_same k x h p hp)
  exact ⟨h', ms, ids, by rw [Dom.render, e]; rfl, hc, by rw [← trees_same k s x hf]; exact hsh, sets_same k x s h h' p hf hset⟩

/-- **C152**, after any number of changes: the page shows the values its paths lead to from the present store, if they all
lead somewhere. -/
theorem page_updated_partial (k : View V Ty) (x : Web V Ty) (s0 : V) (ss : List V) (s : V) (h : Dom.Dom) (p : Nat)
    (hf : ∀ s' ∈ s0 :: (ss ++ [s]), Fine k s' x) (hs : Shape (means k x))
    (hr : ∀ s' ∈ s0 :: (ss ++ [s]), InRange s' (means k x)) (hm : Matched s (means k x))
    (hp : Dom.Room h p (means k x)) :
    ∃ h1 m1 h2 m2 ids, Dom.render s0 h p (compile k x) = .ok (h1, m1) ∧ Dom.updates h1 m1 (ss ++ [s]) = .ok (h2, m2) ∧
      (h2.node p).children = (h.node p).children ++ ids ∧ ShowsAll h2 (trees s (means k x)) ids ∧
      Dom.SetsOnly h h2 p s (means k x) := by
  have hfs : Fine k s x := hf s (by simp)
  obtain ⟨h1, m1, h2, m2, ids, e1, e2, hc, hsh, -, -, -, -, hset⟩ := Dom.update_correct_partial (compile k x) s0 ss s h p
    ((shape_same k x).2 hs) (fun s' hs' => (inRange_same k s' x (hf s' hs')).2 (hr s' hs'))
    ((matched_same k s x hfs).2 hm) (room_same k x h p hp)
  exact ⟨h1, m1, h2, m2, ids, e1, e2, hc, by rw [← trees_same k s x hfs]; exact hsh, sets_same k x s h h2 p hfs hset⟩

/-! ## Elements of containers -/

variable [DecidableEq V]

/-- In the body of a loop, the path of the element leads to the element. -/
theorem element_path (k : View V Ty) (elements : V → List V) (d : V) (key outer : Held V) (e : V) :
    UiPath.Spec.path (withElements k elements d).toWorld (.element key e outer)
      (mkGet (.cons (.const key) .nil)) = some (.plain e) := by
  rw [UiPath.get_means]
  simp [UiPath.Spec.params, UiPath.Spec.param, UiPath.Spec.follow, withElements, heldChild]

/-- Any other key leads to where it leads from the store around the loop. -/
theorem outer_path (k : View V Ty) (elements : V → List V) (d : V) (key outer k1 : Held V) (e : V)
    (ks : UiPath.Params (Held V) Ty) (vs : List (Held V)) (hne : k1 ≠ key)
    (h1 : UiPath.Spec.params (withElements k elements d).toWorld (.element key e outer) ks = some vs)
    (h2 : UiPath.Spec.params (withElements k elements d).toWorld outer ks = some vs) :
    UiPath.Spec.path (withElements k elements d).toWorld (.element key e outer) (mkGet (.cons (.const k1) ks)) =
      UiPath.Spec.path (withElements k elements d).toWorld outer (mkGet (.cons (.const k1) ks)) := by
  rw [UiPath.get_means, UiPath.get_means]
  simp only [UiPath.Spec.params, UiPath.Spec.param, h1, h2]
  have e1 : (withElements k elements d).child (.element key e outer) k1 = (withElements k elements d).child outer k1 := by
    show heldChild k.child (.element key e outer) k1 = heldChild k.child outer k1
    rw [heldChild, if_neg hne]
  simp [UiPath.Spec.follow, e1]

/-- Constant keys. -/
def Spec.keys : List V → UiPath.Params V Ty
  | [] => .nil
  | k :: ks => .cons (.const k) (Spec.keys ks)

theorem params_keys (w : UiPath.World V Ty) (s : V) : ∀ ks : List V, UiPath.Spec.params w s (Spec.keys ks) = some ks
  | [] => rfl
  | k :: ks => by simp [Spec.keys, UiPath.Spec.params, UiPath.Spec.param, params_keys w s ks]

/-- In the body of a loop, keys that are not that of the element lead from the program's store to where they lead
outside. -/
theorem inside_as_outside (k : View V Ty) (elements : V → List V) (d : V) (key : Held V) (e s k1 : V) (ks : List V)
    (hne : Held.plain k1 ≠ key) :
    UiPath.Spec.path (withElements k elements d).toWorld (.element key e (.plain s))
        (mkGet (Spec.keys ((k1 :: ks).map .plain))) =
      (UiPath.Spec.path k.toWorld s (mkGet (Spec.keys (k1 :: ks)))).map .plain := by
  have hplain : ∀ (ks : List V) (v : Option V),
      UiPath.Spec.follow (withElements k elements d).toWorld (v.map Held.plain) (ks.map .plain)
        = (UiPath.Spec.follow k.toWorld v ks).map .plain := by
    intro ks
    induction ks with
    | nil => intro v; cases v <;> rfl
    | cons a ks ih =>
      intro v
      cases v with
      | none => rfl
      | some v => exact ih (k.child v a)
  rw [UiPath.get_means, UiPath.get_means, params_keys, params_keys]
  have e1 : (withElements k elements d).child (.element key e (.plain s)) (.plain k1) = (k.child s k1).map .plain := by
    show heldChild k.child (.element key e (.plain s)) (.plain k1) = _
    rw [heldChild, if_neg hne, heldChild]
  simp only [List.map_cons, Option.bind_some, UiPath.Spec.follow]
  rw [e1]
  exact hplain ks (k.child s k1)

/-- A loop whose body is the text of the element shows the elements of the container, in order. -/
theorem loop_shows (k : View V Ty) (elements : V → List V) (d : V) (p : UiPath.Path (Held V) Ty) (key s : Held V) (c : V)
    (hc : UiPath.Spec.path (withElements k elements d).toWorld s p = some (.plain c)) :
    trees s (means (withElements k elements d) (mkForEach p key fun q => .text (.path q))) =
      (elements c).map fun e => Tree.text (k.label e) := by
  simp only [mkForEach, means, trees, hc, meansText, textNodes, Option.map_some, Option.getD_some]
  rw [show (withElements k elements d).range key (.plain c) s = (elements c).map fun e => Held.element key e s from rfl,
    List.flatMap_map]
  simp only [element_path]
  induction elements c with
  | nil => rfl
  | cons a l ih => rw [List.flatMap_cons, ih, List.map_cons]; rfl

/-! ## Example: a list with a heading, whose class, attribute and items change -/

/-- Stores: 0 and 1; key 1 leads to a title, key 2 to a list; values 10 and 11 are titles, 20 and 21 lists. -/
def exView : View Nat Nat where
  child s k := match s, k with
    | 0, 1 => some 10
    | 1, 1 => some 11
    | 0, 2 => some 20
    | 1, 2 => some 21
    | _, _ => none
  type v := v / 10
  fn _ _ := 0
  pred i v := decide (v = i)
  label v := (toString v).toList
  view v := [BitVec.ofNat 8 v]
  decode b := b.map fun x => Char.ofNat x.toNat
  range _ _ _ := []

def exHeld : View (Held Nat) Nat := withElements exView (fun c => if c = 20 then [5, 6] else if c = 21 then [7] else []) 0

/-- In a loop over the list of store 0 with key 3, key 1 leads to the title. -/
example : UiPath.Spec.path exHeld.toWorld (.element (.plain 3) 5 (.plain 0)) (mkGet (Spec.keys [.plain 1]))
    = some (.plain 10) :=
  inside_as_outside exView _ 0 (.plain 3) 5 0 1 [] (by decide)

def at' (n : Nat) : UiPath.Path (Held Nat) Nat := mkGet (.cons (.const (.plain n)) .nil)

/-- The key of the loop is 99. -/
def exPage : Web (Held Nat) Nat :=
  .elem "div".toList
    [.classIf "new".toList (at' 1) 11,
     .attrDyn "title".toList (.cons (.const (.plain 65)) (.cons (.path (at' 1)) .nil)),
     .text (.path (at' 1)),
     .branch (at' 1) [.cond 10, .type none] [.text (.const "old".toList), .text (.path (at' 1))],
     .elem "ul".toList [mkForEach (at' 2) (.plain 99) fun q => .elem "li".toList [.text (.path q), .text (.path (at' 1))]]]

theorem exPage_fine (n : Nat) (_ : n < 2) : Fine exHeld (.plain n) exPage := by
  simp [exPage, Fine, FineAll, FineText, mkForEach, at', mkGet, UiPath.Spec.finePath, UiPath.Spec.fineAll,
    UiPath.Spec.fine, UiPath.Spec.plainAll, UiPath.Spec.plain]

/-- What a document shows at a node: kinds and, for elements, the class "new" and the attribute "title". -/
def look (h : Dom.Dom) : Nat → Nat → List (Dom.Kind × Bool × Option Dom.Text)
  | 0, _ => []
  | f + 1, i =>
    ((h.node i).kind, (h.node i).classes "new".toList, (h.node i).attrs "title".toList) :: (h.node i).children.flatMap (look h f)

def doc : Dom.Dom := ⟨fun _ => ⟨.elem "body".toList, fun _ => none, fun _ => false, [], none⟩, 1⟩

theorem exPage_hyps (n : Nat) (hn : n < 2) : Shape (means exHeld exPage) ∧ InRange (.plain n) (means exHeld exPage) ∧
    Matched (.plain n) (means exHeld exPage) ∧ Dom.Room doc 0 (means exHeld exPage) := by
  have p1 (n : Nat) (hn : n < 2) : UiPath.Spec.path exHeld.toWorld (.plain n) (at' 1) = some (.plain (10 + n)) := by
    have : n = 0 ∨ n = 1 := by omega
    rcases this with rfl | rfl <;>
      simp [at', UiPath.get_means, UiPath.Spec.params, UiPath.Spec.param, UiPath.Spec.follow, exHeld, withElements, heldChild,
        exView]
  have ch : ∃ i, choose exHeld.toWorld (.plain (10 + n)) [.cond 10, .type none] = some i ∧ i < 2 := by
    have : n = 0 ∨ n = 1 := by omega
    rcases this with rfl | rfl
    · exact ⟨0, by decide +kernel, by decide⟩
    · exact ⟨1, by decide +kernel, by decide⟩
  refine ⟨?_, ?_, ?_, ?_⟩
  · simp [exPage, mkForEach, means, meansAll, meansText, Shape, ShapeAll, attrNames, classNames, Filler, IsAttr, OneNode]
  · simp only [exPage, mkForEach, means, meansAll, InRange, InRangeAll, p1 n hn, Option.bind_some]
    exact ⟨trivial, trivial, trivial, ⟨ch, trivial, trivial, trivial⟩, ⟨fun _ _ => ⟨trivial, trivial, trivial⟩, trivial⟩, trivial⟩
  · obtain ⟨i, hi, hl⟩ := ch
    simp only [exPage, mkForEach, means, meansAll, meansText, Matched, MatchedAll, MatchedText, p1 n hn, Option.bind_some, hi,
      Option.map_some]
    have : i = 0 ∨ i = 1 := by omega
    rcases this with rfl | rfl <;> simp [MatchedAt, Matched, MatchedText, p1 n hn]
  · exact ⟨by decide, by simp [doc], fun h => by simp [exPage, means, Filler] at h,
      by simp [exPage, means, attrNames], by simp [exPage, means, classNames]⟩

example : ∃ h ms ids, Dom.render (.plain 0) doc 0 (compile exHeld exPage) = .ok (h, ms) ∧
    (h.node 0).children = [] ++ ids ∧ ShowsAll h (trees (.plain 0) (means exHeld exPage)) ids ∧
    Dom.SetsOnly doc h 0 (.plain 0) (means exHeld exPage) :=
  page_rendered_partial exHeld exPage (.plain 0) doc 0 (exPage_fine 0 (by decide)) (exPage_hyps 0 (by decide)).1
    (exPage_hyps 0 (by decide)).2.1 (exPage_hyps 0 (by decide)).2.2.2

example : ∃ h1 m1 h2 m2 ids, Dom.render (.plain 0) doc 0 (compile exHeld exPage) = .ok (h1, m1) ∧
    Dom.updates h1 m1 ([.plain 0] ++ [.plain 1]) = .ok (h2, m2) ∧
    (h2.node 0).children = [] ++ ids ∧ ShowsAll h2 (trees (.plain 1) (means exHeld exPage)) ids ∧
    Dom.SetsOnly doc h2 0 (.plain 1) (means exHeld exPage) :=
  page_updated_partial exHeld exPage (.plain 0) [.plain 0] (.plain 1) doc 0
    (by simp [exPage_fine]) (exPage_hyps 0 (by decide)).1
    (by
      have h0 := (exPage_hyps 0 (by decide)).2.1
      have h1 := (exPage_hyps 1 (by decide)).2.1
      simp [h0, h1])
    (exPage_hyps 1 (by decide)).2.2.1 (exPage_hyps 0 (by decide)).2.2.2

def shownAt (r : Except Dom.Fault (Dom.Dom × List (Dom.Inst (Held Nat)))) : List (Dom.Kind × Bool × Option Dom.Text) :=
  match r with
  | .ok (h, _) => look h 5 0
  | .error _ => []

/-- The page as the code renders it: title 10, not new, the elements 5 and 6. -/
example : shownAt (Dom.render (.plain 0) doc 0 (compile exHeld exPage)) =
    [(.elem "body".toList, false, none), (.elem "div".toList, false, some ['A', '\n']), (.text ['1', '0'], false, none),
     (.text "old".toList, false, none), (.elem "ul".toList, false, none),
     (.elem "li".toList, false, none), (.text ['5'], false, none), (.text ['1', '0'], false, none),
     (.elem "li".toList, false, none), (.text ['6'], false, none), (.text ['1', '0'], false, none)] := by
  decide +kernel

/-- After a change: title 11, new, the element 7. -/
example : shownAt ((Dom.render (.plain 0) doc 0 (compile exHeld exPage)).bind fun r => Dom.updates r.1 r.2 [.plain 1]) =
    [(.elem "body".toList, false, none), (.elem "div".toList, true, some ['A', Char.ofNat 11]), (.text ['1', '1'], false, none),
     (.text ['1', '1'], false, none), (.elem "ul".toList, false, none),
     (.elem "li".toList, false, none), (.text ['7'], false, none), (.text ['1', '1'], false, none)] := by
  decide +kernel

/-! ## The default alternative -/

omit [DecidableEq V] in
/-- Nothing is found at a path that was narrowed to `void`. -/
theorem void_nothing (w : UiPath.World V Ty) (ps : UiPath.Params V Ty) (rest : UiPath.Path V Ty) (s : V) :
    valueAt w (.matchType none ps rest) s = none := by
  rw [valueAt, UiPath.matchPath, UiPath.found_path, UiPath.Spec.foundPath]
  rcases UiPath.Spec.foundPath w s rest with (_ | v) | _
  · rfl
  · simp only [UiPath.Spec.thenFind, Cpp.bind]
    rcases UiPath.Spec.foundAll w v ps with (_ | ks) | _
    · rfl
    · simp only [reduceCtorEq, decide_false]
      cases UiPath.Spec.follow w (some v) ks <;> rfl
    · rfl
  · rfl

omit [DecidableEq V] in
/-- **C152 is violated** by the default alternative of a `match` in every page: a text of the path it is given stays empty,
whatever the path leads to. -/
theorem default_alternative_violated (k : View V Ty) (as : UiPath.Params V Ty) (rest : UiPath.Path V Ty) (s v : V)
    (h : Dom.Dom) (p : Nat) (hp : p < h.next) (hl : ∀ c ∈ (h.node p).children, c < h.next)
    (hv : UiPath.Spec.path k.toWorld s (.get as rest) = some v) :
    ∃ x, mkMatch (.get as rest) [(none, fun q => Web.text (.path q))] = some x ∧
      trees s (means k x) = [.text (k.label v)] ∧
      (valueAt k.toWorld (.get as rest) s = some v →
        ∃ h' ms i, Dom.render s h p (compile k x) = .ok (h', ms) ∧ (h'.node p).children = (h.node p).children ++ [i] ∧
          Shows h' (.text []) i) := by
  have hq : UiPath.Spec.path k.toWorld s (.matchType none as rest) = some v := by
    rw [UiPath.Spec.path] at hv
    rw [UiPath.Spec.path]
    revert hv
    rcases UiPath.Spec.path k.toWorld s rest with _ | u
    · simp
    · rcases UiPath.Spec.params k.toWorld s as with _ | ks
      · simp
      · intro hv
        simp only at hv
        simp [hv, UiPath.Spec.fits, Option.filter]
  refine ⟨.branch (.get as rest) [.type none] [.text (.path (.matchType none as rest))], rfl, ?_, fun hf => ?_⟩
  · simp [means, meansAll, meansText, trees, hv, choose, suits, treesAt, textNodes, hq]
  · obtain ⟨h', ms, ids, e, hc, hsh, -⟩ := Dom.render_correct_partial
      (compile k (.branch (.get as rest) [.type none] [.text (.path (.matchType none as rest))])) s h p
      (by simp [compile, compileAll, compileText, Shape, ShapeAll, OneNode])
      (by
        simp only [compile, compileAll, InRange, InRangeAll, branchIndex, hf]
        exact ⟨⟨0, by simp [picks, UiPath.isType], by simp⟩, trivial, trivial⟩)
      ⟨hp, hl, fun h => by simp [compile, Filler] at h, by simp [compile, attrNames], by simp [compile, classNames]⟩
    have ht : trees s (compile k (.branch (.get as rest) [.type none] [.text (.path (.matchType none as rest))])) =
        [.text []] := by
      simp [compile, compileAll, compileText, trees, branchIndex, hf, picks, UiPath.isType, treesAt, textNodes, void_nothing]
    rw [ht] at hsh
    simp only [ShowsAll] at hsh
    obtain ⟨i, is, rfl, h1, rfl⟩ := hsh
    exact ⟨h', ms, i, by rw [Dom.render, e]; rfl, hc, h1⟩

example : ∃ x, mkMatch (at' 1) [(none, fun q => Web.text (.path q))] = some x ∧
    trees (.plain 1) (means exHeld x) = [.text ['1', '1']] ∧
    shownAt (Dom.render (.plain 1) doc 0 (compile exHeld x)) =
      [(.elem "body".toList, false, none), (.text [], false, none)] := by
  refine ⟨.branch (at' 1) [.type none] [.text (.path (.matchType none (.cons (.const (.plain 1)) .nil) .nil))], rfl, ?_, ?_⟩
  · simp [means, meansAll, meansText, trees, at', mkGet, UiPath.Spec.path, UiPath.Spec.params, UiPath.Spec.param,
      UiPath.Spec.follow, exHeld, withElements, heldChild, exView, choose, suits, treesAt, textNodes, UiPath.Spec.fits,
      Option.filter, Held.value]
    decide
  · decide +kernel

end Nbdl.WebSpec
