import Verif.WebSpec.Props
import Verif.Dom.Right
/-!
# Exactly when a page shows what its paths mean (C152)

And what it shows for paths of any kind: what the lookup finds (`UiPath.Spec.foundPath`), instead of what the path means.
-/
namespace Nbdl.WebSpec
open Spec Dom.Spec
variable {V Ty : Type} [DecidableEq Ty]

theorem lastOf_same {S α : Type} (o : S × List S) (f g : S → Option α) (h : ∀ s ∈ o.1 :: o.2, f s = g s) :
    lastOf o f = lastOf o g := by
  rw [lastOf, lastOf]
  generalize o.1 :: o.2 = l at h
  induction l with
  | nil => rfl
  | cons a l ih =>
    rw [List.findSome?_cons, List.findSome?_cons, h a (by simp), ih fun s hs => h s (by simp [hs])]

mutual
theorem currentText_same (k : View V Ty) (o : V × List V) (t : TextSpec V Ty) (h : ∀ s ∈ o.1 :: o.2, FineText k s t) :
    CurrentText o (compileText k t) ↔ CurrentText o (meansText k t) := by
  match t with
  | .const _ => simp only [compileText, meansText]
  | .path p =>
    simp only [FineText] at h
    simp only [compileText, meansText, CurrentText, valueAt_fine _ p o.1 (h o.1 (by simp))]
    rw [lastOf_same o _ (fun s => (UiPath.Spec.path k.toWorld s p).map k.label) fun s hs => by
      rw [valueAt_fine _ p s (h s hs)]]
  | .concat ts =>
    simp only [FineText] at h
    simp only [compileText, meansText, CurrentText, currentTexts_same k o ts h]
theorem currentTexts_same (k : View V Ty) (o : V × List V) (ts : List (TextSpec V Ty))
    (h : ∀ s ∈ o.1 :: o.2, FineTexts k s ts) :
    CurrentTexts o (compileTexts k ts) ↔ CurrentTexts o (meansTexts k ts) := by
  match ts with
  | [] => exact Iff.rfl
  | t :: ts =>
    simp only [FineTexts] at h
    simp only [compileTexts, meansTexts, CurrentTexts, currentText_same k o t fun s hs => (h s hs).1,
      currentTexts_same k o ts fun s hs => (h s hs).2]
end

mutual
theorem current_same (k : View V Ty) (o : V × List V) (x : Web V Ty) (h : ∀ s ∈ o.1 :: o.2, Fine k s x) :
    Current o (compile k x) ↔ Current o (means k x) := by
  match x with
  | .elem tag items =>
    simp only [Fine] at h
    simp only [compile, means, Current, currentAll_same k o items h]
  | .text t =>
    simp only [Fine] at h
    simp only [compile, means, Current, currentText_same k o t h]
  | .attrIf _ p i =>
    simp only [Fine] at h
    simp only [compile, means, Current, valueAt_fine _ p o.1 (h o.1 (by simp))]
    rw [lastOf_same o _ (fun s => (UiPath.Spec.path k.toWorld s p).map fun v => k.pred i v) fun s hs => by
      rw [valueAt_fine _ p s (h s hs)]]
  | .classIf _ p i =>
    simp only [Fine] at h
    simp only [compile, means, Current, valueAt_fine _ p o.1 (h o.1 (by simp))]
    rw [lastOf_same o _ (fun s => (UiPath.Spec.path k.toWorld s p).map fun v => k.pred i v) fun s hs => by
      rw [valueAt_fine _ p s (h s hs)]]
  | .branch p ks bs =>
    simp only [Fine] at h
    simp only [compile, means, Current, branchIndex_fine _ p ks o.1 (h o.1 (by simp)).1]
    exact currentAt_same k o bs _ fun s hs => (h s hs).2
  | .forEach .. | .attr .. | .attrDyn .. | .classWhen .. | .html _ | .noop =>
    simp only [compile, means, Current]
theorem currentAll_same (k : View V Ty) (o : V × List V) (xs : List (Web V Ty)) (h : ∀ s ∈ o.1 :: o.2, FineAll k s xs) :
    CurrentAll o (compileAll k xs) ↔ CurrentAll o (meansAll k xs) := by
  match xs with
  | [] => exact Iff.rfl
  | x :: xs =>
    simp only [FineAll] at h
    simp only [compileAll, meansAll, CurrentAll, current_same k o x fun s hs => (h s hs).1,
      currentAll_same k o xs fun s hs => (h s hs).2]
theorem currentAt_same (k : View V Ty) (o : V × List V) (xs : List (Web V Ty)) (i : Option Nat)
    (h : ∀ s ∈ o.1 :: o.2, FineAll k s xs) :
    CurrentAt o (compileAll k xs) i ↔ CurrentAt o (meansAll k xs) i := by
  match xs, i with
  | [], none | [], some _ | _ :: _, none => simp only [compileAll, meansAll, CurrentAt]
  | x :: xs, some 0 =>
    simp only [FineAll] at h
    simp only [compileAll, meansAll, CurrentAt, current_same k o x fun s hs => (h s hs).1]
  | x :: xs, some (i + 1) =>
    simp only [FineAll] at h
    simp only [compileAll, meansAll, CurrentAt, currentAt_same k o xs (some i) fun s hs => (h s hs).2]
end

theorem sets_iff (k : View V Ty) (x : Web V Ty) (s : V) (h h' : Dom.Dom) (p : Nat) (hf : Fine k s x) :
    Dom.SetsOnly h h' p s (compile k x) ↔ Dom.SetsOnly h h' p s (means k x) := by
  have h1 : FineAll k s [x] := by rw [FineAll, FineAll]; exact ⟨hf, trivial⟩
  have ea := attrNames_same k [x]
  have ec := classNames_same k [x]
  have fa := fun n => attrOf_same k s n [x] h1
  have fc := fun n => classOf_same k s n [x] h1
  simp only [compileAll, meansAll] at ea ec fa fc
  rw [Dom.SetsOnly, Dom.SetsOnly, ea, ec]
  simp only [fa, fc]

/-- C152, exactly, for pages whose paths the lookup treats rightly and which the renderer can render: after any number of
changes the page shows what its paths lead to from the present store just if, for every path that is shown, the last value
it led to is the present one, where a path that leads nowhere stands for no text and for an attribute or class that is not
there. -/
theorem page_right_iff (k : View V Ty) (x : Web V Ty) (s0 : V) (ss : List V) (s : V) (h : Dom.Dom) (p : Nat)
    (hf : ∀ s' ∈ s0 :: (ss ++ [s]), Fine k s' x) (hs : Shape (means k x))
    (hr : ∀ s' ∈ s0 :: (ss ++ [s]), InRange s' (means k x)) (hp : Dom.Room h p (means k x)) :
    ∃ h1 m1 h2 m2 ids, Dom.render s0 h p (compile k x) = .ok (h1, m1) ∧ Dom.updates h1 m1 (ss ++ [s]) = .ok (h2, m2) ∧
      (h2.node p).children = (h.node p).children ++ ids ∧
      (ShowsAll h2 (trees s (means k x)) ids ∧ Dom.SetsOnly h h2 p s (means k x) ↔
        Current (s, ss.reverse ++ [s0]) (means k x)) := by
  have hfs : Fine k s x := hf s (by simp)
  obtain ⟨h1, m1, h2, m2, ids, e1, e2, hc, hiff⟩ := Dom.update_right_iff (compile k x) s0 ss s h p
    ((shape_same k x).2 hs) (fun s' hs' => (inRange_same k s' x (hf s' hs')).2 (hr s' hs')) (room_same k x h p hp)
  refine ⟨h1, m1, h2, m2, ids, e1, e2, hc, ?_⟩
  rw [← trees_same k s x hfs, ← sets_iff k x s h h2 p hfs, ← current_same k (s, ss.reverse ++ [s0]) x fun s' hs' => hf s' (by
    simp only [List.mem_cons, List.mem_append, List.mem_reverse, List.not_mem_nil, or_false] at hs' ⊢
    rcases hs' with h | h | h
    · exact Or.inr (Or.inr h)
    · exact Or.inr (Or.inl h)
    · exact Or.inl h)]
  exact hiff

/-- The page of a title only; in store 2 there is none. -/
def exTitle : Web (Held Nat) Nat := .text (.path (at' 1))

/-- A title that is gone is still shown, and this is seen from the condition. -/
example : ¬ Current (Held.plain 2, [Held.plain 0]) (means exHeld exTitle) ∧
    Current (Held.plain 1, [Held.plain 0]) (means exHeld exTitle) := by
  constructor <;>
    simp [exTitle, means, meansText, Current, CurrentText, lastOf, at', UiPath.mkGet, UiPath.Spec.path, UiPath.Spec.params,
      UiPath.Spec.param, UiPath.Spec.follow, exHeld, withElements, heldChild, exView, Held.value, List.findSome?] <;> decide

example : shownAt ((Dom.render (.plain 0) doc 0 (compile exHeld exTitle)).bind fun r => Dom.updates r.1 r.2 [.plain 2]) =
    [(.elem "body".toList, false, none), (.text ['1', '0'], false, none)] := by decide +kernel

/-! ## Paths of any kind -/

/-- What an action gets for any path: what the lookup finds, on the path as it was written. -/
theorem value_exact (w : UiPath.World V Ty) (p : UiPath.Path V Ty) (s : V) (o : Option V)
    (h : UiPath.Spec.foundPath w s p = .ok o) : valueAt w p s = o := by
  rw [valueAt, UiPath.matchPath, UiPath.found_path, h]
  cases o <;> rfl

/-- The text of an attribute for any parameters. -/
theorem attr_exact (k : View V Ty) (ps : UiPath.Params V Ty) (s : V) (b : List Byte)
    (h : UiPath.Spec.saidAll k.toWorld k.view s ps = .ok b) : attrText k ps s = k.decode b := by
  rw [attrText, UiPath.said_params, h]

/-- A text of a path is right when it is rendered just if the lookup finds what the path means, up to how it is written. -/
theorem text_right_iff (k : View V Ty) (p : UiPath.Path V Ty) (s : V) (h : Dom.Dom) (i : Nat) (o : Option V)
    (hi : i < h.next) (hl : ∀ c ∈ (h.node i).children, c < h.next) (hp : UiPath.Spec.foundPath k.toWorld s p = .ok o) :
    ∃ h' ms ids, Dom.render s h i (compile k (.text (.path p))) = .ok (h', ms) ∧
      (h'.node i).children = (h.node i).children ++ ids ∧
      (ShowsAll h' (trees s (means k (.text (.path p)))) ids ↔
        (o.map k.label).getD [] = ((UiPath.Spec.path k.toWorld s p).map k.label).getD []) := by
  obtain ⟨h', ms, ids, e, hc, hsh, -⟩ := Dom.render_correct_partial (compile k (.text (.path p))) s h i
    (by simp [compile, compileText, Shape]) (by simp [compile, compileText, InRange])
    ⟨hi, hl, fun h => by simp [compile, Filler] at h, by simp [compile, attrNames], by simp [compile, classNames]⟩
  refine ⟨h', ms, ids, by rw [Dom.render, e]; rfl, hc, ?_⟩
  simp only [compile, compileText, trees, textNodes, value_exact k.toWorld p s o hp, ShowsAll, Shows] at hsh
  obtain ⟨j, is, rfl, hk, rfl⟩ := hsh
  simp only [means, meansText, trees, textNodes, ShowsAll, Shows]
  constructor
  · rintro ⟨j', is', hj, hk', -⟩
    obtain ⟨rfl, -⟩ := List.cons.inj hj
    rw [hk] at hk'
    exact Dom.Kind.text.inj hk'
  · intro he
    exact ⟨j, [], rfl, by rw [hk, he], rfl⟩

/-- A path narrowed to the wrong type finds nothing and means nothing; narrowed to `void` it finds nothing and means
something. -/
example : UiPath.Spec.foundPath exHeld.toWorld (.plain 1) (.matchType none (.cons (.const (.plain 1)) .nil) .nil) = .ok none ∧
    UiPath.Spec.path exHeld.toWorld (.plain 1) (.matchType none (.cons (.const (.plain 1)) .nil) .nil) =
      some (.plain 11) := by
  constructor <;>
    simp [UiPath.Spec.foundPath, UiPath.Spec.foundAll, UiPath.Spec.found, UiPath.Spec.thenFind, Cpp.bind, UiPath.Spec.path,
      UiPath.Spec.params, UiPath.Spec.param, UiPath.Spec.follow, UiPath.Spec.fits, exHeld, withElements, heldChild, exView,
      Option.filter]

end Nbdl.WebSpec
