import Verif.WebSpec.Spec
import Verif.UiPath.Props
/-!
# Lemmas: a page with what its actions find, and the page with what its paths mean
-/
namespace Nbdl.WebSpec
open Spec Dom.Spec
variable {V Ty : Type} [DecidableEq Ty]

theorem valueAt_fine (w : UiPath.World V Ty) (p : UiPath.Path V Ty) (s : V) (h : UiPath.Spec.finePath w s p) :
    valueAt w p s = UiPath.Spec.path w s p := by
  rw [valueAt, UiPath.path_found_partial w s p h]
  cases UiPath.Spec.path w s p <;> rfl

theorem choose_eq (w : UiPath.World V Ty) (v : V) (ks : List (Pick Ty)) : ks.findIdx? (picks w v) = choose w v ks := by
  induction ks with
  | nil => rfl
  | cons x xs ih =>
    rw [List.findIdx?_cons, choose, ih]
    have e : picks w v x = suits w v x := by
      cases x with
      | type t =>
        cases t with
        | none => simp [picks, UiPath.isType, suits]
        | some t => simp [picks, UiPath.isType, suits]
      | cond i => simp [picks, suits]
    rw [e]

theorem branchIndex_fine (w : UiPath.World V Ty) (p : UiPath.Path V Ty) (ks : List (Pick Ty)) (s : V)
    (h : UiPath.Spec.finePath w s p) :
    branchIndex w p ks s = (UiPath.Spec.path w s p).bind fun v => choose w v ks := by
  rw [branchIndex, valueAt_fine w p s h]
  cases UiPath.Spec.path w s p with
  | none => rfl
  | some v => exact choose_eq w v ks

theorem attrText_fine (k : View V Ty) (ps : UiPath.Params V Ty) (s : V) (h : UiPath.Spec.fineAll k.toWorld s ps)
    (hp : UiPath.Spec.plainAll ps) : attrText k ps s = k.decode (UiPath.Spec.textAll k.toWorld k.view s ps) := by
  rw [attrText, UiPath.concat_text_partial k.toWorld k.view s ps h hp]

theorem any_some (w : UiPath.World V Ty) (o : Option V) (t : Ty) :
    (o.any fun v => decide (w.type v = t)) = decide (∃ v, o = some v ∧ w.type v = t) := by
  cases o <;> simp

/-! ## The shape does not depend on the values -/

theorem attrNames_same (k : View V Ty) : ∀ xs : List (Web V Ty), attrNames (compileAll k xs) = attrNames (meansAll k xs)
  | [] => rfl
  | x :: xs => by
    have ih := attrNames_same k xs
    rw [compileAll, meansAll]
    cases x <;> simp [compile, means, attrNames, ih]

theorem classNames_same (k : View V Ty) : ∀ xs : List (Web V Ty),
    classNames (compileAll k xs) = classNames (meansAll k xs)
  | [] => rfl
  | x :: xs => by
    have ih := classNames_same k xs
    rw [compileAll, meansAll]
    cases x <;> simp [compile, means, classNames, ih]

theorem isAttr_same (k : View V Ty) (x : Web V Ty) : IsAttr (compile k x) ↔ IsAttr (means k x) := by
  cases x <;> simp [compile, means, IsAttr]

theorem filler_same (k : View V Ty) (x : Web V Ty) : Filler (compile k x) ↔ Filler (means k x) := by
  cases x <;> simp [compile, means, Filler]

theorem oneNode_same (k : View V Ty) (x : Web V Ty) : OneNode (compile k x) ↔ OneNode (means k x) := by
  cases x with
  | text t => cases t <;> simp [compile, means, compileText, meansText, OneNode]
  | _ => simp [compile, means, OneNode]

theorem compileAll_map (k : View V Ty) : ∀ xs : List (Web V Ty), compileAll k xs = xs.map (compile k)
  | [] => rfl
  | x :: xs => by rw [compileAll, compileAll_map k xs, List.map_cons]

theorem meansAll_map (k : View V Ty) : ∀ xs : List (Web V Ty), meansAll k xs = xs.map (means k)
  | [] => rfl
  | x :: xs => by rw [meansAll, meansAll_map k xs, List.map_cons]

theorem pairwise_same (k : View V Ty) (xs : List (Web V Ty)) :
    ((compileAll k xs).Pairwise fun x y => (Filler x → IsAttr y) ∧ (Filler y → IsAttr x)) ↔
      (meansAll k xs).Pairwise fun x y => (Filler x → IsAttr y) ∧ (Filler y → IsAttr x) := by
  rw [compileAll_map, meansAll_map, List.pairwise_map, List.pairwise_map]
  simp only [isAttr_same, filler_same]

mutual
theorem shape_same (k : View V Ty) (x : Web V Ty) : Shape (compile k x) ↔ Shape (means k x) := by
  match x with
  | .elem tag items =>
    simp only [compile, means, Shape, shapeAll_same k items, attrNames_same, classNames_same, pairwise_same]
  | .branch p ks bs =>
    simp only [compile, means, Shape, shapeAll_same k bs]
    rw [compileAll_map, meansAll_map]
    simp only [List.mem_map, forall_exists_index, and_imp, forall_apply_eq_imp_iff₂, oneNode_same]
  | .forEach p key body => simp only [compile, means, Shape, shape_same k body, isAttr_same, filler_same]
  | .text _ | .attr .. | .attrDyn .. | .attrIf .. | .classIf .. | .classWhen .. | .html _ | .noop =>
    simp only [compile, means, Shape]
theorem shapeAll_same (k : View V Ty) (xs : List (Web V Ty)) : ShapeAll (compileAll k xs) ↔ ShapeAll (meansAll k xs) := by
  match xs with
  | [] => exact Iff.rfl
  | x :: xs => simp only [compileAll, meansAll, ShapeAll, shape_same k x, shapeAll_same k xs]
end

/-! ## In a store for which the paths are fine, the values agree -/

mutual
theorem text_same (k : View V Ty) (s : V) (t : TextSpec V Ty) (h : FineText k s t) :
    textNodes s (compileText k t) = textNodes s (meansText k t) := by
  match t with
  | .const _ => rfl
  | .path p =>
    rw [FineText] at h
    simp only [compileText, meansText, textNodes, valueAt_fine _ p s h]
  | .concat ts =>
    rw [FineText] at h
    simp only [compileText, meansText, textNodes, texts_same k s ts h]
theorem texts_same (k : View V Ty) (s : V) (ts : List (TextSpec V Ty)) (h : FineTexts k s ts) :
    textsNodes s (compileTexts k ts) = textsNodes s (meansTexts k ts) := by
  match ts with
  | [] => rfl
  | t :: ts =>
    rw [FineTexts] at h
    simp only [compileTexts, meansTexts, textsNodes, text_same k s t h.1, texts_same k s ts h.2]
end

theorem attrBy_same (k : View V Ty) (s : V) (n : Dom.Text) (x : Web V Ty) (h : Fine k s x) :
    attrBy s n (compile k x) = attrBy s n (means k x) := by
  cases x with
  | attrDyn m ps =>
    rw [Fine] at h
    simp only [compile, means, attrBy, attrText_fine k ps s h.1 h.2]
  | attrIf m p i =>
    rw [Fine] at h
    simp only [compile, means, attrBy, valueAt_fine _ p s h]
  | _ => simp [compile, means, attrBy]

theorem classBy_same (k : View V Ty) (s : V) (n : Dom.Text) (x : Web V Ty) (h : Fine k s x) :
    classBy s n (compile k x) = classBy s n (means k x) := by
  cases x with
  | classIf m p i =>
    rw [Fine] at h
    simp only [compile, means, classBy, valueAt_fine _ p s h]
  | classWhen m p t =>
    rw [Fine] at h
    simp only [compile, means, classBy, valueAt_fine _ p s h, any_some]
  | _ => simp [compile, means, classBy]

theorem attrOf_same (k : View V Ty) (s : V) (n : Dom.Text) : ∀ xs : List (Web V Ty), FineAll k s xs →
    attrOf s n (compileAll k xs) = attrOf s n (meansAll k xs)
  | [], _ => rfl
  | x :: xs, h => by
    rw [FineAll] at h
    simp only [compileAll, meansAll, attrOf, attrBy_same k s n x h.1, attrOf_same k s n xs h.2]

theorem classOf_same (k : View V Ty) (s : V) (n : Dom.Text) : ∀ xs : List (Web V Ty), FineAll k s xs →
    classOf s n (compileAll k xs) = classOf s n (meansAll k xs)
  | [], _ => rfl
  | x :: xs, h => by
    rw [FineAll] at h
    have ih := classOf_same k s n xs h.2
    rw [classOf, classOf] at ih
    simp only [compileAll, meansAll, classOf, List.any_cons, classBy_same k s n x h.1, ih]

theorem flatMap_same {α β : Type} (l : List α) (f g : α → List β) (h : ∀ a ∈ l, f a = g a) : l.flatMap f = l.flatMap g := by
  rw [List.flatMap_def, List.flatMap_def, List.map_congr_left h]

mutual
theorem trees_same (k : View V Ty) (s : V) (x : Web V Ty) (h : Fine k s x) :
    trees s (compile k x) = trees s (means k x) := by
  match x with
  | .elem tag items =>
    rw [Fine] at h
    simp only [compile, means, trees, treesAll_same k s items h]
    congr 2
    · funext n
      exact attrOf_same k s n items h
    · funext n
      exact classOf_same k s n items h
  | .text t =>
    rw [Fine] at h
    simp only [compile, means, trees, text_same k s t h]
  | .branch p ks bs =>
    rw [Fine] at h
    simp only [compile, means, trees, branchIndex_fine _ p ks s h.1]
    exact treesAt_same k s bs _ h.2
  | .forEach p key body =>
    rw [Fine] at h
    simp only [compile, means, trees, valueAt_fine _ p s h.1]
    cases e : UiPath.Spec.path k.toWorld s p with
    | none => rfl
    | some c => exact flatMap_same _ _ _ fun s' hs' => trees_same k s' body (h.2 c e s' hs')
  | .attr .. | .attrDyn .. | .attrIf .. | .classIf .. | .classWhen .. | .html _ | .noop =>
    simp only [compile, means, trees]
theorem treesAll_same (k : View V Ty) (s : V) (xs : List (Web V Ty)) (h : FineAll k s xs) :
    treesAll s (compileAll k xs) = treesAll s (meansAll k xs) := by
  match xs with
  | [] => rfl
  | x :: xs =>
    rw [FineAll] at h
    simp only [compileAll, meansAll, treesAll, trees_same k s x h.1, treesAll_same k s xs h.2]
theorem treesAt_same (k : View V Ty) (s : V) (xs : List (Web V Ty)) (o : Option Nat) (h : FineAll k s xs) :
    treesAt s (compileAll k xs) o = treesAt s (meansAll k xs) o := by
  match xs, o with
  | [], none | [], some _ | _ :: _, none => simp only [compileAll, meansAll, treesAt]
  | x :: xs, some 0 =>
    rw [FineAll] at h
    simp only [compileAll, meansAll, treesAt, trees_same k s x h.1]
  | x :: xs, some (i + 1) =>
    rw [FineAll] at h
    simp only [compileAll, meansAll, treesAt, treesAt_same k s xs (some i) h.2]
end

theorem length_same (k : View V Ty) (xs : List (Web V Ty)) : (compileAll k xs).length = (meansAll k xs).length := by
  rw [compileAll_map, meansAll_map, List.length_map, List.length_map]

mutual
theorem inRange_same (k : View V Ty) (s : V) (x : Web V Ty) (h : Fine k s x) :
    InRange s (compile k x) ↔ InRange s (means k x) := by
  match x with
  | .elem tag items =>
    rw [Fine] at h
    simp only [compile, means, InRange, inRangeAll_same k s items h]
  | .branch p ks bs =>
    rw [Fine] at h
    simp only [compile, means, InRange, branchIndex_fine _ p ks s h.1, inRangeAll_same k s bs h.2, length_same]
  | .forEach p key body =>
    rw [Fine] at h
    simp only [compile, means, InRange, valueAt_fine _ p s h.1]
    cases e : UiPath.Spec.path k.toWorld s p with
    | none => simp
    | some c =>
      exact ⟨fun g s' hs' => (inRange_same k s' body (h.2 c e s' hs')).1 (g s' hs'),
        fun g s' hs' => (inRange_same k s' body (h.2 c e s' hs')).2 (g s' hs')⟩
  | .text _ | .attr .. | .attrDyn .. | .attrIf .. | .classIf .. | .classWhen .. | .html _ | .noop =>
    simp only [compile, means, InRange]
theorem inRangeAll_same (k : View V Ty) (s : V) (xs : List (Web V Ty)) (h : FineAll k s xs) :
    InRangeAll s (compileAll k xs) ↔ InRangeAll s (meansAll k xs) := by
  match xs with
  | [] => exact Iff.rfl
  | x :: xs =>
    rw [FineAll] at h
    simp only [compileAll, meansAll, InRangeAll, inRange_same k s x h.1, inRangeAll_same k s xs h.2]
end

mutual
theorem matchedText_same (k : View V Ty) (s : V) (t : TextSpec V Ty) (h : FineText k s t) :
    MatchedText s (compileText k t) ↔ MatchedText s (meansText k t) := by
  match t with
  | .const _ => simp only [compileText, meansText]
  | .path p =>
    rw [FineText] at h
    simp only [compileText, meansText, MatchedText, valueAt_fine _ p s h]
  | .concat ts =>
    rw [FineText] at h
    simp only [compileText, meansText, MatchedText, matchedTexts_same k s ts h]
theorem matchedTexts_same (k : View V Ty) (s : V) (ts : List (TextSpec V Ty)) (h : FineTexts k s ts) :
    MatchedTexts s (compileTexts k ts) ↔ MatchedTexts s (meansTexts k ts) := by
  match ts with
  | [] => exact Iff.rfl
  | t :: ts =>
    rw [FineTexts] at h
    simp only [compileTexts, meansTexts, MatchedTexts, matchedText_same k s t h.1, matchedTexts_same k s ts h.2]
end

mutual
theorem matched_same (k : View V Ty) (s : V) (x : Web V Ty) (h : Fine k s x) :
    Matched s (compile k x) ↔ Matched s (means k x) := by
  match x with
  | .elem tag items =>
    rw [Fine] at h
    simp only [compile, means, Matched, matchedAll_same k s items h]
  | .text t =>
    rw [Fine] at h
    simp only [compile, means, Matched, matchedText_same k s t h]
  | .attrIf _ p i =>
    rw [Fine] at h
    simp only [compile, means, Matched, valueAt_fine _ p s h]
  | .classIf _ p i =>
    rw [Fine] at h
    simp only [compile, means, Matched, valueAt_fine _ p s h]
  | .branch p ks bs =>
    rw [Fine] at h
    simp only [compile, means, Matched, branchIndex_fine _ p ks s h.1]
    exact matchedAt_same k s bs _ h.2
  | .forEach .. | .attr .. | .attrDyn .. | .classWhen .. | .html _ | .noop =>
    simp only [compile, means, Matched]
theorem matchedAll_same (k : View V Ty) (s : V) (xs : List (Web V Ty)) (h : FineAll k s xs) :
    MatchedAll s (compileAll k xs) ↔ MatchedAll s (meansAll k xs) := by
  match xs with
  | [] => exact Iff.rfl
  | x :: xs =>
    rw [FineAll] at h
    simp only [compileAll, meansAll, MatchedAll, matched_same k s x h.1, matchedAll_same k s xs h.2]
theorem matchedAt_same (k : View V Ty) (s : V) (xs : List (Web V Ty)) (o : Option Nat) (h : FineAll k s xs) :
    MatchedAt s (compileAll k xs) o ↔ MatchedAt s (meansAll k xs) o := by
  match xs, o with
  | [], none | [], some _ | _ :: _, none => simp only [compileAll, meansAll, MatchedAt]
  | x :: xs, some 0 =>
    rw [FineAll] at h
    simp only [compileAll, meansAll, MatchedAt, matched_same k s x h.1]
  | x :: xs, some (i + 1) =>
    rw [FineAll] at h
    simp only [compileAll, meansAll, MatchedAt, matchedAt_same k s xs (some i) h.2]
end

end Nbdl.WebSpec
