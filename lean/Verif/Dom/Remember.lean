import Verif.Dom.Update
/-!
# When the past does not matter
-/
namespace Nbdl.Dom
open Spec

variable {S : Type}

/-! ### Current is enough -/

mutual
theorem text_current {o : S × List S} : ∀ t : TextSpec S, CurrentText o t →
    textNodes o (rememberText t) = textNodes o.1 t
  | .const v, _ => by rw [rememberText, textNodes, textNodes]
  | .path f, h => by
    rw [CurrentText] at h
    rw [rememberText, textNodes, textNodes, h]
  | .concat ts, h => by
    rw [CurrentText] at h
    rw [rememberText, textNodes, textNodes, texts_current ts h]
theorem texts_current {o : S × List S} : ∀ ts : List (TextSpec S), CurrentTexts o ts →
    textsNodes o (rememberTexts ts) = textsNodes o.1 ts
  | [], _ => by rw [rememberTexts, textsNodes, textsNodes]
  | t :: ts, h => by
    rw [CurrentTexts] at h
    rw [rememberTexts, textsNodes, textsNodes, text_current t h.1, texts_current ts h.2]
end

mutual
theorem currentText_new (s : S) : ∀ t : TextSpec S, CurrentText (s, []) t
  | .const _ => by rw [CurrentText]; trivial
  | .path f => by rw [CurrentText, lastOf_new]
  | .concat ts => by rw [CurrentText]; exact currentTexts_new s ts
theorem currentTexts_new (s : S) : ∀ ts : List (TextSpec S), CurrentTexts (s, []) ts
  | [] => by rw [CurrentTexts]; trivial
  | t :: ts => by rw [CurrentTexts]; exact ⟨currentText_new s t, currentTexts_new s ts⟩
end

mutual
theorem current_new (s : S) : ∀ x : Item S, Current (s, []) x
  | .elem _ items => by rw [Current]; exact currentAll_new s items
  | .text t => by rw [Current]; exact currentText_new s t
  | .attrIf _ f => by rw [Current, lastOf_new]
  | .classIf _ f => by rw [Current, lastOf_new]
  | .branch f bs => by rw [Current]; exact currentAt_new s bs (f s)
  | .attr .. | .attrDyn .. | .classWhen .. | .forEach .. | .html _ | .noop => by simp [Current]
theorem currentAll_new (s : S) : ∀ xs : List (Item S), CurrentAll (s, []) xs
  | [] => by rw [CurrentAll]; trivial
  | x :: xs => by rw [CurrentAll]; exact ⟨current_new s x, currentAll_new s xs⟩
theorem currentAt_new (s : S) : ∀ (xs : List (Item S)) (i : Option Nat), CurrentAt (s, []) xs i
  | _, none => by simp [CurrentAt]
  | [], some _ => by simp [CurrentAt]
  | x :: _, some 0 => by rw [CurrentAt]; exact current_new s x
  | _ :: xs, some (i + 1) => by rw [CurrentAt]; exact currentAt_new s xs (some i)
end

mutual
theorem currentText_matched {s : S} {l : List S} : ∀ t : TextSpec S, MatchedText s t → CurrentText (s, l) t
  | .const _, _ => by rw [CurrentText]; trivial
  | .path f, h => by
    rw [MatchedText] at h
    rw [CurrentText, lastOf, List.findSome?_cons]
    cases e : f s with
    | none => exact absurd e h
    | some v => rfl
  | .concat ts, h => by rw [MatchedText] at h; rw [CurrentText]; exact currentTexts_matched ts h
theorem currentTexts_matched {s : S} {l : List S} : ∀ ts : List (TextSpec S), MatchedTexts s ts → CurrentTexts (s, l) ts
  | [], _ => by rw [CurrentTexts]; trivial
  | t :: ts, h => by
    rw [MatchedTexts] at h; rw [CurrentTexts]; exact ⟨currentText_matched t h.1, currentTexts_matched ts h.2⟩
end

theorem lastOf_matched {α : Type} {s : S} {l : List S} {f : S → Option α} (h : f s ≠ none) : lastOf (s, l) f = f s := by
  rw [lastOf, List.findSome?_cons]
  cases e : f s with
  | none => exact absurd e h
  | some v => rfl

mutual
/-- Where the paths that are shown match, the past does not matter. -/
theorem current_matched {s : S} {l : List S} : ∀ x : Item S, Matched s x → Current (s, l) x
  | .elem _ items, h => by rw [Matched] at h; rw [Current]; exact currentAll_matched items h
  | .text t, h => by rw [Matched] at h; rw [Current]; exact currentText_matched t h
  | .attrIf _ f, h => by rw [Matched] at h; rw [Current, lastOf_matched h]
  | .classIf _ f, h => by rw [Matched] at h; rw [Current, lastOf_matched h]
  | .branch f bs, h => by rw [Matched] at h; rw [Current]; exact currentAt_matched bs (f s) h
  | .attr .., _ | .attrDyn .., _ | .classWhen .., _ | .forEach .., _ | .html _, _ | .noop, _ => by simp [Current]
theorem currentAll_matched {s : S} {l : List S} : ∀ xs : List (Item S), MatchedAll s xs → CurrentAll (s, l) xs
  | [], _ => by rw [CurrentAll]; trivial
  | x :: xs, h => by
    rw [MatchedAll] at h; rw [CurrentAll]; exact ⟨current_matched x h.1, currentAll_matched xs h.2⟩
theorem currentAt_matched {s : S} {l : List S} : ∀ (xs : List (Item S)) (i : Option Nat), MatchedAt s xs i →
    CurrentAt (s, l) xs i
  | _, none, _ => by simp [CurrentAt]
  | [], some _, _ => by simp [CurrentAt]
  | x :: _, some 0, h => by rw [MatchedAt] at h; rw [CurrentAt]; exact current_matched x h
  | _ :: xs, some (i + 1), h => by rw [MatchedAt] at h; rw [CurrentAt]; exact currentAt_matched xs (some i) h
end

theorem attrBy_current {o : S × List S} (n : Text) (x : Item S) (h : Current o x) :
    attrBy o n (remember x) = attrBy o.1 n x := by
  cases x <;> rw [remember] <;> simp only [attrBy]
  rw [Current] at h
  simp only [h]

theorem classBy_current {o : S × List S} (n : Text) (x : Item S) (h : Current o x) :
    classBy o n (remember x) = classBy o.1 n x := by
  cases x <;> rw [remember] <;> simp only [classBy]
  rw [Current] at h
  congr 1
  rw [Bool.eq_iff_iff]
  simpa using h

theorem attrOf_current {o : S × List S} (n : Text) : ∀ xs : List (Item S), CurrentAll o xs →
    attrOf o n (rememberAll xs) = attrOf o.1 n xs
  | [], _ => by rw [rememberAll, attrOf, attrOf]
  | x :: xs, h => by
    rw [CurrentAll] at h
    rw [rememberAll, attrOf, attrOf, attrOf_current n xs h.2, attrBy_current n x h.1]

theorem classOf_cons (s : S) (n : Text) (x : Item S) (xs : List (Item S)) :
    classOf s n (x :: xs) = (classBy s n x || classOf s n xs) := rfl

theorem classOf_current {o : S × List S} (n : Text) : ∀ xs : List (Item S), CurrentAll o xs →
    classOf o n (rememberAll xs) = classOf o.1 n xs
  | [], _ => by rw [rememberAll]; rfl
  | x :: xs, h => by
    rw [CurrentAll] at h
    rw [rememberAll, classOf_cons, classOf_cons, classOf_current n xs h.2, classBy_current n x h.1]

mutual
theorem trees_current {o : S × List S} : ∀ x : Item S, Current o x → trees o (remember x) = trees o.1 x
  | .elem tag items, h => by
    rw [Current] at h
    rw [remember, trees, trees, treesAll_current items h]
    congr 2
    · funext n; exact attrOf_current n items h
    · funext n; exact classOf_current n items h
  | .text t, h => by rw [Current] at h; rw [remember, trees, trees, text_current t h]
  | .branch f bs, h => by rw [Current] at h; rw [remember, trees, trees, treesAt_current bs (f o.1) h]
  | .forEach f body, _ => by
    rw [remember, trees, trees]
    cases f o.1 with
    | none => rfl
    | some l =>
      simp only [Option.map_some, Option.getD_some, List.flatMap_map]
      rw [List.flatMap_def, List.flatMap_def,
        List.map_congr_left fun s _ => trees_current (o := (s, [])) body (current_new s body)]
  | .html v, _ => by rw [remember, trees, trees]
  | .attr .., _ | .attrDyn .., _ | .attrIf .., _ | .classIf .., _ | .classWhen .., _ | .noop, _ => by
    simp [remember, trees]
theorem treesAll_current {o : S × List S} : ∀ xs : List (Item S), CurrentAll o xs →
    treesAll o (rememberAll xs) = treesAll o.1 xs
  | [], _ => by rw [rememberAll, treesAll, treesAll]
  | x :: xs, h => by
    rw [CurrentAll] at h
    rw [rememberAll, treesAll, treesAll, trees_current x h.1, treesAll_current xs h.2]
theorem treesAt_current {o : S × List S} : ∀ (xs : List (Item S)) (i : Option Nat), CurrentAt o xs i →
    treesAt o (rememberAll xs) i = treesAt o.1 xs i
  | _, none, _ => by simp [treesAt]
  | [], some _, _ => by simp [rememberAll, treesAt]
  | x :: _, some 0, h => by rw [CurrentAt] at h; rw [rememberAll, treesAt, treesAt, trees_current x h]
  | _ :: xs, some (i + 1), h => by
    rw [CurrentAt] at h; rw [rememberAll, treesAt, treesAt, treesAt_current xs (some i) h]
end

/-! ### Current is needed -/

mutual
theorem text_length (o : S × List S) : ∀ t : TextSpec S,
    (textNodes o (rememberText t)).length = (textNodes o.1 t).length
  | .const v => by rw [rememberText, textNodes, textNodes]
  | .path f => by rw [rememberText, textNodes, textNodes, List.length_singleton, List.length_singleton]
  | .concat ts => by rw [rememberText, textNodes, textNodes, texts_length o ts]
theorem texts_length (o : S × List S) : ∀ ts : List (TextSpec S),
    (textsNodes o (rememberTexts ts)).length = (textsNodes o.1 ts).length
  | [] => by rw [rememberTexts, textsNodes, textsNodes]
  | t :: ts => by
    rw [rememberTexts, textsNodes, textsNodes, List.length_append, List.length_append, text_length o t, texts_length o ts]
end

mutual
theorem trees_length (o : S × List S) : ∀ x : Item S, (trees o (remember x)).length = (trees o.1 x).length
  | .elem tag items => by rw [remember, trees, trees]; rfl
  | .text t => by rw [remember, trees, trees, text_length o t]
  | .branch f bs => by rw [remember, trees, trees, treesAt_length o bs (f o.1)]
  | .forEach f body => by
    rw [trees_current (o := o) (.forEach f body) (by simp [Current])]
  | .html v => by rw [remember, trees, trees]
  | .attr .. | .attrDyn .. | .attrIf .. | .classIf .. | .classWhen .. | .noop => by simp [remember, trees]
theorem treesAt_length (o : S × List S) : ∀ (xs : List (Item S)) (i : Option Nat),
    (treesAt o (rememberAll xs) i).length = (treesAt o.1 xs i).length
  | _, none => by simp [treesAt]
  | [], some _ => by simp [rememberAll, treesAt]
  | x :: _, some 0 => by rw [rememberAll, treesAt, treesAt, trees_length o x]
  | _ :: xs, some (i + 1) => by rw [rememberAll, treesAt, treesAt, treesAt_length o xs (some i)]
end

mutual
theorem current_of_text {o : S × List S} : ∀ t : TextSpec S, textNodes o (rememberText t) = textNodes o.1 t →
    CurrentText o t
  | .const v, _ => by rw [CurrentText]; trivial
  | .path f, h => by
    rw [rememberText, textNodes, textNodes] at h
    rw [CurrentText]
    simpa using h
  | .concat ts, h => by
    rw [rememberText, textNodes, textNodes] at h
    rw [CurrentText]
    exact current_of_texts ts h
theorem current_of_texts {o : S × List S} : ∀ ts : List (TextSpec S),
    textsNodes o (rememberTexts ts) = textsNodes o.1 ts → CurrentTexts o ts
  | [], _ => by rw [CurrentTexts]; trivial
  | t :: ts, h => by
    rw [rememberTexts, textsNodes, textsNodes] at h
    have h := List.append_inj h (text_length o t)
    rw [CurrentTexts]
    exact ⟨current_of_text t h.1, current_of_texts ts h.2⟩
end

mutual
theorem current_of {o : S × List S} : ∀ x : Item S, Shape x → trees o (remember x) = trees o.1 x →
    (∀ n ∈ attrNames [x], attrBy o n (remember x) = attrBy o.1 n x) →
    (∀ n ∈ classNames [x], classBy o n (remember x) = classBy o.1 n x) → Current o x
  | .elem tag items, hs, h, _, _ => by
    rw [Shape] at hs
    rw [remember, trees, trees] at h
    simp only [List.cons.injEq, Tree.elem.injEq, true_and, and_true] at h
    rw [Current]
    exact currentAll_of items hs.1 h.2.2 hs.2.1 hs.2.2.1 (fun n _ => congrFun h.1 n) fun n _ => congrFun h.2.1 n
  | .text t, _, h, _, _ => by
    rw [remember, trees, trees] at h
    rw [Current]
    exact current_of_text t h
  | .attrIf n f, _, _, ha, _ => by
    have h := ha n (by simp [attrNames])
    rw [remember] at h
    simp only [attrBy, true_and] at h
    rw [Current]
    by_cases h1 : lastOf o f = some true <;> by_cases h2 : f o.1 = some true <;> simp_all
  | .classIf n f, _, _, _, hc => by
    have h := hc n (by simp [classNames])
    rw [remember] at h
    simp only [classBy, BEq.rfl, Bool.true_and] at h
    rw [Bool.eq_iff_iff] at h
    rw [Current]
    simpa using h
  | .branch f bs, hs, h, _, _ => by
    rw [Shape] at hs
    rw [remember, trees, trees] at h
    rw [Current]
    exact currentAt_of bs (f o.1) hs.1 hs.2 h
  | .attr .., _, _, _, _ | .attrDyn .., _, _, _, _ | .classWhen .., _, _, _, _ | .forEach .., _, _, _, _ | .html _, _, _, _, _
  | .noop, _, _, _, _ => by simp [Current]
theorem currentAll_of {o : S × List S} : ∀ xs : List (Item S), ShapeAll xs →
    treesAll o (rememberAll xs) = treesAll o.1 xs → (attrNames xs).Nodup → (classNames xs).Nodup →
    (∀ n ∈ attrNames xs, attrOf o n (rememberAll xs) = attrOf o.1 n xs) →
    (∀ n ∈ classNames xs, classOf o n (rememberAll xs) = classOf o.1 n xs) → CurrentAll o xs
  | [], _, _, _, _, _, _ => by rw [CurrentAll]; trivial
  | x :: xs, hs, h, na, nc, ha, hc => by
    rw [ShapeAll] at hs
    rw [rememberAll, treesAll, treesAll] at h
    have h := List.append_inj h (trees_length o x)
    rw [attrNames_cons] at na ha
    rw [classNames_cons] at nc hc
    rw [List.nodup_append] at na nc
    rw [CurrentAll]
    constructor
    · refine current_of x hs.1 h.1 (fun n hn => ?_) fun n hn => ?_
      · have e := ha n (by simp [hn])
        have hx : n ∉ attrNames xs := fun h2 => na.2.2 n hn n h2 rfl
        rw [rememberAll, attrOf, attrOf, attrOf_none _ n xs hx,
          attrOf_none _ n _ (by rw [attrNames_remember]; exact hx), Option.none_or, Option.none_or] at e
        exact e
      · have e := hc n (by simp [hn])
        have hx : n ∉ classNames xs := fun h2 => nc.2.2 n hn n h2 rfl
        rw [rememberAll, classOf_cons, classOf_cons, classOf_none _ n xs hx,
          classOf_none _ n _ (by rw [classNames_remember]; exact hx), Bool.or_false, Bool.or_false] at e
        exact e
    · refine currentAll_of xs hs.2 h.2 na.2.1 nc.2.1 (fun n hn => ?_) fun n hn => ?_
      · have e := ha n (by simp [hn])
        have hx : n ∉ attrNames [x] := fun h2 => na.2.2 n h2 n hn rfl
        have e1 : attrBy o n (remember x) = none := by cases x <;> simp_all [attrNames, attrBy, remember]
        have e2 : attrBy o.1 n x = none := by cases x <;> simp_all [attrNames, attrBy]
        rw [rememberAll, attrOf, attrOf, e1, e2, Option.or_none, Option.or_none] at e
        exact e
      · have e := hc n (by simp [hn])
        have hx : n ∉ classNames [x] := fun h2 => nc.2.2 n h2 n hn rfl
        have e1 : classBy o n (remember x) = false := by cases x <;> simp_all [classNames, classBy, remember]
        have e2 : classBy o.1 n x = false := by cases x <;> simp_all [classNames, classBy]
        rw [rememberAll, classOf_cons, classOf_cons, e1, e2, Bool.false_or, Bool.false_or] at e
        exact e
theorem currentAt_of {o : S × List S} : ∀ (xs : List (Item S)) (i : Option Nat), ShapeAll xs → (∀ x ∈ xs, OneNode x) →
    treesAt o (rememberAll xs) i = treesAt o.1 xs i → CurrentAt o xs i
  | _, none, _, _, _ => by simp [CurrentAt]
  | [], some _, _, _, _ => by simp [CurrentAt]
  | x :: _, some 0, hs, h0, h => by
    rw [ShapeAll] at hs
    rw [rememberAll, treesAt, treesAt] at h
    rw [CurrentAt]
    have hx := one_names (h0 x (by simp))
    exact current_of x hs.1 h (by rw [hx.1]; simp) (by rw [hx.2]; simp)
  | _ :: xs, some (i + 1), hs, h0, h => by
    rw [ShapeAll] at hs
    rw [rememberAll, treesAt, treesAt] at h
    rw [CurrentAt]
    exact currentAt_of xs (some i) hs.2 (fun y hy => h0 y (by simp [hy])) h
end

end Nbdl.Dom
