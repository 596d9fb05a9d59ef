import Verif.Mpdef.Lemmas
/-! # Properties C51 -/
namespace Nbdl.Mpdef
open Spec

variable {K A S V : Type}

/-- C51: the search returns exactly the outermost matching nodes, from left to right, each with the summary of
the nodes from the root down to it. -/
theorem find_exact (pred : Tree K A → Bool) (summarize : S → Tree K A → S) (s : S) (t : Tree K A) :
    ∃ ps : List (List Nat), ps.Pairwise (· < ·) ∧ (∀ p, p ∈ ps ↔ Outermost pred t p)
      ∧ (find pred summarize s t).map (fun r => (some r.1, r.2))
          = ps.map fun p => (sub t p, (along t p).foldl summarize s) :=
  ⟨positions pred t, positions_sorted pred t, mem_positions pred t, find_positions pred summarize t s⟩

/-- That determines the list of positions. -/
theorem positions_determined {ps ps' : List (List Nat)} (pred : Tree K A → Bool) (t : Tree K A)
    (h : ps.Pairwise (· < ·)) (h' : ps'.Pairwise (· < ·)) (hm : ∀ p, p ∈ ps ↔ Outermost pred t p)
    (hm' : ∀ p, p ∈ ps' ↔ Outermost pred t p) : ps = ps' :=
  sorted_unique h h' fun p => (hm p).trans (hm' p).symm

theorem collect_keys [DecidableEq K] (st : Settings K A) (t : Tree K A) :
    (collectSettings st t).map (·.1) = st.map (·.1) := by
  cases t <;> simp [collectSettings, Function.comp_def]

theorem mapFind_only [DecidableEq K] (ts : List (Tree K A)) (k : K) : mapFind ts k = only k ts := by
  unfold mapFind only
  rw [List.countP_eq_length_filter, ← List.head?_filter]
  split
  · next t h => simp [h]
  · next h =>
    split
    · next h1 =>
      obtain ⟨t, ht⟩ := List.length_eq_one_iff.1 h1
      exact absurd ht (h t)
    · rfl

theorem foldl_collect [DecidableEq K] (nodes : List (Tree K A)) (st : Settings K A) :
    nodes.foldl collectSettings st = st.map fun e => (e.1, (inherited e.1 nodes).or e.2) := by
  induction nodes generalizing st with
  | nil => simp [inherited]
  | cons t nodes ih =>
    rw [List.foldl_cons, ih]
    have : ∀ k, inherited k (t :: nodes) = (inherited k nodes).or (own k t) := by
      intro k
      unfold inherited
      cases h : own k t with
      | none => simp [h]
      | some x =>
        rw [List.filterMap_cons_some h, List.getLast?_cons]
        cases (List.filterMap (own k) nodes).getLast? <;> rfl
    simp only [this]
    cases t with
    | atom a => simp [collectSettings, own]
    | leaf k a => simp [collectSettings, own]
    | list k ts => simp [collectSettings, own]
    | map k ts =>
      simp only [collectSettings, own, List.map_map, Function.comp_def, List.map_inj_left, Prod.mk.injEq, true_and]
      intro e _
      rw [mapFind_only]
      cases only e.1 ts <;> cases inherited e.1 nodes <;> rfl

/-- C51: with settings, every match comes with all the tags, each with the setting made by the innermost of
the nodes from the root down to it, or none. -/
theorem settings_inherited [DecidableEq K] (tags : List K) (pred : Tree K A → Bool) (t : Tree K A) :
    ∃ ps : List (List Nat), ps.Pairwise (· < ·) ∧ (∀ p, p ∈ ps ↔ Outermost pred t p)
      ∧ (findWithSettings tags pred t).map (fun r => (some r.1, r.2))
          = ps.map fun p => (sub t p, tags.map fun k => (k, inherited k (along t p))) := by
  obtain ⟨ps, h1, h2, h3⟩ := find_exact pred collectSettings (withSettings tags) t
  refine ⟨ps, h1, h2, ?_⟩
  unfold findWithSettings
  rw [h3]
  apply List.map_congr_left
  intro p _
  rw [foldl_collect]
  simp [withSettings, Function.comp_def]

/-- A tree with a setting (tag 7) at the root, another one further down, and three matches (tag 5). -/
def sample : Tree Nat Nat :=
  .map 0 [.leaf 7 100, .list 1 [.map 5 [.leaf 9 0, .map 5 []], .map 2 [.leaf 7 200, .leaf 5 3]], .map 5 []]
def isFive (t : Tree Nat Nat) : Bool := t.key? = some 5
example : findWithSettings [7, 8] isFive sample
    = [(.map 5 [.leaf 9 0, .map 5 []], [(7, some (.leaf 7 100)), (8, none)]),
       (.leaf 5 3, [(7, some (.leaf 7 200)), (8, none)]),
       (.map 5 [], [(7, some (.leaf 7 100)), (8, none)])] := rfl
example : positions isFive sample = [[1, 0], [1, 1, 1], [2]] := rfl

/-- C51 violated: a setting that is made twice in one node is not seen at all, and the outer one holds. -/
theorem double_setting_violated :
    findWithSettings [7] isFive (.map 0 [.leaf 7 1, .map 2 [.leaf 7 2, .leaf 7 3, .map 5 []]])
      = [(.map 5 [], [(7, some (.leaf 7 1))])] := rfl

/-! ## Grouping -/

/-- The distinct elements in the order of their first occurrences. -/
def firsts [DecidableEq K] : List K → List K
  | [] => []
  | k :: ks => k :: (firsts ks).filter (· ≠ k)

/-- The values with a given key, in order. -/
def valuesOf [DecidableEq K] (l : List (K × List V)) (k : K) : List V :=
  ((l.filter fun p => p.1 = k).map (·.2)).flatten

theorem addToMap_keys [DecidableEq K] (m : List (K × List (List V))) (p : K × List V) :
    (addToMap m p).map (·.1) = if p.1 ∈ m.map (·.1) then m.map (·.1) else m.map (·.1) ++ [p.1] := by
  induction m with
  | nil => simp [addToMap]
  | cons e m ih =>
    unfold addToMap
    by_cases h : e.1 = p.1
    · rw [if_pos h, if_pos (by simp [h])]; simp
    · rw [if_neg h, List.map_cons, ih]
      have h' : ¬ p.1 = e.1 := fun x => h x.symm
      by_cases hm : p.1 ∈ m.map (·.1)
      · rw [if_pos hm, if_pos (by simp only [List.map_cons, List.mem_cons]; exact .inr hm)]; rfl
      · rw [if_neg hm, if_neg (by simp only [List.map_cons, List.mem_cons]; rintro (h | h); exact h' h; exact hm h)]; rfl

/-- the values gathered for a key -/
def gathered [DecidableEq K] (m : List (K × List (List V))) (k : K) : List (List V) :=
  (m.filter fun e => e.1 = k).flatMap (·.2)

theorem addToMap_gathered [DecidableEq K] (m : List (K × List (List V))) (hn : (m.map (·.1)).Nodup) (p : K × List V)
    (k : K) : gathered (addToMap m p) k = gathered m k ++ if p.1 = k then [p.2] else [] := by
  induction m with
  | nil => by_cases h : p.1 = k <;> simp [addToMap, gathered, h]
  | cons e m ih =>
    simp only [List.map_cons, List.nodup_cons] at hn
    unfold addToMap
    by_cases h : e.1 = p.1
    · rw [if_pos h]
      by_cases hk : p.1 = k
      · have he : e.1 = k := h.trans hk
        have hnone : m.filter (fun e => e.1 = k) = [] := by
          apply List.filter_eq_nil_iff.2
          intro x hx
          simp only [decide_eq_true_eq]
          intro hxk
          exact hn.1 (List.mem_map.2 ⟨x, hx, hxk.trans he.symm⟩)
        simp [gathered, hk, he, hnone]
      · have he : ¬ e.1 = k := fun x => hk (h.symm.trans x)
        simp [gathered, hk, he]
    · rw [if_neg h]
      have ih := ih hn.2
      unfold gathered at ih ⊢
      by_cases he : e.1 = k
      · simp only [List.filter_cons, he, decide_true, if_true, List.flatMap_cons, ih, List.append_assoc]
      · simp only [List.filter_cons, he, decide_false, Bool.false_eq_true, if_false, ih]

theorem nodup_append_single {l : List K} {a : K} (h : l.Nodup) (ha : a ∉ l) : (l ++ [a]).Nodup := by
  rw [List.nodup_append]
  refine ⟨h, by simp, ?_⟩
  intro x hx y hy
  simp only [List.mem_singleton] at hy
  subst hy
  rintro rfl
  exact ha hx

theorem firsts_append [DecidableEq K] (l : List K) (a : K) :
    firsts (l ++ [a]) = if a ∈ l then firsts l else firsts l ++ [a] := by
  induction l with
  | nil => simp [firsts]
  | cons k l ih =>
    simp only [List.cons_append, firsts, ih]
    by_cases h : a ∈ l
    · rw [if_pos h, if_pos (by simp [h])]
    · rw [if_neg h]
      by_cases hk : a = k
      · rw [if_pos (by simp [hk])]; simp [List.filter_append, hk]
      · rw [if_neg (by simp [h, hk])]; simp [List.filter_append, hk]

theorem firsts_mem [DecidableEq K] (l : List K) (a : K) : a ∈ firsts l ↔ a ∈ l := by
  induction l with
  | nil => simp [firsts]
  | cons k l ih =>
    simp only [firsts, List.mem_cons, List.mem_filter, ih, decide_eq_true_eq, ne_eq]
    by_cases h : a = k <;> simp [h]

theorem fold_inv [DecidableEq K] (l : List (K × List V)) (m : List (K × List (List V))) (hn : (m.map (·.1)).Nodup) :
    ((l.foldl addToMap m).map (·.1)).Nodup
      ∧ (∀ k, gathered (l.foldl addToMap m) k = gathered m k ++ (l.filter fun p => p.1 = k).map (·.2)) := by
  induction l generalizing m with
  | nil => simp [hn]
  | cons p l ih =>
    have hn' : ((addToMap m p).map (·.1)).Nodup := by
      rw [addToMap_keys]
      split
      · exact hn
      · rename_i h; exact nodup_append_single hn h
    obtain ⟨h1, h2⟩ := ih (addToMap m p) hn'
    refine ⟨h1, fun k => ?_⟩
    rw [List.foldl_cons, h2, addToMap_gathered m hn]
    by_cases h : p.1 = k <;> simp [h]

theorem fold_keys [DecidableEq K] (l l0 : List (K × List V)) (m : List (K × List (List V)))
    (h0 : m.map (·.1) = firsts (l0.map (·.1))) :
    (l.foldl addToMap m).map (·.1) = firsts ((l0 ++ l).map (·.1)) := by
  induction l generalizing l0 m with
  | nil => simp [h0]
  | cons p l ih =>
    rw [List.foldl_cons, ih (l0 ++ [p]) (addToMap m p)]
    · simp
    · rw [addToMap_keys, h0, List.map_append]
      simp only [List.map_cons, List.map_nil]
      rw [firsts_append]
      by_cases h : p.1 ∈ l0.map (·.1)
      · rw [if_pos ((firsts_mem _ _).2 h), if_pos h]
      · rw [if_neg (fun x => h ((firsts_mem _ _).1 x)), if_neg h]

theorem gathered_self [DecidableEq K] {m : List (K × List (List V))} (hn : (m.map (·.1)).Nodup) {e : K × List (List V)}
    (he : e ∈ m) : gathered m e.1 = e.2 := by
  induction m with
  | nil => simp at he
  | cons x m ih =>
    simp only [List.map_cons, List.nodup_cons] at hn
    rcases List.mem_cons.1 he with rfl | he
    · have hnone : m.filter (fun y => y.1 = e.1) = [] := by
        apply List.filter_eq_nil_iff.2
        intro y hy
        simp only [decide_eq_true_eq]
        intro h
        exact hn.1 (List.mem_map.2 ⟨y, hy, h⟩)
      simp [gathered, hnone]
    · have hne : ¬ x.1 = e.1 := fun h => hn.1 (List.mem_map.2 ⟨e, he, h.symm⟩)
      have := ih hn.2 he
      simpa [gathered, hne] using this

/-- C51: grouping gives for each key, in the order of first occurrence, exactly the values with that key in
order. -/
theorem group_exact [DecidableEq K] (l : List (K × List V)) :
    groupBy l = (firsts (l.map (·.1))).map fun k => (k, valuesOf l k) := by
  have hk := fold_keys l [] ([] : List (K × List (List V))) rfl
  obtain ⟨hn, hg⟩ := fold_inv l ([] : List (K × List (List V))) (by simp)
  simp only [List.nil_append] at hk
  unfold groupBy
  rw [← hk, List.map_map]
  apply List.map_congr_left
  intro e he
  have h1 := gathered_self hn he
  have h2 := hg e.1
  simp only [Function.comp, valuesOf]
  rw [← h1, h2]
  simp [gathered]

/-- The keys are all different, and are those of the input. -/
theorem firsts_exact [DecidableEq K] (l : List K) : (firsts l).Nodup ∧ (∀ k, k ∈ firsts l ↔ k ∈ l) := by
  refine ⟨?_, firsts_mem l⟩
  induction l with
  | nil => simp [firsts]
  | cons k l ih =>
    simp only [firsts, List.nodup_cons]
    exact ⟨by simp, ih.filter _⟩

example : groupBy [(1, ['a', 'b']), (2, ['c']), (1, ['d']), (3, []), (2, ['e'])]
    = [(1, ['a', 'b', 'd']), (2, ['c', 'e']), (3, [])] := by decide

/-! ## Folding helpers -/

/-- C51: folding with `append_if` keeps exactly the elements that satisfy the predicate, in order. -/
theorem append_if_filter (pred : V → Bool) (l st : List V) :
    l.foldl (appendIf pred) st = st ++ l.filter pred := by
  induction l generalizing st with
  | nil => simp
  | cons x l ih =>
    rw [List.foldl_cons, ih]
    cases h : pred x <;> simp [appendIf, h]

/-- C51: composed collectors work independently: each state is the fold of its own collector. -/
theorem collectors_independent (cs : List (S → V → S)) (st : List S) (l : List V) (hl : cs.length = st.length) :
    l.foldl (composeCollectors cs) st = List.zipWith (fun c s => l.foldl c s) cs st := by
  induction l generalizing st with
  | nil =>
    simp only [List.foldl_nil]
    induction cs generalizing st with
    | nil => cases st <;> simp_all
    | cons c cs ih =>
      cases st with
      | nil => simp at hl
      | cons s st => simp only [List.zipWith_cons_cons]; rw [← ih st (by simpa using hl)]
  | cons x l ih =>
    rw [List.foldl_cons, ih _ (by simp [composeCollectors, hl])]
    unfold composeCollectors
    clear ih
    induction cs generalizing st with
    | nil => simp
    | cons c cs ih =>
      cases st with
      | nil => simp at hl
      | cons s st => simp only [List.zipWith_cons_cons, List.foldl_cons]; rw [ih st (by simpa using hl)]; rfl

example : [1, 2, 3, 4].foldl (composeCollectors [appendIf (· % 2 == 0), fun s x => x :: s]) [[], []]
    = [[2, 4], [4, 3, 2, 1]] := by decide

end Nbdl.Mpdef
