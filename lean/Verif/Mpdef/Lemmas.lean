import Verif.Mpdef.Spec
namespace Nbdl.Mpdef
open Spec

variable {K A S : Type}

mutual
/-- The positions the search reports. -/
def positions (pred : Tree K A → Bool) : Tree K A → List (List Nat)
  | .atom a => if pred (.atom a) then [[]] else []
  | .leaf k a => if pred (.leaf k a) then [[]] else []
  | .list k ts => if pred (.list k ts) then [[]] else positionsAll pred 0 ts
  | .map k ts => if pred (.map k ts) then [[]] else positionsAll pred 0 ts
def positionsAll (pred : Tree K A → Bool) (i : Nat) : List (Tree K A) → List (List Nat)
  | [] => []
  | t :: ts => (positions pred t).map (i :: ·) ++ positionsAll pred (i + 1) ts
end

theorem positions_of_pred {pred : Tree K A → Bool} {t : Tree K A} (h : pred t = true) : positions pred t = [[]] := by
  cases t <;> simp [positions, h]

theorem positions_of_not {pred : Tree K A → Bool} {t : Tree K A} (h : pred t = false) :
    positions pred t = positionsAll pred 0 t.kids := by
  cases t <;> simp [positions, h, Tree.kids, positionsAll]

theorem find_of_pred {pred : Tree K A → Bool} {t : Tree K A} (sm : S → Tree K A → S) (s : S) (h : pred t = true) :
    find pred sm s t = [(t, sm s t)] := by
  cases t <;> simp [find, h]

theorem find_of_not {pred : Tree K A → Bool} {t : Tree K A} (sm : S → Tree K A → S) (s : S) (h : pred t = false) :
    find pred sm s t = findAll pred sm (sm s t) t.kids := by
  cases t <;> simp [find, h, Tree.kids, findAll]

/-- Induction over trees with the children as a list. -/
theorem tree_ind {P : Tree K A → Prop} (h : ∀ t : Tree K A, (∀ c ∈ t.kids, P c) → P t) : ∀ t, P t := by
  have key : ∀ n, ∀ t : Tree K A, sizeOf t < n → P t := by
    intro n
    induction n with
    | zero => intro t ht; exact absurd ht (Nat.not_lt_zero _)
    | succ n ih =>
      intro t ht
      apply h
      intro c hc
      apply ih
      have : sizeOf c < sizeOf t := by
        cases t with
        | atom a => simp [Tree.kids] at hc
        | leaf k a => simp [Tree.kids] at hc
        | list k ts =>
          have := List.sizeOf_lt_of_mem (show c ∈ ts from hc)
          simp only [Tree.list.sizeOf_spec]; omega
        | map k ts =>
          have := List.sizeOf_lt_of_mem (show c ∈ ts from hc)
          simp only [Tree.map.sizeOf_spec]; omega
      omega
  exact fun t => key _ t (Nat.lt_succ_self _)

theorem mem_positionsAll (pred : Tree K A → Bool) (ts : List (Tree K A)) (i : Nat) (p : List Nat) :
    p ∈ positionsAll pred i ts ↔ ∃ j c q, ts[j]? = some c ∧ q ∈ positions pred c ∧ p = (i + j) :: q := by
  induction ts generalizing i with
  | nil => simp [positionsAll]
  | cons t ts ih =>
    simp only [positionsAll, List.mem_append, List.mem_map, ih]
    constructor
    · rintro (⟨q, hq, rfl⟩ | ⟨j, c, q, h1, h2, rfl⟩)
      · exact ⟨0, t, q, rfl, hq, by simp⟩
      · exact ⟨j + 1, c, q, by simpa using h1, h2, by congr 1; omega⟩
    · rintro ⟨j, c, q, h1, h2, rfl⟩
      cases j with
      | zero =>
        simp only [List.getElem?_cons_zero, Option.some.injEq] at h1
        subst h1
        exact .inl ⟨q, h2, by simp⟩
      | succ j => exact .inr ⟨j, c, q, by simpa using h1, h2, by congr 1; omega⟩

theorem cons_lt_cons_head {i j : Nat} {p q : List Nat} (h : i < j) : i :: p < j :: q := by
  exact List.Lex.rel h
theorem cons_lt_cons_tail {i : Nat} {p q : List Nat} (h : p < q) : i :: p < i :: q := by
  exact List.Lex.cons h

theorem positionsAll_sorted (pred : Tree K A → Bool) (ts : List (Tree K A))
    (h : ∀ c ∈ ts, (positions pred c).Pairwise (· < ·)) (i : Nat) : (positionsAll pred i ts).Pairwise (· < ·) := by
  induction ts generalizing i with
  | nil => simp [positionsAll]
  | cons t ts ih =>
    simp only [positionsAll]
    rw [List.pairwise_append]
    refine ⟨?_, ih (fun c hc => h c (by simp [hc])) _, ?_⟩
    · rw [List.pairwise_map]
      exact (h t (by simp)).imp cons_lt_cons_tail
    · intro a ha b hb
      obtain ⟨q, -, rfl⟩ := List.mem_map.1 ha
      obtain ⟨j, c, q', -, -, rfl⟩ := (mem_positionsAll _ _ _ _).1 hb
      exact cons_lt_cons_head (by omega)

theorem positions_sorted (pred : Tree K A → Bool) (t : Tree K A) : (positions pred t).Pairwise (· < ·) := by
  induction t using tree_ind with
  | _ t ih =>
    cases h : pred t with
    | true => rw [positions_of_pred h]; simp
    | false => rw [positions_of_not h]; exact positionsAll_sorted pred _ ih 0

theorem outermost_root (pred : Tree K A → Bool) (t : Tree K A) (h : pred t = true) (p : List Nat) :
    Outermost pred t p ↔ p = [] := by
  constructor
  · intro ho
    apply Classical.byContradiction
    intro hp
    have := ho.2 [] (List.nil_prefix) (fun e => hp e.symm) t rfl
    rw [h] at this
    exact absurd this (by simp)
  · rintro rfl
    refine ⟨⟨t, rfl, h⟩, ?_⟩
    intro q hq hne
    exact absurd (List.prefix_nil.1 hq) hne

theorem outermost_below (pred : Tree K A → Bool) (t : Tree K A) (h : pred t = false) (p : List Nat) :
    Outermost pred t p ↔ ∃ i c q, t.kids[i]? = some c ∧ Outermost pred c q ∧ p = i :: q := by
  constructor
  · rintro ⟨⟨n, hn, hp⟩, ho⟩
    cases p with
    | nil =>
      simp only [sub, Option.some.injEq] at hn
      subst hn; rw [h] at hp; exact absurd hp (by simp)
    | cons i q =>
      simp only [sub] at hn
      cases hc : t.kids[i]? with
      | none => rw [hc] at hn; simp at hn
      | some c =>
        rw [hc] at hn
        refine ⟨i, c, q, hc, ⟨⟨n, hn, hp⟩, ?_⟩, rfl⟩
        intro q' hq' hne m hm
        refine ho (i :: q') (by simpa using hq') (by simpa using hne) m ?_
        simp only [sub, hc]; exact hm
  · rintro ⟨i, c, q, hc, ⟨⟨n, hn, hp⟩, ho⟩, rfl⟩
    refine ⟨⟨n, by simp only [sub, hc]; exact hn, hp⟩, ?_⟩
    intro q' hq' hne m hm
    cases q' with
    | nil => simp only [sub, Option.some.injEq] at hm; subst hm; exact h
    | cons i' q'' =>
      obtain ⟨rfl, hq''⟩ := List.cons_prefix_cons.1 hq'
      simp only [sub, hc] at hm
      exact ho q'' hq'' (by simpa using hne) m hm

theorem mem_positions (pred : Tree K A → Bool) (t : Tree K A) : ∀ p, p ∈ positions pred t ↔ Outermost pred t p := by
  induction t using tree_ind with
  | _ t ih =>
    intro p
    cases h : pred t with
    | true => rw [positions_of_pred h, outermost_root _ _ h]; simp
    | false =>
      rw [positions_of_not h, outermost_below _ _ h, mem_positionsAll]
      constructor
      · rintro ⟨j, c, q, hc, hq, rfl⟩
        exact ⟨j, c, q, hc, (ih c (List.mem_of_getElem? hc) q).1 hq, by simp⟩
      · rintro ⟨j, c, q, hc, hq, rfl⟩
        exact ⟨j, c, q, hc, (ih c (List.mem_of_getElem? hc) q).2 hq, by simp⟩

theorem findAll_positions (pred : Tree K A → Bool) (sm : S → Tree K A → S) (t : Tree K A) (s : S)
    (ih : ∀ c ∈ t.kids, ∀ s, (find pred sm s c).map (fun r => (some r.1, r.2))
      = (positions pred c).map fun p => (sub c p, (along c p).foldl sm s)) :
    ∀ (ts : List (Tree K A)) (i : Nat), t.kids.drop i = ts →
      (findAll pred sm (sm s t) ts).map (fun r => (some r.1, r.2))
        = (positionsAll pred i ts).map fun p => (sub t p, (along t p).foldl sm s)
  | [], _, _ => by simp [findAll, positionsAll]
  | c :: cs, i, hd => by
    have hc : t.kids[i]? = some c := by
      have := congrArg List.head? hd
      simpa [List.head?_drop] using this
    have hcs : t.kids.drop (i + 1) = cs := by
      rw [← List.drop_drop, hd]; simp
    simp only [findAll, positionsAll, List.map_append]
    rw [findAll_positions pred sm t s ih cs (i + 1) hcs, ih c (List.mem_of_getElem? hc), List.map_map]
    congr 1
    apply List.map_congr_left
    intro p _
    simp only [Function.comp, sub, along, hc, List.foldl_cons]

theorem find_positions (pred : Tree K A → Bool) (sm : S → Tree K A → S) (t : Tree K A) :
    ∀ s, (find pred sm s t).map (fun r => (some r.1, r.2))
      = (positions pred t).map fun p => (sub t p, (along t p).foldl sm s) := by
  induction t using tree_ind with
  | _ t ih =>
    intro s
    cases h : pred t with
    | true => rw [find_of_pred sm s h, positions_of_pred h]; simp [sub, along]
    | false =>
      rw [find_of_not sm s h, positions_of_not h]
      exact findAll_positions pred sm t s ih t.kids 0 rfl

theorem sorted_unique {l l' : List (List Nat)} (h : l.Pairwise (· < ·)) (h' : l'.Pairwise (· < ·))
    (hm : ∀ p, p ∈ l ↔ p ∈ l') : l = l' := by
  induction l generalizing l' with
  | nil =>
    cases l' with
    | nil => rfl
    | cons a l' => exact absurd ((hm a).2 (by simp)) (by simp)
  | cons a l ih =>
    cases l' with
    | nil => exact absurd ((hm a).1 (by simp)) (by simp)
    | cons b l' =>
      have h1 := List.pairwise_cons.1 h
      have h2 := List.pairwise_cons.1 h'
      have hab : a = b := by
        have ha := (hm a).1 (by simp)
        have hb := (hm b).2 (by simp)
        simp only [List.mem_cons] at ha hb
        rcases ha with rfl | ha
        · rfl
        · rcases hb with rfl | hb
          · rfl
          · exact absurd (h1.1 b hb) (List.lt_asymm (h2.1 a ha))
      subst hab
      congr 1
      apply ih h1.2 h2.2
      intro p
      have := hm p
      simp only [List.mem_cons] at this
      constructor
      · intro hp
        rcases this.1 (.inr hp) with rfl | h
        · exact absurd (h1.1 p hp) (List.lt_irrefl p)
        · exact h
      · intro hp
        rcases this.2 (.inr hp) with rfl | h
        · exact absurd (h2.1 p hp) (List.lt_irrefl p)
        · exact h

end Nbdl.Mpdef
