import Verif.Def.Spec
namespace Nbdl.Def
open Nbdl.Mpdef Nbdl.Mpdef.Spec Nbdl.Def.Spec

mutual
/-- The positions the enumeration reports. -/
def positions : Node → List (List Nat)
  | .atom _ => []
  | .leaf _ _ => []
  | .list k ts => if k = .accessPoints then positionsAll 0 ts else []
  | .map k ts =>
    if k = .accessPoint then (if hasActions ts then [[]] else []) ++ positionsAll 0 ts
    else if k = .accessPoints then positionsAll 0 ts
    else if hasOne ts .accessPoints then positionsOnly .accessPoints 0 ts
    else if hasOne ts .accessPoint then positionsOnly .accessPoint 0 ts
    else []
def positionsAll (i : Nat) : List Node → List (List Nat)
  | [] => []
  | t :: ts => (positions t).map (i :: ·) ++ positionsAll (i + 1) ts
def positionsOnly (k : Tag) (i : Nat) : List Node → List (List Nat)
  | [] => []
  | t :: ts => if t.key? = some k then (positions t).map (i :: ·) else positionsOnly k (i + 1) ts
end

theorem mapFind_only (ts : List Node) (k : Tag) : mapFind ts k = only k ts := by
  have hl : (ts.filter fun t => decide (t.key? = some k)).length = ts.countP (fun t => decide (t.key? = some k)) :=
    List.countP_eq_length_filter.symm
  have hf : (ts.filter fun t => decide (t.key? = some k)).head? = ts.find? (fun t => decide (t.key? = some k)) :=
    List.head?_filter
  unfold mapFind only
  rw [← hl, ← hf]
  cases ts.filter fun t => decide (t.key? = some k) with
  | nil => rfl
  | cons a as => cases as <;> simp

theorem findTy_said (ts : List Node) (k : Tag) : typeSaid ts k = findTy ts k := by
  unfold typeSaid findTy
  rw [mapFind_only]
  cases only k ts with
  | none => rfl
  | some t => cases t <;> rfl

theorem hasOne_only (ts : List Node) (k : Tag) : (only k ts).isSome = hasOne ts k := by
  rw [hasOne, mapFind_only]

theorem keys_flat (l : List Node) : (l.flatMap fun c =>
    match c with
    | .atom _ => []
    | .leaf k _ => [k]
    | .list k _ => [k]
    | .map k _ => [k]) = l.filterMap Tree.key? := by
  induction l with
  | nil => rfl
  | cons c l ih => rw [List.flatMap_cons, ih]; cases c <;> rfl

theorem atoms_flat (l : List Node) : (l.flatMap fun c => match c with | .atom a => [a] | _ => [])
    = l.filterMap fun c => match c with | .atom a => some a | _ => none := by
  induction l with
  | nil => rfl
  | cons c l ih => rw [List.flatMap_cons, ih]; cases c <;> rfl

theorem actionsOf_said (ts : List Node) : actionsSaid ts = actionsOf ts := by
  unfold actionsSaid actionsOf below
  rw [mapFind_only]
  cases only Tag.actions ts with
  | none => rfl
  | some t => cases t <;> exact keys_flat _

theorem storeOf_said (ts : List Node) : storeSaid ts = storeOf ts := by
  unfold storeSaid storeOf
  rw [findTy_said]
  cases findTy ts .store <;> rfl

theorem listenPathsOf_said (ts : List Node) : pathsSaid ts = listenPathsOf ts := by
  unfold pathsSaid listenPathsOf below
  rw [mapFind_only]
  cases only Tag.listenPaths ts with
  | none => rfl
  | some t =>
    have h : ∀ l : List Node, (l.map fun p => match p with
        | .list _ cs => cs.flatMap fun c => match c with | .atom a => [a] | _ => []
        | .map _ cs => cs.flatMap fun c => match c with | .atom a => [a] | _ => []
        | _ => []) = l.map fun p => p.kids.filterMap fun a => match a with | .atom a => some a | _ => none := by
      intro l
      refine List.map_congr_left fun p _ => ?_
      cases p with
      | atom a => rfl
      | leaf k a => rfl
      | list k cs => exact atoms_flat cs
      | map k cs => exact atoms_flat cs
    cases t with
    | atom a => rfl
    | leaf k a => rfl
    | list k cs => exact h cs
    | map k cs => exact h cs

theorem hasActions_iff (ts : List Node) : hasActions ts = true ↔ actionsSaid ts ≠ [] ∨ storeSaid ts ≠ .nullStore := by
  rw [actionsOf_said, storeOf_said]
  simp [hasActions, List.length_pos_iff]

theorem mem_all (ts : List Node) (i : Nat) (p : List Nat) :
    p ∈ positionsAll i ts ↔ ∃ j c q, ts[j]? = some c ∧ q ∈ positions c ∧ p = (i + j) :: q := by
  induction ts generalizing i with
  | nil => simp [positionsAll]
  | cons t ts ih =>
    simp only [positionsAll, List.mem_append, List.mem_map, ih]
    constructor
    · rintro (⟨q, hq, rfl⟩ | ⟨j, c, q, h1, h2, rfl⟩)
      · exact ⟨0, t, q, rfl, hq, by simp⟩
      · exact ⟨j + 1, c, q, by simpa using h1, h2, by congr 1; omega⟩
    · rintro ⟨j, c, q, h1, h2, rfl⟩
      cases j with
      | zero =>
        simp only [List.getElem?_cons_zero, Option.some.injEq] at h1
        subst h1
        exact .inl ⟨q, h2, by simp⟩
      | succ j => exact .inr ⟨j, c, q, by simpa using h1, h2, by congr 1; omega⟩

theorem mem_only (k : Tag) (ts : List Node) (i : Nat) (p : List Nat) (h : p ∈ positionsOnly k i ts) :
    ∃ j c q, ts[j]? = some c ∧ q ∈ positions c ∧ p = (i + j) :: q := by
  induction ts generalizing i with
  | nil => simp [positionsOnly] at h
  | cons t ts ih =>
    unfold positionsOnly at h
    split at h
    · obtain ⟨q, hq, rfl⟩ := List.mem_map.1 h
      exact ⟨0, t, q, rfl, hq, by simp⟩
    · obtain ⟨j, c, q, h1, h2, rfl⟩ := ih (i + 1) h
      exact ⟨j + 1, c, q, by simpa using h1, h2, by congr 1; omega⟩

theorem only_mem (k : Tag) (ts : List Node) (i j : Nat) (c : Node) (q : List Nat)
    (hu : (ts.filter fun t => t.key? = some k).length = 1)
    (hc : ts[j]? = some c) (hk : c.key? = some k) (hq : q ∈ positions c) : (i + j) :: q ∈ positionsOnly k i ts := by
  induction ts generalizing i j with
  | nil => simp at hc
  | cons t ts ih =>
    unfold positionsOnly
    cases j with
    | zero =>
      simp only [List.getElem?_cons_zero, Option.some.injEq] at hc
      subst hc
      rw [if_pos hk]
      exact List.mem_map.2 ⟨q, hq, by simp⟩
    | succ j =>
      by_cases ht : t.key? = some k
      · exfalso
        have hm : c ∈ ts := List.mem_of_getElem? (by simpa using hc)
        rw [List.filter_cons_of_pos (by simpa using ht)] at hu
        have : (ts.filter fun t => t.key? = some k) = [] := List.length_eq_zero_iff.1 (by simpa using hu)
        have hm' : c ∈ ts.filter fun t => t.key? = some k := List.mem_filter.2 ⟨hm, by simpa using hk⟩
        rw [this] at hm'
        simp at hm'
      · rw [if_neg ht]
        rw [List.filter_cons_of_neg (by simpa using ht)] at hu
        have := ih (i + 1) j hu (by simpa using hc)
        rw [show i + (j + 1) = i + 1 + j by omega]
        exact this

theorem hasOne_length {ts : List Node} {k : Tag} (h : hasOne ts k = true) :
    (ts.filter fun t => t.key? = some k).length = 1 := by
  unfold hasOne mapFind at h
  split at h
  · rename_i t ht; rw [ht]; rfl
  · simp at h

theorem all_sorted (ts : List Node) (h : ∀ c ∈ ts, (positions c).Pairwise (· < ·)) (i : Nat) :
    (positionsAll i ts).Pairwise (· < ·) := by
  induction ts generalizing i with
  | nil => simp [positionsAll]
  | cons t ts ih =>
    simp only [positionsAll]
    rw [List.pairwise_append]
    refine ⟨?_, ih (fun c hc => h c (by simp [hc])) _, ?_⟩
    · rw [List.pairwise_map]
      exact (h t (by simp)).imp cons_lt_cons_tail
    · intro a ha b hb
      obtain ⟨q, -, rfl⟩ := List.mem_map.1 ha
      obtain ⟨j, c, q', -, -, rfl⟩ := (mem_all _ _ _).1 hb
      exact cons_lt_cons_head (by omega)

theorem only_sorted (k : Tag) (ts : List Node) (h : ∀ c ∈ ts, (positions c).Pairwise (· < ·)) (i : Nat) :
    (positionsOnly k i ts).Pairwise (· < ·) := by
  induction ts generalizing i with
  | nil => simp [positionsOnly]
  | cons t ts ih =>
    unfold positionsOnly
    split
    · rw [List.pairwise_map]
      exact (h t (by simp)).imp cons_lt_cons_tail
    · exact ih (fun c hc => h c (by simp [hc])) _

theorem positions_sorted (d : Node) : (positions d).Pairwise (· < ·) := by
  induction d using tree_ind with
  | _ d ih =>
    cases d with
    | atom a => simp [positions]
    | leaf k a => simp [positions]
    | list k ts =>
      unfold positions
      split
      · exact all_sorted ts ih 0
      · simp
    | map k ts =>
      unfold positions
      split
      · rw [List.pairwise_append]
        refine ⟨by split <;> simp, all_sorted ts ih 0, ?_⟩
        intro a ha b hb
        obtain ⟨j, c, q', -, -, rfl⟩ := (mem_all _ _ _).1 hb
        split at ha
        · simp only [List.mem_singleton] at ha; subst ha; exact List.Lex.nil
        · simp at ha
      · split
        · exact all_sorted ts ih 0
        · split
          · exact only_sorted _ ts ih 0
          · split
            · exact only_sorted _ ts ih 0
            · simp

theorem relevant_nil (d : Node) : Relevant d [] ↔ ∃ ts, d = .map .accessPoint ts ∧ hasActions ts = true := by
  unfold Relevant
  simp only [sub, Option.some.injEq, hasActions_iff]

theorem relevant_cons (d : Node) (i : Nat) (p : List Nat) :
    Relevant d (i :: p) ↔ ∃ c, d.kids[i]? = some c ∧ Relevant c p := by
  unfold Relevant
  simp only [sub]
  cases h : d.kids[i]? with
  | none => simp
  | some c => simp

theorem sound_all (d : Node) (ts : List Node) (hd : d.kids = ts)
    (ih : ∀ c ∈ ts, ∀ p ∈ positions c, Relevant c p) (p : List Nat) (hp : p ∈ positionsAll 0 ts) : Relevant d p := by
  obtain ⟨j, c, q, h1, h2, rfl⟩ := (mem_all _ _ _).1 hp
  simp only [Nat.zero_add]
  rw [relevant_cons, hd]
  exact ⟨c, h1, ih c (List.mem_of_getElem? h1) q h2⟩

theorem sound_only (d : Node) (k : Tag) (ts : List Node) (hd : d.kids = ts)
    (ih : ∀ c ∈ ts, ∀ p ∈ positions c, Relevant c p) (p : List Nat) (hp : p ∈ positionsOnly k 0 ts) : Relevant d p := by
  obtain ⟨j, c, q, h1, h2, rfl⟩ := mem_only _ _ _ _ hp
  simp only [Nat.zero_add]
  rw [relevant_cons, hd]
  exact ⟨c, h1, ih c (List.mem_of_getElem? h1) q h2⟩

theorem positions_sound (d : Node) : ∀ p ∈ positions d, Relevant d p := by
  induction d using tree_ind with
  | _ d ih =>
    intro p hp
    cases d with
    | atom a => simp [positions] at hp
    | leaf k a => simp [positions] at hp
    | list k ts =>
      unfold positions at hp
      split at hp
      · exact sound_all _ ts rfl ih p hp
      · simp at hp
    | map k ts =>
      unfold positions at hp
      split at hp
      · rename_i hk
        subst hk
        rcases List.mem_append.1 hp with hp | hp
        · split at hp
          · simp only [List.mem_singleton] at hp; subst hp
            exact (relevant_nil _).2 ⟨ts, rfl, ‹_›⟩
          · simp at hp
        · exact sound_all _ ts rfl ih p hp
      · split at hp
        · exact sound_all _ ts rfl ih p hp
        · split at hp
          · exact sound_only _ _ ts rfl ih p hp
          · split at hp
            · exact sound_only _ _ ts rfl ih p hp
            · simp at hp

/-! ## What is reported -/

/-- What is said about a position of a definition that is found below `path`. -/
def metaFrom (path : List Ty) (d : Node) (p : List Nat) : Option Meta :=
  (metaAt d p).map fun m => { m with path := path ++ m.path }

/-- the keys a node adds to a path -/
def ownKeys (d : Node) : List Ty := ([d].filterMap asAccessPoint).filterMap fun ts => findTy ts .pathKey

theorem metaFrom_cons (path : List Ty) (d : Node) (i : Nat) (p : List Nat) (c : Node) (hc : d.kids[i]? = some c) :
    metaFrom path d (i :: p) = metaFrom (path ++ ownKeys d) c p := by
  have hk : keysAlong d (i :: p) = ownKeys d ++ keysAlong c p := by
    unfold keysAlong ownKeys
    simp only [findTy_said]
    simp only [along, hc]
    rw [show d :: along c p = [d] ++ along c p from rfl, List.filterMap_append, List.filterMap_append]
  unfold metaFrom metaAt
  simp only [sub, hc, hk]
  cases (sub c p).bind asAccessPoint with
  | none => rfl
  | some ts => simp

theorem metaFrom_nil (path : List Ty) (ts : List Node) (pk : Ty) (h : findTy ts .pathKey = some pk) :
    metaFrom path (.map .accessPoint ts) [] = some
      { name := (findTy ts .name).getD .void, actions := actionsOf ts, store := storeOf ts
        entity := (findTy ts .entity).getD (storeOf ts), path := path ++ [pk], listenPaths := listenPathsOf ts } := by
  simp [metaFrom, metaAt, sub, asAccessPoint, keysAlong, along, h, findTy_said, actionsOf_said, storeOf_said,
    listenPathsOf_said]

theorem enumAll_spec (d : Node) (path path' : List Ty) (hp : path' = path ++ ownKeys d)
    (ih : ∀ c ∈ d.kids, ∀ path l, enum path c = some l → l.map some = (positions c).map (metaFrom path c)) :
    ∀ (ts : List Node) (i : Nat), d.kids.drop i = ts → ∀ l, enumAll path' ts = some l →
      l.map some = (positionsAll i ts).map (metaFrom path d)
  | [], _, _, l, h => by
    simp only [enumAll, Option.some.injEq] at h
    subst h; simp [positionsAll]
  | c :: cs, i, hd, l, h => by
    have hc : d.kids[i]? = some c := by
      have := congrArg List.head? hd
      simpa [List.head?_drop] using this
    have hcs : d.kids.drop (i + 1) = cs := by
      rw [← List.drop_drop, hd]; simp
    simp only [enumAll] at h
    cases h1 : enum path' c with
    | none => rw [h1] at h; simp at h
    | some l1 =>
      rw [h1] at h
      simp only [Option.map_eq_some_iff] at h
      obtain ⟨l2, h2, rfl⟩ := h
      have e2 := enumAll_spec d path path' hp ih cs (i + 1) hcs l2 h2
      have e1 := ih c (List.mem_of_getElem? hc) path' l1 h1
      simp only [positionsAll, List.map_append, e1, e2, List.map_map]
      congr 1
      apply List.map_congr_left
      intro p _
      rw [Function.comp, metaFrom_cons path d i p c hc, hp]

theorem enumOnly_spec (d : Node) (k : Tag) (path path' : List Ty) (hp : path' = path ++ ownKeys d)
    (ih : ∀ c ∈ d.kids, ∀ path l, enum path c = some l → l.map some = (positions c).map (metaFrom path c)) :
    ∀ (ts : List Node) (i : Nat), d.kids.drop i = ts → ∀ l, enumOnly path' k ts = some l →
      l.map some = (positionsOnly k i ts).map (metaFrom path d)
  | [], _, _, l, h => by
    simp only [enumOnly, Option.some.injEq] at h
    subst h; simp [positionsOnly]
  | c :: cs, i, hd, l, h => by
    have hc : d.kids[i]? = some c := by
      have := congrArg List.head? hd
      simpa [List.head?_drop] using this
    have hcs : d.kids.drop (i + 1) = cs := by
      rw [← List.drop_drop, hd]; simp
    unfold enumOnly at h
    unfold positionsOnly
    split at h
    · rename_i hk
      rw [if_pos hk]
      rw [ih c (List.mem_of_getElem? hc) path' l h, List.map_map]
      apply List.map_congr_left
      intro p _
      rw [Function.comp, metaFrom_cons path d i p c hc, hp]
    · rename_i hk
      rw [if_neg hk]
      exact enumOnly_spec d k path path' hp ih cs (i + 1) hcs l h

theorem ownKeys_map {k : Tag} {ts : List Node} (h : k ≠ .accessPoint) : ownKeys (.map k ts) = [] := by
  unfold ownKeys
  cases k <;> simp_all [asAccessPoint]

theorem ownKeys_ap {ts : List Node} {pk : Ty} (h : findTy ts .pathKey = some pk) :
    ownKeys (.map .accessPoint ts) = [pk] := by
  simp [ownKeys, asAccessPoint, h]

theorem enum_spec (d : Node) : ∀ path l, enum path d = some l → l.map some = (positions d).map (metaFrom path d) := by
  induction d using tree_ind with
  | _ d ih =>
    intro path l h
    cases d with
    | atom a => simp [enum] at h
    | leaf k a =>
      unfold enum at h
      split at h
      · simp at h
      · simp only [Option.some.injEq] at h; subst h; simp [positions]
    | list k ts =>
      unfold enum at h
      unfold positions
      split at h
      · simp at h
      · split at h
        · rename_i hk
          rw [if_pos hk]
          exact enumAll_spec (.list k ts) path path (by simp [ownKeys, asAccessPoint]) ih ts 0 rfl l h
        · rename_i hk
          simp only [Option.some.injEq] at h; subst h; rw [if_neg hk]; simp
    | map k ts =>
      unfold enum at h
      unfold positions
      split at h
      · rename_i hk
        subst hk
        rw [if_pos rfl]
        cases hpk : findTy ts .pathKey with
        | none => rw [hpk] at h; simp at h
        | some pk =>
          rw [hpk] at h
          simp only [Option.map_eq_some_iff] at h
          obtain ⟨l2, h2, rfl⟩ := h
          rw [List.map_append, List.map_append,
            enumAll_spec (.map .accessPoint ts) path (path ++ [pk]) (by rw [ownKeys_ap hpk]) ih ts 0 rfl l2 h2]
          congr 1
          unfold metaOf
          cases hasActions ts with
          | true => simp [metaFrom_nil path ts pk hpk]
          | false => simp
      · rename_i hk
        rw [if_neg hk]
        have ho : path = path ++ ownKeys (.map k ts) := by rw [ownKeys_map hk]; simp
        split at h
        · rename_i hk2
          rw [if_pos hk2]
          exact enumAll_spec (.map k ts) path path ho ih ts 0 rfl l h
        · rename_i hk2
          rw [if_neg hk2]
          split at h
          · rename_i h1
            rw [if_pos h1]
            exact enumOnly_spec (.map k ts) _ path path ho ih ts 0 rfl l h
          · rename_i h1
            rw [if_neg h1]
            split at h
            · rename_i h2
              rw [if_pos h2]
              exact enumOnly_spec (.map k ts) _ path path ho ih ts 0 rfl l h
            · rename_i h2
              rw [if_neg h2]
              simp only [Option.some.injEq] at h; subst h; simp

/-! ## Completeness for well-formed definitions -/

theorem noAccessPoints_mem {ts : List Node} (h : NoAccessPoints ts) : ∀ c ∈ ts, NoAccessPoint c := by
  induction ts with
  | nil => simp
  | cons t ts ih =>
    unfold NoAccessPoints at h
    intro c hc
    rcases List.mem_cons.1 hc with rfl | hc
    · exact h.1
    · exact ih h.2 c hc

theorem allWellFormed_mem {ts : List Node} (h : AllWellFormed ts) : ∀ c ∈ ts, WellFormed c := by
  induction ts with
  | nil => simp
  | cons t ts ih =>
    unfold AllWellFormed at h
    intro c hc
    rcases List.mem_cons.1 hc with rfl | hc
    · exact h.1
    · exact ih h.2 c hc

theorem wellFormedOnly_mem {k : Tag} {ts : List Node} (h : WellFormedOnly k ts) :
    ∀ c ∈ ts, if c.key? = some k then WellFormed c else NoAccessPoint c := by
  induction ts with
  | nil => simp
  | cons t ts ih =>
    unfold WellFormedOnly at h
    intro c hc
    rcases List.mem_cons.1 hc with rfl | hc
    · exact h.1
    · exact ih h.2 c hc

theorem noAccessPoint_not_relevant (d : Node) : NoAccessPoint d → ∀ p, ¬ Relevant d p := by
  induction d using tree_ind with
  | _ d ih =>
    intro h p hr
    cases p with
    | nil =>
      obtain ⟨ts, rfl, -⟩ := (relevant_nil d).1 hr
      simp [NoAccessPoint] at h
    | cons i p =>
      obtain ⟨c, hc, hr⟩ := (relevant_cons d i p).1 hr
      have hm := List.mem_of_getElem? hc
      refine ih c hm ?_ p hr
      cases d with
      | atom a => simp [Tree.kids] at hm
      | leaf k a => simp [Tree.kids] at hm
      | list k ts => exact noAccessPoints_mem (by unfold NoAccessPoint at h; exact h.2) c hm
      | map k ts => exact noAccessPoints_mem (by unfold NoAccessPoint at h; exact h.2) c hm

theorem complete_all (d : Node) (ts : List Node) (hd : d.kids = ts)
    (ih : ∀ c ∈ ts, ∀ p, Relevant c p → p ∈ positions c) (i : Nat) (p : List Nat) (hr : Relevant d (i :: p)) :
    i :: p ∈ positionsAll 0 ts := by
  obtain ⟨c, hc, hr⟩ := (relevant_cons d i p).1 hr
  rw [hd] at hc
  rw [mem_all]
  exact ⟨i, c, p, hc, ih c (List.mem_of_getElem? hc) p hr, by simp⟩

theorem complete_only (d : Node) (k : Tag) (ts : List Node) (hd : d.kids = ts) (h1 : hasOne ts k = true)
    (hw : WellFormedOnly k ts) (ih : ∀ c ∈ ts, WellFormed c → ∀ p, Relevant c p → p ∈ positions c) (i : Nat)
    (p : List Nat) (hr : Relevant d (i :: p)) : i :: p ∈ positionsOnly k 0 ts := by
  obtain ⟨c, hc, hr⟩ := (relevant_cons d i p).1 hr
  rw [hd] at hc
  have hm := List.mem_of_getElem? hc
  have hw := wellFormedOnly_mem hw c hm
  split at hw
  · rename_i hk
    have := only_mem k ts 0 i c p (hasOne_length h1) hc hk (ih c hm hw p hr)
    simpa using this
  · exact absurd hr (noAccessPoint_not_relevant c hw p)

theorem positions_complete (d : Node) : WellFormed d → ∀ p, Relevant d p → p ∈ positions d := by
  induction d using tree_ind with
  | _ d ih =>
    intro hw p hr
    cases p with
    | nil =>
      obtain ⟨ts, rfl, ha⟩ := (relevant_nil d).1 hr
      simp [positions, ha]
    | cons i p =>
      cases d with
      | atom a => simp [WellFormed] at hw
      | leaf k a => obtain ⟨c, hc, -⟩ := (relevant_cons _ i p).1 hr; simp [Tree.kids] at hc
      | list k ts =>
        unfold WellFormed at hw
        unfold positions
        split
        · rename_i hk
          rw [if_pos hk] at hw
          exact complete_all _ ts rfl (fun c hc => ih c hc (allWellFormed_mem hw.2 c hc)) i p hr
        · rename_i hk
          rw [if_neg hk] at hw
          obtain ⟨c, hc, hr⟩ := (relevant_cons _ i p).1 hr
          exact absurd hr (noAccessPoint_not_relevant c (noAccessPoints_mem hw.2 c (List.mem_of_getElem? hc)) p)
      | map k ts =>
        unfold WellFormed at hw
        simp only [hasOne_only, findTy_said] at hw
        unfold positions
        split
        · rename_i hk
          rw [if_pos hk] at hw
          exact List.mem_append_right _
            (complete_all _ ts rfl (fun c hc => ih c hc (allWellFormed_mem hw.2 c hc)) i p hr)
        · rename_i hk
          rw [if_neg hk] at hw
          split
          · rename_i hk2
            rw [if_pos hk2] at hw
            exact complete_all _ ts rfl (fun c hc => ih c hc (allWellFormed_mem hw c hc)) i p hr
          · rename_i hk2
            rw [if_neg hk2] at hw
            split
            · rename_i h1
              rw [if_pos h1] at hw
              exact complete_only _ _ ts rfl h1 hw ih i p hr
            · rename_i h1
              rw [if_neg h1] at hw
              split
              · rename_i h2
                rw [if_pos h2] at hw
                exact complete_only _ _ ts rfl h2 hw ih i p hr
              · rename_i h2
                rw [if_neg h2] at hw
                obtain ⟨c, hc, hr⟩ := (relevant_cons _ i p).1 hr
                exact absurd hr (noAccessPoint_not_relevant c (noAccessPoints_mem hw c (List.mem_of_getElem? hc)) p)

theorem enumAll_some (ts : List Node) (h : ∀ c ∈ ts, ∀ path, (enum path c).isSome = true) (path : List Ty) :
    (enumAll path ts).isSome = true := by
  induction ts with
  | nil => simp [enumAll]
  | cons t ts ih =>
    obtain ⟨l, hl⟩ := Option.isSome_iff_exists.1 (h t (by simp) path)
    simp only [enumAll, hl, Option.isSome_map]
    exact ih fun c hc => h c (by simp [hc])

theorem enumOnly_some (k : Tag) (ts : List Node) (h : ∀ c ∈ ts, c.key? = some k → ∀ path, (enum path c).isSome = true)
    (path : List Ty) : (enumOnly path k ts).isSome = true := by
  induction ts with
  | nil => simp [enumOnly]
  | cons t ts ih =>
    unfold enumOnly
    split
    · exact h t (by simp) ‹_› path
    · exact ih fun c hc => h c (by simp [hc])

theorem enum_some (d : Node) : WellFormed d → ∀ path, (enum path d).isSome = true := by
  induction d using tree_ind with
  | _ d ih =>
    intro hw path
    have honly : ∀ (k : Tag) (ts : List Node), ts = d.kids → WellFormedOnly k ts → (enumOnly path k ts).isSome = true := by
      intro k ts hd hw
      refine enumOnly_some k ts (fun c hc hk path => ?_) path
      have := wellFormedOnly_mem hw c hc
      rw [if_pos hk] at this
      exact ih c (hd ▸ hc) this path
    cases d with
    | atom a => simp [WellFormed] at hw
    | leaf k a => unfold WellFormed at hw; simp [enum, hw.1, hw.2]
    | list k ts =>
      unfold WellFormed at hw
      unfold enum
      rw [if_neg hw.1]
      split
      · rename_i hk
        rw [if_pos hk] at hw
        exact enumAll_some ts (fun c hc => ih c hc (allWellFormed_mem hw.2 c hc)) path
      · rfl
    | map k ts =>
      unfold WellFormed at hw
      simp only [hasOne_only, findTy_said] at hw
      unfold enum
      split
      · rename_i hk
        rw [if_pos hk] at hw
        obtain ⟨pk, hpk⟩ := Option.isSome_iff_exists.1 hw.1
        rw [hpk]
        simp only [Option.isSome_map]
        exact enumAll_some ts (fun c hc => ih c hc (allWellFormed_mem hw.2 c hc)) _
      · rename_i hk
        rw [if_neg hk] at hw
        split
        · rename_i hk2
          rw [if_pos hk2] at hw
          exact enumAll_some ts (fun c hc => ih c hc (allWellFormed_mem hw c hc)) path
        · rename_i hk2
          rw [if_neg hk2] at hw
          split
          · rename_i h1
            rw [if_pos h1] at hw
            exact honly _ ts rfl hw
          · rename_i h1
            rw [if_neg h1] at hw
            split
            · rename_i h2
              rw [if_pos h2] at hw
              exact honly _ ts rfl hw
            · rfl

end Nbdl.Def
