import Verif.Def.Props
/-!
# C52, exactly: which access points are enumerated

Further specification.
-/
namespace Nbdl.Def
open Nbdl.Mpdef Nbdl.Mpdef.Spec Nbdl.Def.Spec
namespace Spec

/-- Whether access points are looked for in a child of a directive: in every child of an access point and of
`AccessPoints`; of any other directive only in the one `AccessPoints` among the children if there is exactly
one, or else in the one `AccessPoint` if there is exactly one. -/
def LooksInto : Node → Node → Prop
  | .atom _, _ => False
  | .leaf _ _, _ => False
  | .list k _, _ => k = .accessPoints
  | .map k ts, c =>
    k = .accessPoint ∨ k = .accessPoints
    ∨ (only .accessPoints ts).isSome = true ∧ c.key? = some .accessPoints
    ∨ (only .accessPoints ts).isSome = false ∧ (only .accessPoint ts).isSome = true ∧ c.key? = some .accessPoint

/-- Access points are looked for at a position: at every step on the way the child is looked into. -/
def Reached (d : Node) (p : List Nat) : Prop :=
  ∀ q i r, p = q ++ i :: r → ∃ e c, sub d q = some e ∧ sub d (q ++ [i]) = some c ∧ LooksInto e c

end Spec

theorem reached_nil (d : Node) : Reached d [] := by
  intro q i r h; cases q <;> simp at h

theorem reached_cons (d : Node) (i : Nat) (p : List Nat) :
    Reached d (i :: p) ↔ ∃ c, d.kids[i]? = some c ∧ LooksInto d c ∧ Reached c p := by
  constructor
  · intro h
    obtain ⟨e, c, h1, h2, h3⟩ := h [] i p rfl
    simp only [sub, Option.some.injEq] at h1
    subst h1
    simp only [List.nil_append, sub] at h2
    cases hc : d.kids[i]? with
    | none => rw [hc] at h2; simp at h2
    | some c' =>
      rw [hc] at h2
      simp only [Option.some.injEq] at h2
      subst h2
      refine ⟨c', rfl, h3, ?_⟩
      intro q j r hp
      obtain ⟨e, c, h1, h2, h3⟩ := h (i :: q) j r (by rw [hp]; rfl)
      simp only [List.cons_append, sub, hc] at h1 h2
      exact ⟨e, c, h1, h2, h3⟩
  · rintro ⟨c, hc, hl, hr⟩ q j r hp
    cases q with
    | nil =>
      simp only [List.nil_append, List.cons.injEq] at hp
      obtain ⟨rfl, rfl⟩ := hp
      exact ⟨d, c, rfl, by simp [sub, hc], hl⟩
    | cons i' q =>
      simp only [List.cons_append, List.cons.injEq] at hp
      obtain ⟨rfl, rfl⟩ := hp
      obtain ⟨e, c', h1, h2, h3⟩ := hr q j r rfl
      exact ⟨e, c', by simpa only [sub, hc] using h1, by simpa only [List.cons_append, sub, hc] using h2, h3⟩

theorem mem_only_key (k : Tag) (ts : List Node) (i : Nat) (p : List Nat) (h : p ∈ positionsOnly k i ts) :
    ∃ j c q, ts[j]? = some c ∧ c.key? = some k ∧ q ∈ positions c ∧ p = (i + j) :: q := by
  induction ts generalizing i with
  | nil => simp [positionsOnly] at h
  | cons t ts ih =>
    unfold positionsOnly at h
    split at h
    · obtain ⟨q, hq, rfl⟩ := List.mem_map.1 h
      exact ⟨0, t, q, rfl, ‹_›, hq, by simp⟩
    · obtain ⟨j, c, q, h1, hk, h2, rfl⟩ := ih (i + 1) h
      exact ⟨j + 1, c, q, by simpa using h1, hk, h2, by congr 1; omega⟩

theorem only_iff (k : Tag) (ts : List Node) (hu : hasOne ts k = true) (i : Nat) (p : List Nat) :
    i :: p ∈ positionsOnly k 0 ts ↔ ∃ c, ts[i]? = some c ∧ c.key? = some k ∧ p ∈ positions c := by
  constructor
  · intro h
    obtain ⟨j, c, q, h1, h2, h3, h4⟩ := mem_only_key k ts 0 _ h
    simp only [Nat.zero_add, List.cons.injEq] at h4
    obtain ⟨rfl, rfl⟩ := h4
    exact ⟨c, h1, h2, h3⟩
  · rintro ⟨c, h1, h2, h3⟩
    simpa using only_mem k ts 0 i c p (hasOne_length hu) h1 h2 h3

theorem all_iff (ts : List Node) (i : Nat) (p : List Nat) :
    i :: p ∈ positionsAll 0 ts ↔ ∃ c, ts[i]? = some c ∧ p ∈ positions c := by
  rw [mem_all]
  constructor
  · rintro ⟨j, c, q, h1, h2, h3⟩
    simp only [Nat.zero_add, List.cons.injEq] at h3
    obtain ⟨rfl, rfl⟩ := h3
    exact ⟨c, h1, h2⟩
  · rintro ⟨c, h1, h2⟩
    exact ⟨i, c, p, h1, h2, by simp⟩

theorem positions_cons (d : Node) (i : Nat) (p : List Nat) :
    i :: p ∈ positions d ↔ ∃ c, d.kids[i]? = some c ∧ LooksInto d c ∧ p ∈ positions c := by
  cases d with
  | atom a => simp [positions, Tree.kids]
  | leaf k a => simp [positions, Tree.kids]
  | list k ts =>
    have e : positions (.list k ts) = if k = .accessPoints then positionsAll 0 ts else [] := by rw [positions]
    rw [e]
    simp only [Tree.kids, LooksInto]
    split
    · rw [all_iff]; simp [*]
    · simp [*]
  | map k ts =>
    have e : positions (.map k ts) = if k = .accessPoint then (if hasActions ts then [[]] else []) ++ positionsAll 0 ts
        else if k = .accessPoints then positionsAll 0 ts
        else if hasOne ts .accessPoints then positionsOnly .accessPoints 0 ts
        else if hasOne ts .accessPoint then positionsOnly .accessPoint 0 ts
        else [] := by rw [positions]
    rw [e]
    simp only [Tree.kids, LooksInto, hasOne_only]
    by_cases h1 : k = .accessPoint
    · rw [if_pos h1]
      have : i :: p ∈ (if hasActions ts then [[]] else []) ++ positionsAll 0 ts ↔ i :: p ∈ positionsAll 0 ts := by
        rw [List.mem_append]
        constructor
        · rintro (h | h)
          · split at h <;> simp at h
          · exact h
        · exact .inr
      rw [this, all_iff]; simp [h1]
    · rw [if_neg h1]
      by_cases h2 : k = .accessPoints
      · rw [if_pos h2, all_iff]; simp [h2]
      · rw [if_neg h2]
        by_cases h3 : hasOne ts .accessPoints = true
        · rw [if_pos h3, only_iff _ _ h3]; simp [h1, h2, h3]
        · rw [if_neg h3]
          by_cases h4 : hasOne ts .accessPoint = true
          · rw [if_pos h4, only_iff _ _ h4]; simp [h1, h2, h3, h4]
          · rw [if_neg h4]; simp [h1, h2, h3, h4]

theorem positions_exact : ∀ (p : List Nat) (d : Node), p ∈ positions d ↔ Relevant d p ∧ Reached d p
  | [], d => by
    constructor
    · intro h; exact ⟨positions_sound d _ h, reached_nil d⟩
    · rintro ⟨h, -⟩
      obtain ⟨ts, rfl, ha⟩ := (relevant_nil d).1 h
      simp [positions, ha]
  | i :: p, d => by
    rw [positions_cons, relevant_cons, reached_cons]
    constructor
    · rintro ⟨c, h1, h2, h3⟩
      obtain ⟨h4, h5⟩ := (positions_exact p c).1 h3
      exact ⟨⟨c, h1, h4⟩, c, h1, h2, h5⟩
    · rintro ⟨⟨c, h1, h4⟩, c', h1', h2, h5⟩
      rw [h1] at h1'
      simp only [Option.some.injEq] at h1'
      subst h1'
      exact ⟨c, h1, h2, (positions_exact p c).2 ⟨h4, h5⟩⟩

/-- C52, exactly, for every definition that compiles: what is enumerated, in the order of the definition and each
once, are the access points with actions or a store that are reached. -/
theorem access_points_exact (d : Node) (l : List Meta) (h : enumerateAccessPoints d = some l) :
    ∃ ps : List (List Nat), ps.Pairwise (· < ·) ∧ (∀ p, p ∈ ps ↔ Relevant d p ∧ Reached d p)
      ∧ l.map some = ps.map (metaAt d) :=
  ⟨positions d, positions_sorted d, fun p => positions_exact p d, by rw [enum_spec d [] l h, metaFrom_root]⟩

theorem subset_length {α : Type} [DecidableEq α] : (l m : List α) → l.Nodup → l ⊆ m → l.length ≤ m.length
  | [], m, _, _ => by simp
  | a :: l, m, hn, hs => by
    obtain ⟨h1, h2⟩ := List.nodup_cons.1 hn
    have hm : a ∈ m := hs (by simp)
    have := subset_length l (m.erase a) h2 fun x hx =>
      (List.mem_erase_of_ne (by rintro rfl; exact h1 hx)).2 (hs (by simp [hx]))
    rw [List.length_erase_of_mem hm] at this
    have := List.length_pos_of_mem hm
    simp only [List.length_cons]
    omega

/-- C52, when it holds: for a definition that compiles, the access points with actions or a store are all enumerated
if and only if all are reached. -/
theorem access_points_all_iff (d : Node) (l : List Meta) (h : enumerateAccessPoints d = some l) :
    (∃ ps : List (List Nat), ps.Pairwise (· < ·) ∧ (∀ p, p ∈ ps ↔ Relevant d p) ∧ l.length = ps.length
        ∧ l.map some = ps.map (metaAt d))
      ↔ ∀ p, Relevant d p → Reached d p := by
  obtain ⟨ps, h1, h2, h3⟩ := access_points_exact d l h
  have hn : ∀ qs : List (List Nat), qs.Pairwise (· < ·) → qs.Nodup := fun qs hq =>
    hq.imp fun h e => by subst e; exact absurd h (List.lt_irrefl _)
  have hl : l.length = ps.length := by simpa using congrArg List.length h3
  constructor
  · rintro ⟨qs, q1, q2, q3, -⟩ p hp
    have hsub : ps ⊆ qs := fun x hx => (q2 x).2 ((h2 x).1 hx).1
    by_cases hm : p ∈ ps
    · exact ((h2 p).1 hm).2
    · have := subset_length (p :: ps) qs (List.nodup_cons.2 ⟨hm, hn ps h1⟩)
        (List.cons_subset.2 ⟨(q2 p).2 hp, hsub⟩)
      simp only [List.length_cons] at this
      omega
  · intro hr
    exact ⟨ps, h1, fun p => ⟨fun hp => ((h2 p).1 hp).1, fun hp => (h2 p).2 ⟨hp, hr p hp⟩⟩, hl, h3⟩

example : Reached (.map .producer [ap 1 [acts [.create]], .list .accessPoints [ap 2 [acts [.create]]]]) [1, 0] := by
  rw [reached_cons]
  refine ⟨_, rfl, .inr (.inr (.inl ⟨rfl, rfl⟩)), ?_⟩
  rw [reached_cons]
  exact ⟨_, rfl, rfl, reached_nil _⟩
example : ¬ Reached (.map .producer [ap 1 [acts [.create]], .list .accessPoints [ap 2 [acts [.create]]]]) [0] := by
  rw [reached_cons]
  rintro ⟨c, h, hl, -⟩
  simp only [Tree.kids, List.getElem?_cons_zero, Option.some.injEq] at h
  subst h
  simp [LooksInto, ap, only, Tree.key?] at hl

/-! ## C65: which consumers are found -/

namespace Spec
/-- The children of a directive with a certain key. -/
def having (k : Tag) (d : Node) : List Node := d.kids.filter fun t => t.key? = some k

/-- The consumers declared in a context: each `Consumer` directive and whatever is in the `Consumers`
directives, from left to right. -/
def declared (d : Node) : List Node :=
  d.kids.flatMap fun t =>
    if t.key? = some .consumer then [t] else if t.key? = some .consumers then t.kids else []
end Spec

theorem declared_length (d : Node) : (declared d).length
    = (having .consumer d).length + (having .consumers d).foldr (fun c n => c.kids.length + n) 0 := by
  unfold declared having
  induction d.kids with
  | nil => rfl
  | cons t ts ih =>
    rw [List.flatMap_cons, List.length_append, ih]
    by_cases h1 : t.key? = some .consumer
    · have h2 : t.key? ≠ some .consumers := by rw [h1]; simp
      simp only [List.filter_cons, h1, decide_true, if_true, List.length_cons, List.length_nil]
      simp
      omega
    · by_cases h2 : t.key? = some .consumers
      · simp only [List.filter_cons, h2, decide_true, if_true, List.foldr_cons]
        simp
        omega
      · simp [List.filter_cons, h1, h2]

theorem mapM_length {α β : Type} (f : α → Option β) : ∀ (l : List α) (r : List β), l.mapM f = some r → r.length = l.length
  | [], r, h => by simp at h; rw [h, List.length_nil, List.length_nil]
  | x :: l, r, h => by
    simp only [List.mapM_cons, Option.bind_eq_bind, Option.bind_eq_some_iff, Option.pure_def, Option.some.injEq] at h
    obtain ⟨y, -, ys, hy, rfl⟩ := h
    simp [mapM_length f l ys hy]

theorem declared_consumers (d : Node) (c : Node) (hc : having .consumers d = [c]) (hd : having .consumer d = []) :
    declared d = c.kids := by
  unfold declared
  unfold having at hc hd
  revert hc hd
  induction d.kids with
  | nil => intro hc; cases hc
  | cons t ts ih =>
    intro hc hd
    have h1 : t.key? ≠ some .consumer := by
      intro h; simp [List.filter_cons, h] at hd
    rw [List.filter_cons, if_neg (by simpa using h1)] at hd
    rw [List.flatMap_cons, if_neg h1]
    by_cases h2 : t.key? = some .consumers
    · rw [List.filter_cons, if_pos (by simpa using h2)] at hc
      injection hc with e1 e2
      rw [if_pos h2, e1]
      have : ts.flatMap (fun t => if t.key? = some Tag.consumer then [t]
          else if t.key? = some .consumers then t.kids else []) = [] := by
        rw [List.flatMap_eq_nil_iff]
        intro x hx
        have g1 := List.filter_eq_nil_iff.1 hd x hx
        have g2 := List.filter_eq_nil_iff.1 e2 x hx
        rw [if_neg (by simpa using g1), if_neg (by simpa using g2)]
      rw [this, List.append_nil]
    · rw [List.filter_cons, if_neg (by simpa using h2)] at hc
      rw [if_neg h2, ih hc hd]; rfl

theorem declared_consumer (d : Node) (hc : ∀ c ∈ having .consumers d, c.kids = []) : declared d = having .consumer d := by
  unfold declared
  unfold having at *
  revert hc
  induction d.kids with
  | nil => intro _; rfl
  | cons t ts ih =>
    intro hc
    have ih := ih fun c h => hc c (by
      rw [List.filter_cons]; split
      · exact List.mem_cons_of_mem _ h
      · exact h)
    rw [List.flatMap_cons, ih]
    by_cases h1 : t.key? = some .consumer
    · simp [List.filter_cons, h1]
    · have e : (t :: ts).filter (fun t => decide (t.key? = some Tag.consumer))
          = ts.filter (fun t => decide (t.key? = some Tag.consumer)) := by simp [List.filter_cons, h1]
      rw [e, if_neg h1]
      by_cases h2 : t.key? = some .consumers
      · rw [if_pos h2, hc t (by rw [List.filter_cons, if_pos (by simpa using h2)]; exact List.mem_cons_self ..)]; rfl
      · rw [if_neg h2]; rfl

/-- C65, exactly: in a context definition whose consumers can be enumerated, all consumers that are declared are
found just if they are all in one `Consumers` directive, or there is at most one `Consumer` directive and none
of any number of `Consumers` directives other than one holds anything. -/
theorem consumers_all_iff (d : Node) (l : List ConsumerMeta) (h : enumerateConsumers d = some l) :
    (declared d).mapM consumerMeta = some l ↔
      ((having .consumers d).length = 1 ∧ having .consumer d = [])
      ∨ ((having .consumers d).length ≠ 1 ∧ (∀ c ∈ having .consumers d, c.kids = [])
        ∧ (having .consumer d).length ≤ 1) := by
  have hlen := declared_length d
  rw [enumerateConsumers] at h
  have o1 : mapFind d.kids .consumers = match having .consumers d with | [c] => some c | _ => none := by
    unfold mapFind having
    rcases d.kids.filter _ with _ | ⟨a, _ | ⟨b, cs⟩⟩ <;> rfl
  have o2 : mapFind d.kids .consumer = match having .consumer d with | [c] => some c | _ => none := by
    unfold mapFind having
    rcases d.kids.filter _ with _ | ⟨a, _ | ⟨b, cs⟩⟩ <;> rfl
  rw [o1, o2] at h
  match hC : having .consumers d with
  | [c] =>
    rw [hC] at h
    simp only at h
    constructor
    · intro hd
      refine .inl ⟨rfl, ?_⟩
      have e1 := mapM_length _ _ _ h
      have e2 := mapM_length _ _ _ hd
      rw [hC] at hlen
      simp only [List.foldr_cons, List.foldr_nil] at hlen
      exact List.length_eq_zero_iff.1 (by omega)
    · rintro (⟨-, hD⟩ | ⟨hn, -⟩)
      · rw [declared_consumers d c hC hD, h]
      · exact absurd rfl hn
  | [] =>
    rw [hC] at h
    simp only at h
    have hdecl := declared_consumer d (by rw [hC]; intro c hc; cases hc)
    rw [hdecl]
    match hD : having .consumer d with
    | [] => rw [hD] at h; simp only at h; rw [← h]; simp
    | [x] => rw [hD] at h; simp only at h; rw [h]; simp
    | x :: y :: zs =>
      rw [hD] at h
      simp only [Option.some.injEq] at h
      constructor
      · intro hm
        have := mapM_length _ _ _ hm
        rw [← h] at this; cases this
      · rintro (⟨hn, -⟩ | ⟨-, -, hn⟩)
        · cases hn
        · simp at hn
  | c :: c' :: cs =>
    rw [hC] at h
    simp only at h
    constructor
    · intro hm
      refine .inr ⟨by simp, ?_⟩
      have e2 := mapM_length _ _ _ hm
      have hz : l.length ≤ (having .consumer d).length ∧ ((having .consumer d).length ≤ 1 ∨ l.length = 0) := by
        match hD : having .consumer d with
        | [] => rw [hD] at h; simp only [Option.some.injEq] at h; rw [← h]; simp
        | [x] => rw [hD] at h; simp only at h; rw [mapM_length _ _ _ h]; simp
        | x :: y :: zs => rw [hD] at h; simp only [Option.some.injEq] at h; rw [← h]; simp
      have all0 : ∀ cs : List Node, cs.foldr (fun c n => c.kids.length + n) 0 = 0 → ∀ c ∈ cs, c.kids = [] := by
        intro cs
        induction cs with
        | nil => intro _ c hc; cases hc
        | cons x xs ih =>
          intro h0 c hc
          rw [List.foldr_cons] at h0
          rcases List.mem_cons.1 hc with rfl | hc
          · exact List.length_eq_zero_iff.1 (by omega)
          · exact ih (by omega) c hc
      rw [← hC]
      exact ⟨all0 _ (by omega), by omega⟩
    · rintro (⟨hn, -⟩ | ⟨-, hk, hn⟩)
      · simp at hn
      · rw [declared_consumer d (by rw [hC]; exact hk)]
        match hD : having .consumer d with
        | [] => rw [hD] at h; simp only at h; rw [← h]; simp
        | [x] => rw [hD] at h; simp only at h; rw [h]
        | x :: y :: zs => rw [hD] at hn; simp at hn

/-- Definitions of both kinds. -/
example : enumerateConsumers (.map .context [.map .consumer [.leaf .type (.user 1)],
      .list .consumers [.map .consumer [.leaf .type (.user 2)]]]) = some [⟨.user 2, .user 2⟩]
    ∧ (declared (.map .context [.map .consumer [.leaf .type (.user 1)],
      .list .consumers [.map .consumer [.leaf .type (.user 2)]]])).length = 2 := by decide +kernel
example : (declared (.map .context [.list .consumers [.map .consumer [.leaf .type (.user 1)],
      .map .consumer [.leaf .type (.user 2)]]])).mapM consumerMeta
    = some [⟨.user 1, .user 1⟩, ⟨.user 2, .user 2⟩] := by decide +kernel

end Nbdl.Def
