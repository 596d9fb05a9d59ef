import Verif.HoldLazy.Props
/-!
# Exactly which pipelines keep their held values (C100)
-/
namespace Nbdl.HoldLazy

/-- Every holder which resolves before its value is made is followed, later in the pipeline, by one which does not. -/
def Covered (ks : List Kind) : Prop := ∀ pre post, ks = pre ++ .lazy true :: post → Kind.lazy false ∈ post

/-- Each held value resolves at most once; one which resolved before it was made does not resolve again. -/
def Single (c : Config) (os : List Op) : Prop :=
  ∀ i, os.count (.fire i) ≤ 1 ∧ (c.steps[i]? = some (.lazy true) → Op.fire i ∉ os)

private theorem holds_iff' (s : S) (i : Nat) : holds s i = true ↔ i ∈ s.held.map (·.1) := by
  simp [holds]

private theorem put_alive (s : S) (i : Nat) (ha : s.alive = true) : HoldLazy.put s i =
    .ok ⟨true, (i, s.made.length) :: s.held.filter (·.1 ≠ i), s.made ++ [(i, s.made.length)], s.destroyed⟩ := by
  rw [HoldLazy.put, if_pos ha, ha]

/-- The pipeline exists and holds all it made. -/
private structure Core (s : S) : Prop where
  alive : s.alive = true
  destroyed : s.destroyed = []
  held : s.held.Perm s.made
  steps : (s.held.map (·.1)).Nodup

private theorem nodup_of_steps' {l : List (Nat × Nat)} (h : (l.map (·.1)).Nodup) : l.Nodup := by
  unfold List.Nodup at *
  rw [List.pairwise_map] at h
  exact h.imp fun hne e => hne (by rw [e])

private theorem Core.kept {s} (h : Core s) : Kept s := by
  simp only [Kept, h.alive, if_true]
  exact ⟨h.destroyed, h.held.nodup_iff.mp (nodup_of_steps' h.steps), fun x => h.held.count_eq x⟩

private theorem Core.put {s} (h : Core s) (j : Nat) (hj : holds s j = false) :
    ∃ s', put s j = .ok s' ∧ Core s' ∧ ∀ k, holds s' k = true ↔ k = j ∨ holds s k = true := by
  have hnot : j ∉ s.held.map (·.1) := fun m => by
    rw [(holds_iff' s j).mpr m] at hj; cases hj
  have hfilter : s.held.filter (·.1 ≠ j) = s.held := by
    rw [List.filter_eq_self]
    intro x hx
    simp only [ne_eq, decide_eq_true_eq]
    intro e; exact hnot (List.mem_map.mpr ⟨x, hx, e⟩)
  refine ⟨⟨true, (j, s.made.length) :: s.held, s.made ++ [(j, s.made.length)], s.destroyed⟩,
    by rw [put_alive s j h.alive, hfilter], ⟨rfl, h.destroyed, ?_, ?_⟩, ?_⟩
  · exact (List.Perm.cons _ h.held).trans (List.perm_append_comm (l₁ := [(j, s.made.length)]))
  · simp only [List.map_cons, List.nodup_cons]
    exact ⟨hnot, h.steps⟩
  · intro k
    rw [holds_iff', holds_iff']
    simp

private theorem Core.delete {s} (h : Core s) : ∃ s', deletePipe s = .ok s' ∧ s'.held = [] ∧ Kept s' := by
  refine ⟨_, by simp only [deletePipe, h.alive, if_true]; rfl, rfl, ?_⟩
  simp only [Kept]
  rw [if_neg (by decide)]
  refine ⟨h.held.nodup_iff.mp (nodup_of_steps' h.steps), ?_⟩
  intro x
  simp only [h.destroyed, List.nil_append]
  exact h.held.count_eq x

private theorem exec_gone' (c : Config) (n : Nat) : ∀ (os : List Op) (s : S), s.held = [] →
    exec c n os s = .ok s
  | [], s, _ => rfl
  | .fire i :: os, s, h => by
    have : holds s i = false := by simp [holds, h]
    simp only [exec, step, this, Cpp.bind]
    exact exec_gone' c n os s h
  | .stop i :: os, s, h => by
    have : holds s i = false := by simp [holds, h]
    simp only [exec, step, this, Cpp.bind]
    exact exec_gone' c n os s h

private theorem Covered.tail {k : Kind} {ks : List Kind} (h : Covered (k :: ks)) : Covered ks :=
  fun pre post e => h (k :: pre) post (by rw [e]; rfl)

/-- Resolving goes to the next holder which waits, or to the end. -/
private theorem resolve_covered (e : S → Cpp S) : ∀ (ks : List Kind) (i : Nat) (s : S), Covered ks → Core s →
    (∀ j, holds s j = true → j < i) →
    ((∀ k ∈ ks, k = .func) ∧ resolveFrom e ks i s = e s) ∨
    ∃ s' d, ks[d]? = some (.lazy false) ∧ resolveFrom e ks i s = .ok s' ∧ Core s' ∧
      ∀ j, holds s' j = true → holds s j = true ∨ j = i + d ∨ (∃ d', d' < d ∧ j = i + d' ∧ ks[d']? = some (.lazy true))
  | [], i, s, _, _, _ => .inl ⟨by simp, rfl⟩
  | .func :: ks, i, s, hc, hs, hi => by
    rcases resolve_covered e ks (i + 1) s hc.tail hs (fun j hj => by have := hi j hj; omega) with
      ⟨h1, h2⟩ | ⟨s', d, h1, h2, h3, h4⟩
    · exact .inl ⟨by simpa using h1, by rw [resolveFrom, h2]⟩
    · refine .inr ⟨s', d + 1, by simpa using h1, by rw [resolveFrom, h2], h3, ?_⟩
      intro j hj
      rcases h4 j hj with h | h | ⟨d', h5, h6, h7⟩
      · exact .inl h
      · exact .inr (.inl (by omega))
      · exact .inr (.inr ⟨d' + 1, by omega, by omega, by simpa using h7⟩)
  | .lazy false :: ks, i, s, _, hs, hi => by
    have hn : holds s i = false := by
      cases h : holds s i with
      | false => rfl
      | true => have := hi i h; omega
    obtain ⟨s', h1, h2, h3⟩ := hs.put i hn
    refine .inr ⟨s', 0, rfl, by rw [resolveFrom, h1], h2, ?_⟩
    intro j hj
    rcases (h3 j).1 hj with h | h
    · exact .inr (.inl (by omega))
    · exact .inl h
  | .lazy true :: ks, i, s, hc, hs, hi => by
    have hm : Kind.lazy false ∈ ks := hc [] ks rfl
    rcases resolve_covered e ks (i + 1) s hc.tail hs (fun j hj => by have := hi j hj; omega) with
      ⟨h1, _⟩ | ⟨s', d, h1, h2, h3, h4⟩
    · cases h1 _ hm
    · have hn : holds s' i = false := by
        cases h : holds s' i with
        | false => rfl
        | true =>
          rcases h4 i h with h | h | ⟨d', _, h6, _⟩
          · have := hi i h; omega
          · omega
          · omega
      obtain ⟨s'', h5, h6, h7⟩ := h3.put i hn
      refine .inr ⟨s'', d + 1, by simpa using h1, by rw [resolveFrom, h2]; exact h5, h6, ?_⟩
      intro j hj
      rcases (h7 j).1 hj with h | h
      · exact .inr (.inr ⟨0, by omega, by omega, rfl⟩)
      · rcases h4 j h with h | h | ⟨d', h8, h9, h10⟩
        · exact .inl h
        · exact .inr (.inl (by omega))
        · exact .inr (.inr ⟨d' + 1, by omega, by omega, by simpa using h10⟩)

private theorem Covered.drop {ks : List Kind} (h : Covered ks) (n : Nat) : Covered (ks.drop n) := by
  intro pre post e
  exact h (ks.take n ++ pre) post (by rw [List.append_assoc, ← e, List.take_append_drop])

/-- From any state in which the holder at `p` alone may still resolve. -/
private theorem exec_covered (c : Config) (hl : c.loop = false) (h : Covered c.steps) (n : Nat) :
    ∀ (os : List Op) (fired : Nat → Prop) (p : Nat) (s : S), Core s → (∀ j, holds s j = true → j ≤ p) →
      (∀ j, holds s j = true → j ≠ p → fired j ∨ c.steps[j]? = some (.lazy true)) →
      (∀ i, fired i → .fire i ∉ os) → Single c os → ∃ s', exec c n os s = .ok s' ∧ Kept s'
  | [], fired, p, s, hs, _, _, _, _ => ⟨s, rfl, hs.kept⟩
  | .stop i :: os, fired, p, s, hs, hle, hot, hf, ho => by
    have ho' : Single c os := fun k => by
      have := ho k; rw [List.count_cons] at this
      exact ⟨by omega, fun hk hm => this.2 hk (List.mem_cons_of_mem _ hm)⟩
    by_cases hh : holds s i = true
    · obtain ⟨s', e, he, hb⟩ := hs.delete
      refine ⟨s', ?_, hb⟩
      simp only [exec, step, hh, if_true, e, Cpp.bind]
      exact exec_gone' c n os s' he
    · simp only [exec, step, hh, Cpp.bind]
      exact exec_covered c hl h n os fired p s hs hle hot (fun k hk m => hf k hk (List.mem_cons_of_mem _ m)) ho'
  | .fire i :: os, fired, p, s, hs, hle, hot, hf, ho => by
    have ho' : Single c os := fun k => by
      have := ho k; rw [List.count_cons] at this
      exact ⟨by omega, fun hk hm => this.2 hk (List.mem_cons_of_mem _ hm)⟩
    have hni : .fire i ∉ os := by
      have := (ho i).1
      rw [List.count_cons_self] at this
      exact fun m => by have := List.count_pos_iff.mpr m; omega
    by_cases hh : holds s i = true
    · have hip : i = p := by
        by_cases hip : i = p
        · exact hip
        · rcases hot i hh hip with hk | hk
          · exact absurd List.mem_cons_self (hf i hk)
          · exact absurd List.mem_cons_self ((ho i).2 hk)
      subst hip
      have hwf : ∀ k, (fired k ∨ k = i) → .fire k ∉ os := by
        rintro k (hk | rfl) m
        · exact hf k hk (List.mem_cons_of_mem _ m)
        · exact hni m
      simp only [exec, step, hh, if_true]
      rcases resolve_covered (onEnd c n) (c.steps.drop (i + 1)) (i + 1) s (h.drop _) hs
        (fun j hj => by have := hle j hj; omega) with ⟨_, h2⟩ | ⟨s', d, h1, h2, h3, h4⟩
      · rw [h2]
        simp only [onEnd, hl]
        obtain ⟨s', e, he, hb⟩ := hs.delete
        refine ⟨s', ?_, hb⟩
        rw [if_neg (by decide), e]
        exact exec_gone' c n os s' he
      · rw [h2]
        refine exec_covered c hl h n os (fun k => fired k ∨ k = i) (i + 1 + d) s' h3 ?_ ?_ hwf ho'
        · intro j hj
          rcases h4 j hj with h | h | ⟨d', h5, h6, _⟩
          · have := hle j h; omega
          · omega
          · omega
        · intro j hj hne
          rcases h4 j hj with h | h | ⟨d', h5, h6, h7⟩
          · by_cases hji : j = i
            · exact .inl (.inr hji)
            · rcases hot j h hji with h | h
              · exact .inl (.inl h)
              · exact .inr h
          · exact absurd h hne
          · rw [List.getElem?_drop] at h7
            exact .inr (by rw [h6]; exact h7)
    · simp only [exec, step, hh, Cpp.bind]
      exact exec_covered c hl h n os fired p s hs hle hot (fun k hk m => hf k hk (List.mem_cons_of_mem _ m)) ho'

/-- A resolution without a holder that waits goes to the end, and what resolved early finds the pipeline deleted. -/
private theorem resolve_uncovered : ∀ (ks : List Kind) (i : Nat) (s : S), Kind.lazy false ∉ ks → s.alive = true →
    (Kind.lazy true ∈ ks → resolveFrom deletePipe ks i s = .ub) ∧
    (Kind.lazy true ∉ ks → ∃ s', resolveFrom deletePipe ks i s = .ok s' ∧ s'.alive = false)
  | [], i, s, _, ha => ⟨by simp, fun _ => ⟨_, by rw [resolveFrom, deletePipe, if_pos ha], rfl⟩⟩
  | .func :: ks, i, s, hn, ha => by
    have := resolve_uncovered ks (i + 1) s (fun m => hn (List.mem_cons_of_mem _ m)) ha
    rw [resolveFrom]
    exact ⟨fun m => this.1 (by simpa using m), fun m => this.2 fun m' => m (List.mem_cons_of_mem _ m')⟩
  | .lazy false :: ks, i, s, hn, ha => absurd List.mem_cons_self hn
  | .lazy true :: ks, i, s, hn, ha => by
    have := resolve_uncovered ks (i + 1) s (fun m => hn (List.mem_cons_of_mem _ m)) ha
    refine ⟨fun _ => ?_, fun m => absurd List.mem_cons_self m⟩
    rw [resolveFrom]
    by_cases hm : Kind.lazy true ∈ ks
    · rw [this.1 hm]; rfl
    · obtain ⟨s', e, hs'⟩ := this.2 hm
      rw [e]
      show put s' i = _
      rw [put, hs']; rfl

/-- Resolving gets to the first holder which waits, which then holds a value. -/
private theorem resolve_first (e : S → Cpp S) : ∀ (ks rest : List Kind) (i : Nat) (s : S), Kind.lazy false ∉ ks →
    s.alive = true → ∃ s', resolveFrom e (ks ++ .lazy false :: rest) i s = .ok s' ∧ s'.alive = true ∧
      holds s' (i + ks.length) = true
  | [], rest, i, s, _, ha => by
    refine ⟨_, by rw [List.nil_append, resolveFrom, put_alive s i ha], rfl, ?_⟩
    simp [holds]
  | .func :: ks, rest, i, s, hn, ha => by
    obtain ⟨s', h1, h2, h3⟩ := resolve_first e ks rest (i + 1) s (fun m => hn (List.mem_cons_of_mem _ m)) ha
    refine ⟨s', by rw [List.cons_append, resolveFrom, h1], h2, ?_⟩
    rw [List.length_cons, ← h3]; congr 1; omega
  | .lazy false :: ks, rest, i, s, hn, ha => absurd List.mem_cons_self hn
  | .lazy true :: ks, rest, i, s, hn, ha => by
    obtain ⟨s', h1, h2, h3⟩ := resolve_first e ks rest (i + 1) s (fun m => hn (List.mem_cons_of_mem _ m)) ha
    refine ⟨_, by rw [List.cons_append, resolveFrom, h1]; show put s' i = _; rw [put_alive s' i h2], rfl, ?_⟩
    rw [holds_iff'] at h3 ⊢
    obtain ⟨x, hx, hx'⟩ := List.mem_map.1 h3
    refine List.mem_map.2 ⟨x, ?_, by rw [hx', List.length_cons]; omega⟩
    refine List.mem_cons_of_mem _ (List.mem_filter.2 ⟨hx, ?_⟩)
    simp only [ne_eq, decide_eq_true_eq]
    omega

/-- The first element of a list that is in a list. -/
private theorem first_split {α : Type} [DecidableEq α] (a : α) : ∀ l : List α, a ∈ l → ∃ p q, l = p ++ a :: q ∧ a ∉ p
  | [], h => by simp at h
  | b :: l, h => by
    by_cases hb : b = a
    · subst hb; exact ⟨[], l, rfl, by simp⟩
    · obtain ⟨p, q, e, hp⟩ := first_split a l (by simpa [Ne.symm hb] using h)
      exact ⟨b :: p, q, by rw [e]; rfl, by simp [Ne.symm hb, hp]⟩

/-- Letting the holders resolve one after the other gets to the one that resolves early. -/
private theorem fires_uncovered (c : Config) (hl : c.loop = false) (n : Nat) (post : List Kind)
    (hp : Kind.lazy false ∉ post) : ∀ (m : Nat) (pre : List Kind) (i : Nat) (s : S), pre.length ≤ m →
      c.steps.drop i = pre ++ .lazy true :: post → s.alive = true →
      ∃ L : List Nat, L.Pairwise (· < ·) ∧ (∀ l ∈ L, i ≤ l ∧ c.steps[l]? = some (.lazy false)) ∧
        (resolveFrom (onEnd c n) (c.steps.drop i) i s).bind (exec c n (L.map Op.fire)) = .ub := by
  intro m
  induction m with
  | zero =>
    intro pre i s hm e ha
    have : pre = [] := List.eq_nil_of_length_eq_zero (by omega)
    subst this
    refine ⟨[], by simp, by simp, ?_⟩
    have he : onEnd c n = deletePipe := by rw [onEnd, hl]; rfl
    rw [e, he, (resolve_uncovered _ i s (by simpa using hp) ha).1 (by simp)]; rfl
  | succ m ih =>
    intro pre i s hm e ha
    by_cases hpre : Kind.lazy false ∈ pre
    · obtain ⟨p, q, e', hnp⟩ := first_split _ pre hpre
      obtain ⟨s', h1, h2, h3⟩ := resolve_first (onEnd c n) p (q ++ .lazy true :: post) i s hnp ha
      have hd : c.steps.drop i = p ++ .lazy false :: (q ++ .lazy true :: post) := by rw [e, e']; simp
      have hd' : c.steps.drop (i + p.length + 1) = q ++ .lazy true :: post := by
        have e2 : c.steps.drop (i + p.length + 1) = (c.steps.drop i).drop (p.length + 1) := by
          rw [List.drop_drop]; congr 1
        rw [e2, hd, List.drop_append]
        simp
      obtain ⟨L, h4, h5, h6⟩ := ih q (i + p.length + 1) s' (by rw [e'] at hm; simp at hm; omega) hd' h2
      refine ⟨(i + p.length) :: L, ?_, ?_, ?_⟩
      · rw [List.pairwise_cons]
        exact ⟨fun l hl => by have := (h5 l hl).1; omega, h4⟩
      · intro l hl
        rcases List.mem_cons.1 hl with h | h
        · subst h
          refine ⟨by omega, ?_⟩
          have := congrArg (·[p.length]?) hd
          simpa [List.getElem?_drop] using this
        · exact ⟨by have := (h5 l h).1; omega, (h5 l h).2⟩
      · rw [hd, h1]
        show exec c n (Op.fire (i + p.length) :: L.map Op.fire) s' = _
        rw [exec, step, if_pos h3]
        exact h6
    · refine ⟨[], by simp, by simp, ?_⟩
      have he : onEnd c n = deletePipe := by rw [onEnd, hl]; rfl
      rw [e, he, (resolve_uncovered _ i s (by simp [hpre, hp]) ha).1 (by simp)]; rfl

private theorem single_of_sorted (c : Config) (L : List Nat) (h : L.Pairwise (· < ·))
    (hk : ∀ l ∈ L, c.steps[l]? = some (.lazy false)) : Single c (L.map Op.fire) := by
  intro i
  constructor
  · have hn : (L.map Op.fire).Nodup := by
      show List.Pairwise _ _
      rw [List.pairwise_map]
      exact h.imp fun hlt e => by cases e; omega
    exact List.nodup_iff_count.1 hn _
  · intro hi hm
    obtain ⟨l, hl, e⟩ := List.mem_map.1 hm
    cases e
    have := hk i hl
    rw [hi] at this; cases this

/-- **C100, exactly**, for pipelines of `run_async` whose held values resolve at most once each: in all histories nothing
deleted is used and every value is kept until the pipeline ends and is then destroyed exactly once, if and only if every
`hold_lazy` whose function resolves before it returns is followed by one whose function does not. -/
theorem kept_exact (c : Config) (hl : c.loop = false) (n : Nat) :
    (∀ os, Single c os → ∃ s, run c n os = .ok s ∧ Kept s) ↔ Covered c.steps := by
  constructor
  · intro h pre post e
    by_cases hm : Kind.lazy false ∈ post
    · exact hm
    · exfalso
      obtain ⟨L, h1, h2, h3⟩ := fires_uncovered c hl n post hm pre.length pre 0 init (Nat.le_refl _) (by simpa using e) rfl
      obtain ⟨s, hs, _⟩ := h (L.map Op.fire) (single_of_sorted c L h1 fun l hl => (h2 l hl).2)
      rw [run] at hs
      rw [List.drop_zero] at h3
      rw [h3] at hs; cases hs
  · intro h os ho
    have h0 : Core init := ⟨rfl, rfl, .nil, by simp [init]⟩
    have hn : ∀ j, holds init j = false := by intro j; rfl
    rw [run]
    rcases resolve_covered (onEnd c n) c.steps 0 init h h0 (fun j hj => by rw [hn] at hj; cases hj) with
      ⟨_, h2⟩ | ⟨s', d, _, h2, h3, h4⟩
    · rw [h2]
      simp only [onEnd, hl]
      rw [if_neg (by decide)]
      obtain ⟨s', e, he, hb⟩ := h0.delete
      exact ⟨s', by rw [e]; exact exec_gone' c n os s' he, hb⟩
    · rw [h2]
      refine exec_covered c hl h n os (fun _ => False) d s' h3 ?_ ?_ (fun i hi => hi.elim) ho
      · intro j hj
        rcases h4 j hj with h | h | ⟨d', h5, h6, _⟩
        · rw [hn] at h; cases h
        · omega
        · omega
      · intro j hj hne
        rcases h4 j hj with h | h | ⟨d', h5, h6, h7⟩
        · rw [hn] at h; cases h
        · omega
        · exact .inr (by rw [h6, Nat.zero_add]; exact h7)

/-- Resolving early is fine before a holder which waits. -/
example : run ⟨[.lazy true, .func, .lazy false], false⟩ 0 [.fire 2] =
    .ok ⟨false, [], [(2, 0), (0, 1)], [(0, 1), (2, 0)]⟩ := by decide
example : Covered [.lazy true, .func, .lazy false] := by
  intro pre post e
  match pre, e with
  | [], e => simp at e; rw [← e]; simp
  | [a], e => simp at e
  | [a, b], e => simp at e
  | a :: b :: d :: t, e => simp at e
example : ¬ Covered [.lazy false, .lazy true, .func] := fun h => by
  have := h [.lazy false] [.func] rfl
  simp at this
example : run ⟨[.lazy false, .lazy true, .func], false⟩ 0 [.fire 0] = .ub := by decide

/-! ## Loops -/

/-- How many values step `p` has made. -/
private def cnt (p : Nat) (s : S) : Nat := (s.made.map (·.1)).count p

/-- The pipeline exists, and each holder holds one value at most. -/
private def Sound (s : S) : Prop := s.alive = true ∧ (s.held.map (·.1)).Nodup

/-- Goes on without an end of the pipeline, and forgets no value that was made. -/
private def Grows (f : S → Cpp S) : Prop :=
  ∀ s, Sound s → ∃ s', f s = .ok s' ∧ Sound s' ∧ ∀ p, cnt p s ≤ cnt p s'

private theorem put_grows (i : Nat) : ∀ s, Sound s → ∃ s', put s i = .ok s' ∧ Sound s' ∧ (∀ p, cnt p s ≤ cnt p s') ∧
    cnt i s' = cnt i s + 1 ∧ (∀ k, holds s k = true → holds s' k = true) ∧ holds s' i = true := by
  intro s hs
  refine ⟨_, put_alive s i hs.1, ⟨rfl, ?_⟩, ?_, ?_, ?_, ?_⟩
  · simp only [List.map_cons, List.nodup_cons]
    refine ⟨?_, ?_⟩
    · intro h
      obtain ⟨x, hx, e⟩ := List.mem_map.1 h
      have := (List.mem_filter.1 hx).2
      simp at this
      exact this e
    · exact hs.2.sublist (List.Sublist.map _ List.filter_sublist)
  · intro p
    simp only [cnt, List.map_append, List.count_append]
    omega
  · simp only [cnt, List.map_append, List.count_append]
    simp
  · intro k hk
    rw [holds_iff'] at hk ⊢
    obtain ⟨x, hx, e⟩ := List.mem_map.1 hk
    by_cases hki : k = i
    · subst hki; simp
    · refine List.mem_map.2 ⟨x, List.mem_cons_of_mem _ (List.mem_filter.2 ⟨hx, ?_⟩), e⟩
      simp only [ne_eq, decide_eq_true_eq]
      omega
  · simp [holds]

private theorem resolve_grows {e : S → Cpp S} (he : Grows e) : ∀ (ks : List Kind) (i : Nat), Grows (resolveFrom e ks i)
  | [], i => he
  | .func :: ks, i => by
    intro s hs
    rw [resolveFrom]
    exact resolve_grows he ks (i + 1) s hs
  | .lazy false :: ks, i => by
    intro s hs
    obtain ⟨s', h1, h2, h3, _⟩ := put_grows i s hs
    exact ⟨s', by rw [resolveFrom, h1], h2, h3⟩
  | .lazy true :: ks, i => by
    intro s hs
    obtain ⟨s1, h1, h2, h3⟩ := resolve_grows he ks (i + 1) s hs
    obtain ⟨s', h4, h5, h6, _⟩ := put_grows i s1 h2
    exact ⟨s', by rw [resolveFrom, h1]; exact h4, h5, fun p => Nat.le_trans (h3 p) (h6 p)⟩

private theorem loopEnd_grows (steps : List Kind) : ∀ n, Grows (loopEnd steps n)
  | 0 => fun s hs => ⟨s, rfl, hs, fun _ => Nat.le_refl _⟩
  | n + 1 => resolve_grows (loopEnd_grows steps n) steps 0

/-- Resolving gets to the first holder which waits, and this makes a value. -/
private theorem resolve_first_grows {e : S → Cpp S} : ∀ (ks rest : List Kind) (i : Nat) (s : S), Kind.lazy false ∉ ks →
    Sound s → ∃ s', resolveFrom e (ks ++ .lazy false :: rest) i s = .ok s' ∧ Sound s' ∧ (∀ p, cnt p s ≤ cnt p s') ∧
      cnt (i + ks.length) s + 1 ≤ cnt (i + ks.length) s' ∧ holds s' (i + ks.length) = true
  | [], rest, i, s, _, hs => by
    obtain ⟨s', h1, h2, h3, h4, _, h6⟩ := put_grows i s hs
    exact ⟨s', by rw [List.nil_append, resolveFrom, h1], h2, h3, by simp [h4], by simpa using h6⟩
  | .func :: ks, rest, i, s, hn, hs => by
    obtain ⟨s', h1, h2, h3, h4, h5⟩ := resolve_first_grows ks rest (i + 1) s (fun m => hn (List.mem_cons_of_mem _ m)) hs
    have ei : i + (Kind.func :: ks).length = i + 1 + ks.length := by rw [List.length_cons]; omega
    rw [ei]
    exact ⟨s', by rw [List.cons_append, resolveFrom, h1], h2, h3, h4, h5⟩
  | .lazy false :: ks, rest, i, s, hn, hs => absurd List.mem_cons_self hn
  | .lazy true :: ks, rest, i, s, hn, hs => by
    obtain ⟨s1, h1, h2, h3, h4, h5⟩ := resolve_first_grows ks rest (i + 1) s (fun m => hn (List.mem_cons_of_mem _ m)) hs
    obtain ⟨s', g1, g2, g3, _, g5, _⟩ := put_grows i s1 h2
    have ei : i + (Kind.lazy true :: ks).length = i + 1 + ks.length := by rw [List.length_cons]; omega
    rw [ei]
    exact ⟨s', by rw [List.cons_append, resolveFrom, h1]; exact g1, g2, fun p => Nat.le_trans (h3 p) (g3 p),
      Nat.le_trans h4 (g3 _), g5 _ h5⟩

/-- Resolving without a holder that waits gets to the end; each one that resolves early makes a value afterwards. -/
private theorem resolve_to_end {e : S → Cpp S} (he : Grows e) : ∀ (ks : List Kind) (i : Nat) (s : S),
    Kind.lazy false ∉ ks → Sound s → ∃ s1 s', e s = .ok s1 ∧ resolveFrom e ks i s = .ok s' ∧ Sound s' ∧
      (∀ p, cnt p s1 ≤ cnt p s') ∧ ∀ d, ks[d]? = some (.lazy true) → cnt (i + d) s1 + 1 ≤ cnt (i + d) s'
  | [], i, s, _, hs => by
    obtain ⟨s1, h1, h2, _⟩ := he s hs
    exact ⟨s1, s1, h1, by rw [resolveFrom, h1], h2, fun _ => Nat.le_refl _, by simp⟩
  | .func :: ks, i, s, hn, hs => by
    obtain ⟨s1, s', h1, h2, h3, h4, h5⟩ := resolve_to_end he ks (i + 1) s (fun m => hn (List.mem_cons_of_mem _ m)) hs
    refine ⟨s1, s', h1, by rw [resolveFrom, h2], h3, h4, ?_⟩
    intro d hd
    cases d with
    | zero => simp at hd
    | succ d =>
      have := h5 d (by simpa using hd)
      have ei : i + (d + 1) = i + 1 + d := by omega
      rw [ei]; exact this
  | .lazy false :: ks, i, s, hn, hs => absurd List.mem_cons_self hn
  | .lazy true :: ks, i, s, hn, hs => by
    obtain ⟨s1, s2, h1, h2, h3, h4, h5⟩ := resolve_to_end he ks (i + 1) s (fun m => hn (List.mem_cons_of_mem _ m)) hs
    obtain ⟨s', g1, g2, g3, g4, _⟩ := put_grows i s2 h3
    refine ⟨s1, s', h1, by rw [resolveFrom, h2]; exact g1, g2, fun p => Nat.le_trans (h4 p) (g3 p), ?_⟩
    intro d hd
    cases d with
    | zero =>
      have := h4 i
      show cnt i s1 + 1 ≤ cnt i s'
      omega
    | succ d =>
      have := h5 d (by simpa using hd)
      have ei : i + (d + 1) = i + 1 + d := by omega
      rw [ei]; exact Nat.le_trans this (g3 _)

/-- Letting the holders resolve one after the other gets through a loop, to the first one again. -/
private theorem fires_loop (c : Config) (hl : c.loop = true) (P Q : List Kind)
    (hc : c.steps = P ++ .lazy false :: Q) (hP : Kind.lazy false ∉ P) :
    ∀ (m i : Nat) (s : S), c.steps.length - i ≤ m → Sound s →
      ∃ (L : List Nat) (s' : S), L.Pairwise (· < ·) ∧ (∀ l ∈ L, i ≤ l ∧ c.steps[l]? = some (.lazy false)) ∧
        (resolveFrom (onEnd c 1) (c.steps.drop i) i s).bind (exec c 1 (L.map Op.fire)) = .ok s' ∧ Sound s' ∧
        cnt P.length s + 1 ≤ cnt P.length s' := by
  have he : onEnd c 1 = loopEnd c.steps 1 := by rw [onEnd, hl]; rfl
  intro m
  induction m with
  | zero =>
    intro i s hm hs
    have hd : c.steps.drop i = [] := List.drop_eq_nil_of_le (by omega)
    obtain ⟨s', h1, h2, h3, h4, _⟩ := resolve_first_grows (e := loopEnd c.steps 0) P Q 0 s hP hs
    refine ⟨[], s', by simp, by simp, ?_, h2, by simpa using h4⟩
    rw [hd, he]
    show (resolveFrom (loopEnd c.steps 0) c.steps 0 s).bind _ = _
    rw [← hc] at h1
    rw [h1]; rfl
  | succ m ih =>
    intro i s hm hs
    by_cases hf : Kind.lazy false ∈ c.steps.drop i
    · obtain ⟨p, q, e', hnp⟩ := first_split _ _ hf
      obtain ⟨s1, h1, h2, h3, _, h5⟩ := resolve_first_grows (e := onEnd c 1) p q i s hnp hs
      have hlen : i + p.length < c.steps.length := by
        have := congrArg List.length e'
        simp at this; omega
      obtain ⟨L, s', g1, g2, g3, g4, g5⟩ := ih (i + p.length + 1) s1 (by omega) h2
      refine ⟨(i + p.length) :: L, s', ?_, ?_, ?_, g4, Nat.le_trans (Nat.succ_le_succ (h3 _)) g5⟩
      · rw [List.pairwise_cons]
        exact ⟨fun l hl => by have := (g2 l hl).1; omega, g1⟩
      · intro l hl
        rcases List.mem_cons.1 hl with h | h
        · subst h
          refine ⟨by omega, ?_⟩
          have := congrArg (·[p.length]?) e'
          simpa [List.getElem?_drop] using this
        · exact ⟨by have := (g2 l h).1; omega, (g2 l h).2⟩
      · rw [e', h1]
        show exec c 1 (Op.fire (i + p.length) :: L.map Op.fire) s1 = _
        rw [exec, step, if_pos h5]
        exact g3
    · obtain ⟨s1, s', h1, h2, h3, h4, _⟩ := resolve_to_end (loopEnd_grows c.steps 1) (c.steps.drop i) i s hf hs
      refine ⟨[], s', by simp, by simp, by rw [he, h2]; rfl, h3, ?_⟩
      obtain ⟨s2, g1, _, _, g4, _⟩ := resolve_first_grows (e := loopEnd c.steps 0) P Q 0 s hP hs
      have e1 : loopEnd c.steps 1 s = .ok s2 := by rw [← hc] at g1; exact g1
      rw [e1] at h1
      cases h1
      have := h4 P.length
      rw [Nat.zero_add] at g4
      omega

/-- A pipeline in which a holder has made two values has lost one. -/
private theorem not_kept {p : Nat} {s : S} (hs : Sound s) (h : 2 ≤ cnt p s) : ¬ Kept s := by
  intro hk
  simp only [Kept, hs.1, if_true] at hk
  have hm : s.held.Perm s.made := List.perm_iff_count.2 hk.2.2
  have : (s.held.map (·.1)).count p = cnt p s := (hm.map _).count_eq p
  have h1 := List.nodup_iff_count.1 hs.2 p
  omega

/-- **C100, exactly, for pipelines that loop**: in all histories in which each held value resolves at most once nothing
made is lost if and only if the pipeline holds nothing lazily at all. -/
theorem loop_exact (c : Config) (hl : c.loop = true) :
    (∀ n os, Single c os → ∃ s, run c n os = .ok s ∧ Kept s) ↔ ∀ k ∈ c.steps, k = .func := by
  have hs0 : Sound init := ⟨rfl, by simp [init]⟩
  constructor
  · intro h k hk
    by_cases hf : Kind.lazy false ∈ c.steps
    · exfalso
      obtain ⟨P, Q, e, hP⟩ := first_split _ _ hf
      obtain ⟨s1, h1, h2, _, h4, h5⟩ := resolve_first_grows (e := onEnd c 1) P Q 0 init hP hs0
      rw [Nat.zero_add] at h4 h5
      rw [← e] at h1
      obtain ⟨L, s', g1, g2, g3, g4, g5⟩ := fires_loop c hl P Q e hP _ (P.length + 1) s1 (Nat.le_refl _) h2
      have hsp : c.steps[P.length]? = some (.lazy false) := by rw [e]; simp
      obtain ⟨s, hr, hks⟩ := h 1 ((P.length :: L).map Op.fire) (single_of_sorted c _
        (by rw [List.pairwise_cons]; exact ⟨fun l hl => by have := (g2 l hl).1; omega, g1⟩)
        (fun l hl => by
          rcases List.mem_cons.1 hl with h | h
          · rw [h]; exact hsp
          · exact (g2 l h).2))
      have hr' : run c 1 ((P.length :: L).map Op.fire) = .ok s' := by
        rw [run, h1]
        show exec c 1 (Op.fire P.length :: L.map Op.fire) s1 = _
        rw [exec, step, if_pos h5]
        exact g3
      rw [hr'] at hr
      cases hr
      exact not_kept (p := P.length) g4 (by omega) hks
    · cases k with
      | func => rfl
      | lazy b =>
        cases b with
        | false => exact absurd hk hf
        | true =>
          exfalso
          obtain ⟨d, hd⟩ := List.getElem?_of_mem hk
          have he : onEnd c 1 = loopEnd c.steps 1 := by rw [onEnd, hl]; rfl
          obtain ⟨s1, s', h1, h2, h3, _, h5⟩ := resolve_to_end (loopEnd_grows c.steps 1) c.steps 0 init hf hs0
          obtain ⟨s2, s3, g1, g2, g3, g4, g5⟩ := resolve_to_end (loopEnd_grows c.steps 0) c.steps 0 init hf hs0
          have e1 : loopEnd c.steps 1 init = .ok s3 := g2
          rw [e1] at h1
          cases h1
          obtain ⟨s, hr, hks⟩ := h 1 [] (fun i => by simp)
          have hr' : run c 1 [] = .ok s' := by rw [run, he, h2]; rfl
          rw [hr'] at hr
          cases hr
          have a1 := h5 d hd
          have a2 := g5 d hd
          rw [Nat.zero_add] at a1 a2
          exact not_kept (p := d) h3 (by omega) hks
  · intro h n os _
    have hr : ∀ (e : S → Cpp S) (ks : List Kind) (i : Nat) (s : S), (∀ k ∈ ks, k = .func) →
        resolveFrom e ks i s = e s := by
      intro e ks
      induction ks with
      | nil => intro i s _; rfl
      | cons k ks ih =>
        intro i s hk
        rw [hk k (by simp), resolveFrom]
        exact ih (i + 1) s fun x hx => hk x (by simp [hx])
    have hloop : ∀ n, loopEnd c.steps n init = .ok init := by
      intro n
      induction n with
      | zero => rfl
      | succ n ih => rw [loopEnd, hr _ _ _ _ h, ih]
    refine ⟨init, ?_, by simp [Kept, init]⟩
    rw [run, hr _ _ _ _ h, onEnd, hl]
    simp only [if_true]
    rw [hloop]
    exact exec_gone' c n os init rfl

/-- A loop with one holder loses the first of its values when it comes round. -/
example : run ⟨[.func, .lazy false], true⟩ 1 [.fire 1] = .ok ⟨true, [(1, 1)], [(1, 0), (1, 1)], []⟩ := by decide

end Nbdl.HoldLazy
