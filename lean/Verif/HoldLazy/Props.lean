import Verif.HoldLazy.Spec
/-!
# Properties of held values (C100)
-/
namespace Nbdl.HoldLazy

/-- Without early resolution the run goes to the next holder or to the end. -/
private theorem resolveFrom_later (e : S → Cpp S) : ∀ (ks : List Kind) (i : Nat) (s : S),
    Kind.lazy true ∉ ks →
    (∃ d, ks[d]? = some (.lazy false) ∧ (∀ d', d' < d → ks[d']? = some .func) ∧
      resolveFrom e ks i s = put s (i + d)) ∨
    ((∀ k ∈ ks, k = .func) ∧ resolveFrom e ks i s = e s)
  | [], i, s, _ => .inr ⟨by simp, rfl⟩
  | .func :: ks, i, s, h => by
    rcases resolveFrom_later e ks (i + 1) s (fun m => h (List.mem_cons_of_mem _ m)) with
      ⟨d, h₁, h₂, h₃⟩ | ⟨h₁, h₂⟩
    · refine .inl ⟨d + 1, by simpa using h₁, ?_, ?_⟩
      · intro d' hd
        cases d' with
        | zero => rfl
        | succ d' => simpa using h₂ d' (by omega)
      · rw [resolveFrom, h₃]; congr 1; omega
    · exact .inr ⟨by simpa using h₁, by rw [resolveFrom, h₂]⟩
  | .lazy false :: ks, i, s, _ => .inl ⟨0, rfl, by intro d' h; omega, rfl⟩
  | .lazy true :: ks, i, s, h => absurd List.mem_cons_self h

/-- The invariant: `fired` are the steps whose values have resolved. -/
private structure Inv (c : Config) (fired : Nat → Prop) (s : S) : Prop where
  alive : s.alive = true
  destroyed : s.destroyed = []
  held : s.held.Perm s.made
  steps : (s.held.map (·.1)).Nodup
  serial : ∀ x ∈ s.made, x.2 < s.made.length
  /-- only holders hold values -/
  kinds : ∀ j, holds s j = true → c.steps[j]? = some (.lazy false)
  /-- the holder before one which holds a value has resolved -/
  before : ∀ i j, i < j → holds s j = true → c.steps[i]? = some (.lazy false) →
    (∀ k, i < k → k < j → c.steps[k]? = some .func) → fired i

private theorem holds_iff (s : S) (i : Nat) : holds s i = true ↔ i ∈ s.held.map (·.1) := by
  simp [holds]

private theorem nodup_of_steps {l : List (Nat × Nat)} (h : (l.map (·.1)).Nodup) : l.Nodup := by
  unfold List.Nodup at *
  rw [List.pairwise_map] at h
  exact h.imp fun hne e => hne (by rw [e])

private theorem Inv.kept {c fired s} (h : Inv c fired s) : Kept s := by
  simp only [Kept, h.alive, if_true]
  exact ⟨h.destroyed, h.held.nodup_iff.mp (nodup_of_steps h.steps), fun x => h.held.count_eq x⟩

private theorem put_inv {c fired s} (h : Inv c fired s) (j : Nat) (hj : holds s j = false)
    (hk : c.steps[j]? = some (.lazy false))
    (hf : ∀ i, i < j → c.steps[i]? = some (.lazy false) →
      (∀ k, i < k → k < j → c.steps[k]? = some .func) → fired i) :
    ∃ s', put s j = .ok s' ∧ Inv c fired s' := by
  have hnot : j ∉ s.held.map (·.1) := fun m => by
    rw [(holds_iff s j).mpr m] at hj; cases hj
  have hfilter : s.held.filter (·.1 ≠ j) = s.held := by
    rw [List.filter_eq_self]
    intro x hx
    simp only [ne_eq, decide_eq_true_eq]
    intro e; exact hnot (List.mem_map.mpr ⟨x, hx, e⟩)
  refine ⟨_, by simp only [put, h.alive, if_true, hfilter]; rfl, ?_⟩
  refine ⟨rfl, h.destroyed, ?_, ?_, ?_, ?_, ?_⟩
  · exact (List.Perm.cons _ h.held).trans (List.perm_append_comm (l₁ := [(j, s.made.length)]))
  · simp only [List.map_cons, List.nodup_cons]
    exact ⟨hnot, h.steps⟩
  · intro x hx
    simp only [List.length_append, List.length_singleton]
    rcases List.mem_append.mp hx with hx | hx
    · have := h.serial x hx; omega
    · simp only [List.mem_singleton] at hx; subst hx; simp
  · intro k hk'
    rw [holds_iff] at hk'
    simp only [List.map_cons, List.mem_cons] at hk'
    rcases hk' with rfl | hk'
    · exact hk
    · exact h.kinds k ((holds_iff s k).mpr hk')
  · intro i k hik hk hi hb
    rw [holds_iff] at hk
    simp only [List.map_cons, List.mem_cons] at hk
    rcases hk with rfl | hk
    · exact hf i hik hi hb
    · exact h.before i k hik ((holds_iff s k).mpr hk) hi hb

private theorem delete_kept {c fired s} (h : Inv c fired s) :
    ∃ s', deletePipe s = .ok s' ∧ s'.alive = false ∧ s'.held = [] ∧ Balanced s' := by
  refine ⟨_, by simp only [deletePipe, h.alive, if_true]; rfl, rfl, rfl, ?_, ?_⟩
  · exact h.held.nodup_iff.mp (nodup_of_steps h.steps)
  · intro x
    simp only [h.destroyed, List.nil_append]
    exact h.held.count_eq x

private theorem exec_gone (c : Config) (n : Nat) : ∀ (os : List Op) (s : S), s.held = [] →
    exec c n os s = .ok s
  | [], s, _ => rfl
  | .fire i :: os, s, h => by
    have : holds s i = false := by simp [holds, h]
    simp only [exec, step, this, Cpp.bind]
    exact exec_gone c n os s h
  | .stop i :: os, s, h => by
    have : holds s i = false := by simp [holds, h]
    simp only [exec, step, this, Cpp.bind]
    exact exec_gone c n os s h

private theorem exec_inv (c : Config) (hl : c.loop = false) (h : Later c) (n : Nat) :
    ∀ (os : List Op) (fired : Nat → Prop) (s : S), Inv c fired s →
      (∀ i, fired i → .fire i ∉ os) → FireOnce os →
      ∃ s', exec c n os s = .ok s' ∧ Kept s'
  | [], fired, s, hi, _, _ => ⟨s, rfl, hi.kept⟩
  | .stop i :: os, fired, s, hi, hf, ho => by
    have ho' : FireOnce os := fun k => by have := ho k; rw [List.count_cons] at this; omega
    by_cases hh : holds s i = true
    · obtain ⟨s', e, ha, he, hb⟩ := delete_kept hi
      refine ⟨s', ?_, by simp only [Kept, ha]; exact hb⟩
      simp only [exec, step, hh, if_true, e, Cpp.bind]
      exact exec_gone c n os s' he
    · simp only [exec, step, hh, Cpp.bind]
      exact exec_inv c hl h n os fired s hi (fun k hk m => hf k hk (List.mem_cons_of_mem _ m)) ho'
  | .fire i :: os, fired, s, hi, hf, ho => by
    have ho' : FireOnce os := fun k => by have := ho k; rw [List.count_cons] at this; omega
    have hni : .fire i ∉ os := by
      have := ho i
      rw [List.count_cons_self] at this
      exact fun m => by have := List.count_pos_iff.mpr m; omega
    by_cases hh : holds s i = true
    · have hnf : ¬ fired i := fun hk => hf i hk List.mem_cons_self
      have hwf : ∀ k, (fired k ∨ k = i) → .fire k ∉ os := by
        rintro k (hk | rfl) m
        · exact hf k hk (List.mem_cons_of_mem _ m)
        · exact hni m
      have hi' : Inv c (fun k => fired k ∨ k = i) s :=
        ⟨hi.alive, hi.destroyed, hi.held, hi.steps, hi.serial, hi.kinds,
          fun a b hab hb ha hbt => .inl (hi.before a b hab hb ha hbt)⟩
      have hdrop : Kind.lazy true ∉ c.steps.drop (i + 1) := fun m => h (List.mem_of_mem_drop m)
      simp only [exec, step, hh, if_true]
      rcases resolveFrom_later (onEnd c n) (c.steps.drop (i + 1)) (i + 1) s hdrop with
        ⟨d, h₁, h₂, h₃⟩ | ⟨_, h₂⟩
      · rw [h₃]
        rw [List.getElem?_drop] at h₁
        have hbetween : ∀ k, i < k → k < i + 1 + d → c.steps[k]? = some .func := by
          intro k h₃ h₄
          have := h₂ (k - (i + 1)) (by omega)
          rw [List.getElem?_drop] at this
          rw [← this]; congr 1; omega
        have hself := hi.kinds i hh
        have hj : holds s (i + 1 + d) = false := by
          cases e : holds s (i + 1 + d) with
          | false => rfl
          | true => exact absurd (hi.before i _ (by omega) e hself hbetween) hnf
        obtain ⟨s', e, hs⟩ := put_inv hi' (i + 1 + d) hj h₁ (by
          intro k hk hkl hkb
          by_cases hki : k = i
          · exact .inr hki
          · rcases Nat.lt_or_gt_of_ne hki with hlt | hgt
            · have := hkb i hlt (by omega)
              rw [hself] at this; cases this
            · have := hbetween k hgt hk
              rw [hkl] at this; cases this)
        rw [e]
        exact exec_inv c hl h n os _ s' hs hwf ho'
      · rw [h₂]
        simp only [onEnd, hl]
        obtain ⟨s', e, ha, he, hb⟩ := delete_kept hi
        refine ⟨s', ?_, by simp only [Kept, ha]; exact hb⟩
        rw [if_neg (by decide), e]
        exact exec_gone c n os s' he
    · simp only [exec, step, hh, Cpp.bind]
      exact exec_inv c hl h n os fired s hi (fun k hk m => hf k hk (List.mem_cons_of_mem _ m)) ho'

private theorem init_inv (c : Config) : Inv c (fun _ => False) init :=
  ⟨rfl, rfl, .nil, by simp [init], by simp [init], by simp [init, holds], by simp [init, holds]⟩

/-- C100, partial: in a pipeline of `run_async` whose holders resolve only after their values are made,
and each value at most once, no history of resolutions and terminations uses anything deleted; the
pipeline keeps every value as long as it exists, and then each has been destroyed exactly once.
Missing: see the violations below. -/
theorem kept_partial (c : Config) (hl : c.loop = false) (h : Later c) (n : Nat) (os : List Op)
    (ho : FireOnce os) : ∃ s, run c n os = .ok s ∧ Kept s := by
  rcases resolveFrom_later (onEnd c n) c.steps 0 init h with ⟨d, h₁, h₂, h₃⟩ | ⟨_, h₂⟩
  · simp only [run, h₃]
    obtain ⟨s', e, hs⟩ := put_inv (init_inv c) (0 + d) (by simp [init, holds])
      (by rw [Nat.zero_add]; exact h₁) (by
        intro i hi hil _
        have := h₂ i (by omega)
        rw [hil] at this; cases this)
    rw [e]
    exact exec_inv c hl h n os _ s' hs (by intro i hi; exact hi.elim) ho
  · rw [run, h₂]
    simp only [onEnd, hl]
    rw [if_neg (by decide)]
    exact ⟨⟨false, [], [], []⟩, exec_gone c n os ⟨false, [], [], []⟩ rfl, by simp [Kept, Balanced]⟩

/-- Two holders in a row: all values are kept, and destroyed when the second one resolves. -/
example : Later ⟨[.func, .lazy false, .func, .lazy false], false⟩ ∧
    FireOnce [.fire 1, .fire 3] ∧
    run ⟨[.func, .lazy false, .func, .lazy false], false⟩ 0 [.fire 1, .fire 3] =
      .ok ⟨false, [], [(1, 0), (3, 1)], [(3, 1), (1, 0)]⟩ := by
  refine ⟨by simp [Later], ?_, by decide⟩
  intro i
  simp only [List.count_cons, List.count_nil]
  by_cases h : i = 1
  · subst h; decide
  · have h' : (Op.fire 1 == Op.fire i) = false := by simp [Ne.symm h]
    rw [h']; split <;> simp

/-- C100 is violated: if the function given to `hold_lazy` resolves before it returns, in a pipeline
of functions only otherwise, then the pipeline is deleted before the value is put into it. -/
theorem resolves_now_violated (pre post : List Kind) (n : Nat) (os : List Op)
    (hpre : ∀ k ∈ pre, k = .func) (hpost : ∀ k ∈ post, k = .func) :
    run ⟨pre ++ .lazy true :: post, false⟩ n os = .ub := by
  have hp : ∀ (ks : List Kind) (i : Nat) (s : S), (∀ k ∈ ks, k = .func) →
      ∀ rest, resolveFrom deletePipe (ks ++ rest) i s = resolveFrom deletePipe rest (i + ks.length) s := by
    intro ks
    induction ks with
    | nil => intros; rfl
    | cons k ks ih =>
      intro i s hk rest
      have hk0 := hk k List.mem_cons_self
      subst hk0
      rw [List.cons_append, resolveFrom, ih (i + 1) s fun k m => hk k (List.mem_cons_of_mem _ m)]
      congr 1
      simp only [List.length_cons]; omega
  have e := hp post (0 + pre.length + 1) init hpost []
  rw [List.append_nil] at e
  simp only [run, onEnd, Bool.false_eq_true, if_false]
  rw [hp pre 0 init hpre, resolveFrom, e]
  rfl

/-- C100 is violated: in a looping pipeline a holder that is reached again overwrites its value, which
is never destroyed. -/
theorem loop_leaks_violated :
    ∃ s, run ⟨[.lazy false, .func], true⟩ 3 [.fire 0, .stop 0] = .ok s ∧ s.alive = false ∧
      s.made = [(0, 0), (0, 1)] ∧ s.destroyed = [(0, 1)] ∧ ¬ Balanced s :=
  ⟨_, rfl, rfl, rfl, rfl, fun h => by
    have := h.2 (0, 0); revert this; decide⟩

/-- C100 is violated: so does a value that resolves twice, such as a connection that resolves for every
message, to the holders after it. -/
theorem fires_twice_violated :
    ∃ s, run ⟨[.lazy false, .lazy false], false⟩ 0 [.fire 0, .fire 0, .fire 1] = .ok s ∧
      s.alive = false ∧ ¬ Balanced s :=
  ⟨_, rfl, rfl, fun h => by have := h.2 (1, 1); revert this; decide⟩

end Nbdl.HoldLazy
