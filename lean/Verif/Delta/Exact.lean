import Verif.Delta.Props
/-!
# Exactly what is visible once everything is confirmed
-/
namespace Nbdl.Delta
open Spec
variable {n : Nat} {T : Fin n → Type} {U : Type}

/-- The value a member was last given by some deltas, first to last. -/
def Spec.lastWrite (i : Fin n) : List (Delta T) → Option (T i)
  | [] => none
  | d :: ds => (lastWrite i ds).or (d i)

/-- All deltas of a history, requested or confirmed, in the order they came. -/
def Spec.said : List (Msg U T) → List (Delta T)
  | [] => []
  | .request _ d :: h => d :: said h
  | .confirmed _ d :: h => d :: said h
  | .replace _ :: h => said h

/-- The confirmed ones. -/
def Spec.confirmedOf : List (Msg U T) → List (Delta T)
  | [] => []
  | .confirmed _ d :: h => d :: confirmedOf h
  | _ :: h => confirmedOf h

/-- No message replaces the whole value. -/
def Spec.OnlyDeltas (h : List (Msg U T)) : Prop := ∀ v, .replace v ∉ h

/-- The uids of the requests for which no confirmation has come since. -/
def Spec.unconfirmed (h : List (Msg U T)) (u : U) : Prop :=
  ∃ pre d post, h = pre ++ .request u d :: post ∧ ∀ d', .confirmed u d' ∉ post

theorem lastWrite_patches (ds : List (Delta T)) (v : Record T) (i : Fin n) :
    patches ds v i = (lastWrite i ds).getD (v i) := by
  induction ds generalizing v with
  | nil => rfl
  | cons d ds ih =>
    have e : patches (d :: ds) v = patches ds (patch d v) := rfl
    rw [e, ih, lastWrite]
    cases lastWrite i ds <;> simp [patch]

variable [DecidableEq U] [∀ i, DecidableEq (T i)]

theorem runAll_cons (s : LocalVersion U T) (m : Msg U T) (h : List (Msg U T)) :
    runAll s (m :: h) = runAll (applyMessage s m).1 h := rfl

theorem patch_applyDelta (d p : Delta T) (r r' : Record T) (h : ∀ i, d i = none → p i = none → r i = r' i) :
    patch (applyDelta d p) r = patch d (patch p r') := by
  funext i
  simp only [patch, applyDelta]
  cases hd : d i with
  | some x => simp
  | none =>
    cases hp : p i with
    | some x => simp
    | none => simp; exact h i hd hp

theorem settled_aux (h : List (Msg U T)) (hn : OnlyDeltas h) : ∀ (s : LocalVersion U T) (a : Record T),
    patch s.pending s.value = a → (s.uids = [] → s.value = a) →
    patch (runAll s h).pending (runAll s h).value = patches (said h) a ∧
    ((runAll s h).uids = [] → (runAll s h).value = patches (said h) a) := by
  induction h with
  | nil => intro s a h1 h2; exact ⟨h1, h2⟩
  | cons m h ih =>
    intro s a h1 h2
    have hn' : OnlyDeltas h := fun v hv => hn v (by simp [hv])
    rw [runAll_cons]
    cases m with
    | replace v => exact absurd (by simp) (hn v)
    | request u d =>
      refine ih hn' _ (patch d a) ?_ ?_
      · simp only [applyMessage, applyLocal, apply_fst]
        rw [← h1]
        refine patch_applyDelta d s.pending _ _ fun i hd _ => ?_
        simp [patch, hd]
      · intro hu
        exfalso
        simp only [applyMessage, applyLocal, insertUid] at hu
        split at hu
        · rename_i hm; rw [hu] at hm; cases hm
        · simp at hu
    | confirmed u d =>
      refine ih hn' _ (patch d a) ?_ ?_
      · simp only [applyMessage, applyConfirmed]
        split
        · split
          · simp only [apply_fst]
            rw [show patch (Delta.none : Delta T) = id from by funext r i; rfl]
            rw [← h1]
            exact patch_applyDelta d s.pending _ _ fun i _ _ => rfl
          · rw [← h1]
            exact patch_applyDelta d s.pending _ _ fun i _ _ => rfl
        · simp only [apply_fst]
          rw [← h1]
          refine patch_applyDelta d s.pending _ _ fun i hd _ => ?_
          simp [patch, hd]
      · simp only [applyMessage, applyConfirmed]
        split
        · split
          · intro _
            simp only [apply_fst]
            rw [← h1]
            exact patch_applyDelta d s.pending _ _ fun i _ _ => rfl
          · intro hu
            rename_i hne
            exact absurd hu hne
        · intro hu
          simp only [apply_fst]
          rw [h2 hu]

theorem uids_nodup (h : List (Msg U T)) : ∀ (s : LocalVersion U T), s.uids.Nodup →
    (runAll s h).uids.Nodup := by
  induction h with
  | nil => intro s hs; exact hs
  | cons m h ih =>
    intro s hs
    rw [runAll_cons]
    refine ih _ ?_
    cases m with
    | replace v => exact hs
    | request u d =>
      simp only [applyMessage, applyLocal, insertUid]
      split
      · exact hs
      · rename_i hm
        rw [List.nodup_append]
        refine ⟨hs, by simp, fun a ha b hb e => ?_⟩
        simp at hb; subst hb; subst e; exact hm ha
    | confirmed u d =>
      simp only [applyMessage, applyConfirmed]
      split
      · split <;> exact hs.erase u
      · exact hs

theorem uids_exact (h : List (Msg U T)) : ∀ (s : LocalVersion U T), s.uids.Nodup → ∀ u,
    (u ∈ (runAll s h).uids ↔ unconfirmed h u ∨ (u ∈ s.uids ∧ ∀ d, .confirmed u d ∉ h)) := by
  induction h with
  | nil =>
    intro s hs u
    simp [runAll, unconfirmed]
  | cons m h ih =>
    intro s hs u
    have hs1 : (applyMessage s m).1.uids.Nodup := uids_nodup [m] s hs
    rw [runAll_cons, ih _ hs1 u]
    have hu : unconfirmed (m :: h) u ↔ unconfirmed h u ∨ ((∃ d, m = .request u d) ∧ ∀ d, .confirmed u d ∉ h) := by
      constructor
      · rintro ⟨pre, d, post, e, hp⟩
        cases pre with
        | nil =>
          simp only [List.nil_append, List.cons.injEq] at e
          exact .inr ⟨⟨d, e.1⟩, by rw [e.2]; exact hp⟩
        | cons x pre =>
          simp only [List.cons_append, List.cons.injEq] at e
          exact .inl ⟨pre, d, post, e.2, hp⟩
      · rintro (⟨pre, d, post, rfl, hp⟩ | ⟨⟨d, rfl⟩, hp⟩)
        · exact ⟨m :: pre, d, post, rfl, hp⟩
        · exact ⟨[], d, h, rfl, hp⟩
    rw [hu]
    cases m with
    | replace v => simp [applyMessage]
    | request w d =>
      have hm : u ∈ insertUid w s.uids ↔ u = w ∨ u ∈ s.uids := by
        unfold insertUid
        split
        · rename_i hw
          exact ⟨.inr, fun h => h.elim (fun e => e ▸ hw) id⟩
        · simp [or_comm]
      simp only [applyMessage, applyLocal, hm]
      have : (∃ d', (Msg.request w d : Msg U T) = .request u d') ↔ u = w := by
        constructor
        · rintro ⟨d', e⟩; injection e with e1 _; exact e1.symm
        · rintro rfl; exact ⟨d, rfl⟩
      rw [this]
      simp only [List.mem_cons, reduceCtorEq, false_or]
      constructor
      · rintro (h1 | ⟨h1 | h1, h2⟩)
        · exact .inl (.inl h1)
        · exact .inl (.inr ⟨h1, h2⟩)
        · exact .inr ⟨h1, h2⟩
      · rintro ((h1 | ⟨h1, h2⟩) | ⟨h1, h2⟩)
        · exact .inl h1
        · exact .inr ⟨.inl h1, h2⟩
        · exact .inr ⟨.inr h1, h2⟩
    | confirmed w d =>
      have hm : u ∈ (applyMessage s (.confirmed w d)).1.uids ↔ u ≠ w ∧ u ∈ s.uids := by
        simp only [applyMessage, applyConfirmed]
        split
        · split <;> exact hs.mem_erase_iff
        · rename_i hw
          exact ⟨fun h => ⟨fun e => hw (e ▸ h), h⟩, fun h => h.2⟩
      rw [hm]
      have h0 : ¬ ∃ d', (Msg.confirmed w d : Msg U T) = .request u d' := by rintro ⟨_, e⟩; cases e
      simp only [h0, false_and, or_false, List.mem_cons, Msg.confirmed.injEq, not_or]
      constructor
      · rintro (h1 | ⟨⟨h1, h2⟩, h3⟩)
        · exact .inl h1
        · exact .inr ⟨h2, fun d' => ⟨fun e => h1 e.1, h3 d'⟩⟩
      · rintro (h1 | ⟨h1, h2⟩)
        · exact .inl h1
        · exact .inr ⟨⟨fun e => (h2 d).1 ⟨e, rfl⟩, h1⟩, fun d' => (h2 d').2⟩

/-- C33, exactly, for all histories of requests and confirmations, whatever they write and whoever's
they are: once every request is confirmed, the visible value is what one gets by applying everything
that was said, requests and confirmations alike, in the order it came. -/
theorem settled_exact (v : Record T) (h : List (Msg U T)) (hn : OnlyDeltas h)
    (ho : ∀ u, ¬ unconfirmed h u) :
    (runAll (LocalVersion.init v) h).value = patches (said h) v := by
  refine (settled_aux h hn (LocalVersion.init v) v rfl fun _ => rfl).2 ?_
  refine List.eq_nil_iff_forall_not_mem.2 fun u hu => ?_
  rcases (uids_exact h (LocalVersion.init v) (by simp [LocalVersion.init]) u).1 hu with h1 | h1
  · exact ho u h1
  · simp [LocalVersion.init] at h1

omit [DecidableEq U] [∀ i, DecidableEq (T i)] in
theorem authoritative_patches (v : Record T) (h : List (Msg U T)) (hn : OnlyDeltas h) :
    authoritative v h = patches (confirmedOf h) v := by
  induction h generalizing v with
  | nil => rfl
  | cons m h ih =>
    have hn' : OnlyDeltas h := fun v hv => hn v (by simp [hv])
    cases m with
    | replace v => exact absurd (by simp) (hn v)
    | request u d => exact ih v hn'
    | confirmed u d => exact ih (patch d v) hn'

/-- C33, exactly: then a member is what the producer says just when what was last said of it, by
anyone, is what was last confirmed of it. -/
theorem converges_exact (v : Record T) (h : List (Msg U T)) (hn : OnlyDeltas h)
    (ho : ∀ u, ¬ unconfirmed h u) (i : Fin n) :
    (runAll (LocalVersion.init v) h).value i = authoritative v h i ↔
      (lastWrite i (said h)).getD (v i) = (lastWrite i (confirmedOf h)).getD (v i) := by
  rw [settled_exact v h hn ho, authoritative_patches v h hn, lastWrite_patches, lastWrite_patches]

/-- Two requests, the second confirmed first, and a foreign update. -/
example : ∀ u, ¬ unconfirmed sampleFair u := by
  intro u hu
  have := (uids_exact sampleFair (LocalVersion.init (sample 0 false "a")) (by simp [LocalVersion.init]) u).2 (.inl hu)
  have e : (runAll (LocalVersion.init (sample 0 false "a")) sampleFair).uids = [] := by decide
  rw [e] at this; cases this
example : OnlyDeltas sampleFair := by
  intro v hv; simp [sampleFair] at hv

end Nbdl.Delta
