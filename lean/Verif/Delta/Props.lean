import Verif.Delta.Spec
/-! Delta and local version properties C30-C34. -/
namespace Nbdl.Delta
open Spec
variable {n : Nat} {T : Fin n → Type} {U : Type} [DecidableEq U] [∀ i, DecidableEq (T i)]

theorem applyMember_fst {A : Type} [DecidableEq A] (o : Option A) (x : A) : (applyMember o x).1 = o.getD x := by
  cases o with
  | none => rfl
  | some v => by_cases h : v = x <;> simp [applyMember, h]

theorem applyMember_snd {A : Type} [DecidableEq A] (o : Option A) (x : A) :
    (applyMember o x).2 = true ↔ o.getD x ≠ x := by
  cases o with
  | none => simp [applyMember]
  | some v => by_cases h : v = x <;> simp [applyMember, h]

/-- The record part of `apply_delta` is patching. -/
theorem apply_fst (d : Delta T) (b : Record T) : (apply d b).1 = patch d b := by
  funext i; exact applyMember_fst _ _

omit [∀ i, DecidableEq (T i)] in
theorem applyDelta_getD (d p : Delta T) (b : Record T) (i : Fin n) :
    (applyDelta d p i).getD (b i) = (d i).getD ((p i).getD (b i)) := by
  unfold applyDelta; cases d i <;> rfl

/-! ## C30 -/

/-- C30: the delta from `old` to `new` turns `old` into `new`. -/
theorem diff_patch (new old : Record T) : (apply (make new old) old).1 = new := by
  rw [apply_fst]; funext i
  unfold patch make; split <;> simp_all

/-- C30: the full delta turns anything into the record. -/
theorem full_patch (new old : Record T) : (apply (makeFull new) old).1 = new := by
  rw [apply_fst]; rfl

/-- C30: the delta holds exactly the members that differ. -/
theorem diff_minimal (new old : Record T) (i : Fin n) :
    (make new old i ≠ none ↔ new i ≠ old i) ∧ (∀ v, make new old i = some v → v = new i) := by
  unfold make; split <;> simp_all

/-- C30: members the delta does not name are left alone, those it names get its value. -/
theorem apply_frame (d : Delta T) (b : Record T) (i : Fin n) :
    (d i = none → (apply d b).1 i = b i) ∧ (∀ v, d i = some v → (apply d b).1 i = v) := by
  rw [apply_fst]; unfold patch
  exact ⟨fun h => by simp [h], fun v h => by simp [h]⟩

/-- C30: twice is once. -/
theorem apply_idempotent (d : Delta T) (b : Record T) :
    (apply d (apply d b).1).1 = (apply d b).1 ∧ (apply d (apply d b).1).2 = false := by
  constructor
  · rw [apply_fst, apply_fst]; funext i; unfold patch; cases d i <;> rfl
  · rw [apply_fst]
    show List.any _ _ = false
    rw [List.any_eq_false]
    intro i _ h
    rw [applyMember_snd] at h
    unfold patch at h
    cases hd : d i <;> simp [hd] at h

/-- C30: a change is reported iff the record changed. -/
theorem apply_reports (d : Delta T) (b : Record T) : (apply d b).2 = true ↔ (apply d b).1 ≠ b := by
  rw [apply_fst]
  show List.any _ _ = true ↔ _
  rw [List.any_eq_true]
  constructor
  · rintro ⟨i, -, h⟩ he
    rw [applyMember_snd] at h
    exact h (congrFun he i)
  · intro h
    apply Classical.byContradiction
    intro hc
    apply h
    funext i
    apply Classical.byContradiction
    intro hi
    exact hc ⟨i, List.mem_finRange i, (applyMember_snd _ _).2 hi⟩

/-- A record with a number, a truth value and a text. -/
abbrev Sample : Fin 3 → Type := fun i => match i with | 0 => Nat | 1 => Bool | 2 => String
instance : ∀ i, DecidableEq (Sample i) := fun i => match i with
  | 0 => inferInstanceAs (DecidableEq Nat)
  | 1 => inferInstanceAs (DecidableEq Bool)
  | 2 => inferInstanceAs (DecidableEq String)
def sample (a : Nat) (b : Bool) (c : String) : Record Sample := fun i => match i with | 0 => a | 1 => b | 2 => c
def sampleDelta (a : Option Nat) (b : Option Bool) (c : Option String) : Delta Sample :=
  fun i => match i with | 0 => a | 1 => b | 2 => c

example : ∀ i, make (sample 1 true "x") (sample 1 false "y") i = sampleDelta none (some true) (some "x") i := by
  decide
example : ∀ i, (apply (sampleDelta none (some true) none) (sample 1 false "y")).1 i = sample 1 true "y" i := by decide
example : (apply (sampleDelta none (some true) none) (sample 1 false "y")).2 = true := by decide

/-! ## C31 -/

/-- C31: applying a delta to a pending delta composes them. -/
theorem delta_compose (d p : Delta T) (b : Record T) :
    (apply (applyDelta d p) b).1 = (apply d (apply p b).1).1 := by
  rw [apply_fst, apply_fst, apply_fst]; funext i; exact applyDelta_getD d p b i

omit [∀ i, DecidableEq (T i)] in
/-- C31: composing is associative and the empty delta is neutral. -/
theorem delta_monoid (d₁ d₂ d₃ : Delta T) :
    applyDelta d₃ (applyDelta d₂ d₁) = applyDelta (applyDelta d₃ d₂) d₁
    ∧ applyDelta d₁ Delta.none = d₁ ∧ applyDelta Delta.none d₁ = d₁ := by
  refine ⟨?_, ?_, ?_⟩ <;> funext i <;> unfold applyDelta
  · cases d₃ i <;> rfl
  · cases d₁ i <;> rfl
  · rfl

/-! ## C32 -/

omit [∀ i, DecidableEq (T i)] in
theorem patches_append (a b : List (Delta T)) (r : Record T) : patches (a ++ b) r = patches b (patches a r) := by
  simp [patches]

omit [∀ i, DecidableEq (T i)] in
theorem patches_at (ds : List (Delta T)) (r r' : Record T) (i : Fin n) (h : r i = r' i) :
    patches ds r i = patches ds r' i := by
  induction ds generalizing r r' with
  | nil => exact h
  | cons d ds ih =>
    show patches ds (patch d r) i = patches ds (patch d r') i
    exact ih _ _ (by unfold patch; rw [h])

omit [∀ i, DecidableEq (T i)] in
theorem patches_none (ds : List (Delta T)) (r : Record T) (i : Fin n) (h : ∀ d ∈ ds, d i = none) :
    patches ds r i = r i := by
  induction ds generalizing r with
  | nil => rfl
  | cons d ds ih =>
    show patches ds (patch d r) i = _
    rw [ih _ (fun x hx => h x (by simp [hx]))]
    unfold patch; rw [h d (by simp)]; rfl

/-- Keeps together: the uids are the outstanding requests, and replaying what is pending and the
outstanding requests changes nothing. -/
def NoFlickerInv (o : List (U × Delta T)) (s : LocalVersion U T) : Prop :=
  s.uids = o.map (·.1) ∧ patches (o.map (·.2)) (patch s.pending s.value) = s.value

omit [∀ i, DecidableEq (T i)] in
theorem insertUid_fresh (u : U) (o : List (U × Delta T)) (h : ∀ x ∈ o, x.1 ≠ u) :
    insertUid u (o.map (·.1)) = o.map (·.1) ++ [u] := by
  unfold insertUid
  rw [if_neg]
  intro hm
  obtain ⟨x, hx, rfl⟩ := List.mem_map.1 hm
  exact h x hx rfl

theorem local_keeps (o : List (U × Delta T)) (s : LocalVersion U T) (u : U) (d : Delta T)
    (hf : ∀ x ∈ o, x.1 ≠ u) (hi : NoFlickerInv o s) : NoFlickerInv (o ++ [(u, d)]) (applyLocal s u d).1 := by
  obtain ⟨h1, h2⟩ := hi
  refine ⟨by simp only [applyLocal, h1, insertUid_fresh u o hf, List.map_append, List.map_cons, List.map_nil], ?_⟩
  simp only [applyLocal, List.map_append, List.map_cons, List.map_nil, patches_append, apply_fst]
  funext i
  show patch d _ i = patch d _ i
  unfold patch
  cases hd : d i with
  | some v => rfl
  | none =>
    show patches _ _ i = s.value i
    conv => rhs; rw [← h2]
    apply patches_at
    show (applyDelta d s.pending i).getD (patch d s.value i) = _
    unfold applyDelta patch
    rw [hd]; rfl

theorem confirm_keeps (o : List (U × Delta T)) (s : LocalVersion U T) (u : U) (d : Delta T)
    (hi : NoFlickerInv ((u, d) :: o) s) :
    NoFlickerInv o (applyConfirmed s u d).1 ∧ (applyConfirmed s u d).1.value = s.value := by
  obtain ⟨h1, h2⟩ := hi
  have hm : u ∈ s.uids := by rw [h1]; simp
  have he : s.uids.erase u = o.map (·.1) := by rw [h1]; simp
  have hp : patches (o.map (·.2)) (patch (applyDelta d s.pending) s.value) = s.value := by
    conv => rhs; rw [← h2]
    show _ = patches (o.map (·.2)) (patch d (patch s.pending s.value))
    congr 1
    funext i; exact applyDelta_getD d s.pending s.value i
  unfold applyConfirmed
  rw [if_pos hm]
  split
  · rename_i hn
    have ho : o = [] := by rw [he] at hn; simpa using hn
    subst ho
    have hv : (apply (applyDelta d s.pending) s.value).1 = s.value := by rw [apply_fst]; exact hp
    refine ⟨⟨he, ?_⟩, hv⟩
    show patch Delta.none _ = _
    funext i; rfl
  · exact ⟨⟨he, hp⟩, rfl⟩

theorem no_flicker_aux (o : List (U × Delta T)) (h : List (Msg U T)) (hio : InOrder o h) :
    ∀ s : LocalVersion U T, NoFlickerInv o s → (runAll s h).value = patches (requested h) s.value := by
  induction hio with
  | nil o => intro s _; rfl
  | request o u d h hf _ ih =>
    intro s hi
    have := ih _ (local_keeps o s u d hf hi)
    show (runAll (applyLocal s u d).1 h).value = patches (requested h) (patch d s.value)
    rw [this]
    simp only [applyLocal, apply_fst]
  | confirm o u d h _ ih =>
    intro s hi
    obtain ⟨h1, h2⟩ := confirm_keeps o s u d hi
    have := ih _ h1
    show (runAll (applyConfirmed s u d).1 h).value = patches (requested h) s.value
    rw [this, h2]

/-- C32: over any interleaving of requests and their confirmations in order, the visible value is the
initial one with every request applied in the order they were made: requests show at once, and
confirmations change nothing. -/
theorem no_flicker (v : Record T) (h : List (Msg U T)) (hio : InOrder [] h) :
    (runAll (LocalVersion.init v) h).value = patches (requested h) v :=
  no_flicker_aux [] h hio _ ⟨rfl, by funext i; rfl⟩

/-- Two requests for the same member, the first confirmed before a third is made. -/
def sampleHistory : List (Msg Nat Sample) :=
  [.request 1 (sampleDelta (some 1) none none), .request 2 (sampleDelta (some 2) (some true) none),
   .confirmed 1 (sampleDelta (some 1) none none), .request 3 (sampleDelta none none (some "c")),
   .confirmed 2 (sampleDelta (some 2) (some true) none), .confirmed 3 (sampleDelta none none (some "c"))]

example : InOrder [] sampleHistory :=
  .request _ _ _ _ (by simp) <| .request _ _ _ _ (by simp) <| .confirm _ _ _ _ <|
    .request _ _ _ _ (by simp) <| .confirm _ _ _ _ <| .confirm _ _ _ _ <| .nil _
example : ∀ i, (runAll (LocalVersion.init (sample 0 false "a")) sampleHistory).value i = sample 2 true "c" i := by
  decide

/-! ## C33 -/

/-- Keeps together: the uids, that members no outstanding request writes hold the authoritative value
once what is pending is applied, and that nothing else is visible when nothing is outstanding. -/
def ConvergeInv (o : List (U × Delta T)) (s : LocalVersion U T) (a : Record T) : Prop :=
  s.uids = o.map (·.1) ∧ (o.map (·.1)).Nodup
  ∧ (∀ i, (∀ x ∈ o, x.2 i = none) → patch s.pending s.value i = a i)
  ∧ (o = [] → s.value = a)

theorem converge_request {o : List (U × Delta T)} {s : LocalVersion U T} {a : Record T} (u : U) (d : Delta T)
    (hfr : ∀ x ∈ o, x.1 ≠ u) (hi : ConvergeInv o s a) : ConvergeInv (o ++ [(u, d)]) (applyLocal s u d).1 a := by
  obtain ⟨h1, h2, h3, h4⟩ := hi
  refine ⟨?_, ?_, ?_, by simp⟩
  · simp only [applyLocal, h1, insertUid_fresh u o hfr, List.map_append, List.map_cons, List.map_nil]
  · rw [List.map_append, List.nodup_append]
    refine ⟨h2, by simp, ?_⟩
    intro x hx y hy
    obtain ⟨z, hz, rfl⟩ := List.mem_map.1 hx
    simp only [List.map_cons, List.map_nil, List.mem_singleton] at hy
    subst hy
    exact hfr z hz
  · intro i hn
    have hd : d i = none := hn (u, d) (by simp)
    rw [← h3 i (fun x hx => hn x (by simp [hx]))]
    simp only [applyLocal, apply_fst]
    unfold patch
    rw [applyDelta_getD d s.pending (fun i => (d i).getD (s.value i)), hd]; rfl

omit [∀ i, DecidableEq (T i)] in
theorem erase_open {o₁ o₂ : List (U × Delta T)} {u : U} {d : Delta T} (h2 : ((o₁ ++ (u, d) :: o₂).map (·.1)).Nodup) :
    (List.map (·.1) (o₁ ++ (u, d) :: o₂)).erase u = (o₁ ++ o₂).map (·.1) := by
  have hu : u ∉ o₁.map (·.1) := by
    rw [List.map_append, List.nodup_append] at h2
    intro hu
    exact h2.2.2 u hu u (by simp) rfl
  rw [List.map_append, List.map_cons, List.erase_append_right _ hu, List.erase_cons_head, List.map_append]

theorem converge_confirm {o₁ o₂ : List (U × Delta T)} {s : LocalVersion U T} {a : Record T} (u : U) (d d' : Delta T)
    (hc : Covers d' d) (hi : ConvergeInv (o₁ ++ (u, d) :: o₂) s a) :
    ConvergeInv (o₁ ++ o₂) (applyConfirmed s u d').1 (patch d' a) := by
  obtain ⟨h1, h2, h3, h4⟩ := hi
  have hm : u ∈ s.uids := by rw [h1]; simp
  have he' := erase_open h2
  have he : s.uids.erase u = (o₁ ++ o₂).map (·.1) := by rw [h1, he']
  have hnd : ((o₁ ++ o₂).map (·.1)).Nodup := by rw [← he, h1]; exact List.Nodup.erase _ h2
  have hp : ∀ i, (∀ x ∈ o₁ ++ o₂, x.2 i = none) → patch (applyDelta d' s.pending) s.value i = patch d' a i := by
    intro i hn
    unfold patch
    rw [applyDelta_getD]
    cases hd : d' i with
    | some w => rfl
    | none =>
      have hd0 : d i = none := by
        cases hdi : d i with
        | none => rfl
        | some w =>
          have := hc i (by simp [hdi])
          simp [hd] at this
      show patch s.pending s.value i = a i
      apply h3
      intro x hx
      rcases List.mem_append.1 hx with hx | hx
      · exact hn x (by simp [hx])
      · rcases List.mem_cons.1 hx with rfl | hx
        · exact hd0
        · exact hn x (by simp [hx])
  unfold applyConfirmed
  rw [if_pos hm]
  split
  · rename_i hn
    have hon : o₁ ++ o₂ = [] := by rw [he] at hn; simpa using hn
    have hv : (apply (applyDelta d' s.pending) s.value).1 = patch d' a := by
      rw [apply_fst]; funext i; exact hp i (by rw [hon]; simp)
    refine ⟨he, hnd, ?_, fun _ => hv⟩
    intro i _
    show ((Delta.none : Delta T) i).getD ((apply (applyDelta d' s.pending) s.value).1 i) = _
    rw [hv]; rfl
  · rename_i hn
    refine ⟨he, hnd, hp, fun h => ?_⟩
    exact absurd (by rw [he, h]; rfl) hn

theorem converge_foreign {o : List (U × Delta T)} {s : LocalVersion U T} {a : Record T} (u : U) (d : Delta T)
    (hoth : ∀ x ∈ o, x.1 ≠ u) (hi : ConvergeInv o s a) : ConvergeInv o (applyConfirmed s u d).1 (patch d a) := by
  obtain ⟨h1, h2, h3, h4⟩ := hi
  have hm : u ∉ o.map (·.1) := by
    intro hu
    obtain ⟨x, hx, rfl⟩ := List.mem_map.1 hu
    exact hoth x hx rfl
  unfold applyConfirmed
  rw [if_neg (by rw [h1]; exact hm)]
  refine ⟨h1, h2, ?_, fun hn => ?_⟩
  · intro i hn
    simp only [apply_fst]
    show (applyDelta d s.pending i).getD (patch d s.value i) = _
    rw [applyDelta_getD d s.pending (patch d s.value)]
    have := h3 i hn
    unfold patch at *
    cases hd : d i with
    | some w => rfl
    | none => simpa using this
  · rw [← h4 hn]; exact apply_fst d s.value

theorem converge_aux (o : List (U × Delta T)) (h : List (Msg U T)) (hf : Fair o h) :
    ∀ (s : LocalVersion U T) (a : Record T), ConvergeInv o s a → outstanding (o.map (·.1)) h = [] →
      (runAll s h).value = authoritative a h := by
  induction hf with
  | nil o =>
    intro s a hi ho
    exact hi.2.2.2 (by simpa [outstanding] using ho)
  | request o u d h hfr _ ih =>
    intro s a hi ho
    exact ih (applyLocal s u d).1 a (converge_request u d hfr hi) (by simpa [outstanding] using ho)
  | confirm o₁ o₂ u d d' h hc _ ih =>
    intro s a hi ho
    have ho' : outstanding ((o₁ ++ o₂).map (·.1)) h = [] := by
      rw [← erase_open hi.2.1]; exact ho
    exact ih _ _ (converge_confirm u d d' hc hi) ho'
  | foreign o u d h hoth _ ih =>
    intro s a hi ho
    have hm : u ∉ o.map (·.1) := by
      intro hu
      obtain ⟨x, hx, rfl⟩ := List.mem_map.1 hu
      exact hoth x hx rfl
    have ho' : outstanding (o.map (·.1)) h = [] := by
      rw [outstanding, List.erase_of_not_mem hm] at ho; exact ho
    exact ih _ _ (converge_foreign u d hoth hi) ho'

/-- C33: over any interleaving of requests, their confirmations in any order and foreign updates, once
every request is confirmed the visible value is the authoritative one, provided that a confirmation
writes every member its request wrote and that no message replaces the whole value. -/
theorem converges_partial (v : Record T) (h : List (Msg U T)) (hf : Fair [] h) (ho : outstanding [] h = []) :
    (runAll (LocalVersion.init v) h).value = authoritative v h :=
  converge_aux [] h hf _ v ⟨rfl, by simp, by intro i _; rfl, fun _ => rfl⟩ ho

/-- Two requests confirmed in the other order, with a foreign update of the same member in between. -/
def sampleFair : List (Msg Nat Sample) :=
  [.request 1 (sampleDelta (some 1) none none), .request 2 (sampleDelta (some 2) none (some "b")),
   .confirmed 2 (sampleDelta (some 2) none (some "b")), .confirmed 9 (sampleDelta (some 9) (some true) none),
   .confirmed 1 (sampleDelta (some 1) none none)]

omit [DecidableEq U] [∀ i, DecidableEq (T i)] in
theorem covers_self (d : Delta T) : Covers d d := fun _ h => h

example : Fair [] sampleFair :=
  .request _ _ _ _ (by simp) <| .request _ _ _ _ (by simp) <|
    .confirm [(1, sampleDelta (some 1) none none)] [] _ _ _ _ (covers_self _) <|
    .foreign _ _ _ _ (by simp) <| .confirm [] [] _ _ _ _ (covers_self _) <| .nil _
example : outstanding [] sampleFair = [] := by decide
example : ∀ i, (runAll (LocalVersion.init (sample 0 false "a")) sampleFair).value i = sample 1 true "b" i := by
  decide

/-- C33 fails when the producer confirms less than was requested: a request it turned down, confirmed
with an empty delta, stays visible for ever. -/
theorem rejected_change_stays_violated (v : Record T) (u : U) (d : Delta T) (hd : patch d v ≠ v) :
    let h : List (Msg U T) := [.request u d, .confirmed u Delta.none]
    outstanding [] h = [] ∧ authoritative v h = v ∧ (runAll (LocalVersion.init v) h).value ≠ v := by
  refine ⟨by simp [outstanding], by funext i; rfl, ?_⟩
  have h1 : (runAll (LocalVersion.init v) [Msg.request u d, .confirmed u Delta.none]).value
      = patch (applyDelta Delta.none (applyDelta d Delta.none)) (patch d v) := by
    simp [runAll, applyMessage, applyLocal, applyConfirmed, LocalVersion.init, insertUid, apply_fst]
  rw [h1, (delta_monoid _ Delta.none Delta.none).2.2, (delta_monoid d Delta.none Delta.none).2.1]
  intro he
  apply hd
  rw [← he]
  funext i
  have := congrFun he i
  unfold patch at this ⊢
  cases hdi : d i <;> simp_all

/-- C33 fails when the whole value is replaced: a foreign update stays pending although nothing is
outstanding, and is applied again over a newer value by the next confirmation. -/
theorem stale_pending_violated :
    let h : List (Msg Nat Sample) :=
      [.confirmed 9 (sampleDelta (some 5) none none), .replace (sample 7 false "a"),
       .request 1 (sampleDelta none (some true) none), .confirmed 1 (sampleDelta none (some true) none)]
    outstanding [] h = [] ∧ authoritative (sample 0 false "a") h 0 = (7 : Nat)
    ∧ (runAll (LocalVersion.init (sample 0 false "a")) h).value 0 = (5 : Nat) := by
  decide

/-! ## C34 -/

/-- C34, for the two operations: the flag they return says whether the visible value changed. -/
theorem local_reports_partial (s : LocalVersion U T) (u : U) (d : Delta T) :
    ((applyLocal s u d).2 = true ↔ (applyLocal s u d).1.value ≠ s.value)
    ∧ ((applyConfirmed s u d).2 = true ↔ (applyConfirmed s u d).1.value ≠ s.value) := by
  refine ⟨apply_reports d s.value, ?_⟩
  unfold applyConfirmed
  split
  · split
    · exact apply_reports _ _
    · simp
  · exact apply_reports _ _

/-- C34 fails for `apply_message`: whatever it did to the value, nothing is returned for a delta, and
replacing the value is reported as a change even if it is the same. -/
theorem message_reports_violated (s : LocalVersion U T) (u : U) (d : Delta T) :
    (applyMessage s (.request u d)).2 = none ∧ (applyMessage s (.confirmed u d)).2 = none
    ∧ (applyMessage s (.replace s.value)).2 = some true ∧ (applyMessage s (.replace s.value)).1 = s :=
  ⟨rfl, rfl, rfl, rfl⟩

example : (applyMessage (LocalVersion.init (sample 0 false "a")) (.request 1 (sampleDelta (some 3) none none))).1.value 0
    = (3 : Nat) := by decide

end Nbdl.Delta
