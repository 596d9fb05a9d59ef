import Verif.Refs.Spec
/-! Values handed to callbacks: property C126. -/
namespace Nbdl.Refs
open MapStore Spec
variable {P V : Type} [DecidableEq P]

/-! ## The objects do not change what is stored -/

theorem values_set (h : Heap P V) (p : P) (e : Entry V) : values (h.set p e) = (values h).set p e := by
  funext q
  simp only [values, Heap.set, Map.set]
  split <;> rfl

theorem values_erase (h : Heap P V) (p : P) : values (h.erase p) = (values h).erase p := by
  funext q
  simp only [values, Heap.erase, Map.erase]
  split <;> rfl

/-- With its objects the store is the map store. -/
theorem apply_values (h : Heap P V) (m : Msg P V) : values (apply h m) = (MapStore.apply (values h) m).1 := by
  cases m with
  | upRead p =>
    simp only [apply, MapStore.apply]
    cases e : h.at_ p with
    | none => simp only [values_set, values, e, Option.map_none, if_true]
    | some x => simp [values, e]
  | downCreate p w => exact values_set h p _
  | downUpdate p w => exact values_set h p _
  | downRead p w =>
    simp only [apply, MapStore.apply]
    cases e : h.at_ p with
    | none =>
      have : (values h p).getD .unresolved = .unresolved := by simp [values, e]
      rw [this]
      simp only [values_set]
      funext q
      simp only [Map.set]
      split <;> rfl
    | some x =>
      obtain ⟨x, i⟩ := x
      cases x with
      | unresolved =>
        have : (values h p).getD .unresolved = .unresolved := by simp [values, e]
        rw [this]
        exact values_set h p _
      | resolved w' =>
        have : (values h p).getD .unresolved = .resolved w' := by simp [values, e]
        rw [this]
  | downDelete p => exact values_erase h p
  | upCreate p v => rfl
  | upUpdate p v => rfl
  | upDelete p => rfl

theorem applyAll_values (ms : List (Msg P V)) : ∀ h : Heap P V,
    values (applyAll h ms) = ms.foldl (fun s m => (MapStore.apply s m).1) (values h) := by
  induction ms with
  | nil => exact fun _ => rfl
  | cons m ms ih => intro h; rw [applyAll, ih, List.foldl_cons, apply_values]

theorem set_sound (h : Heap P V) (p : P) (e : Entry V) (hs : Sound h) : Sound (h.set p e) := by
  have hobj : objectFor h p e = h.next ∨ ∃ e', h.at_ p = some (e', objectFor h p e) := by
    unfold objectFor
    cases hp : h.at_ p with
    | none => exact .inl rfl
    | some x =>
      obtain ⟨x, i⟩ := x
      by_cases hx : sameAlt x e = true
      · exact .inr ⟨x, by simp only [hx, if_true]⟩
      · exact .inl (by simp only [hx]; rfl)
  constructor
  · intro q e' i hq
    simp only [Heap.set] at hq ⊢
    split at hq
    · injection hq with hq; injection hq with h1 h2
      rcases hobj with ho | ⟨e'', ho⟩
      · omega
      · have := hs.old _ _ _ ho; omega
    · have := hs.old _ _ _ hq; omega
  · intro q q' e1 e2 i h1 h2
    simp only [Heap.set] at h1 h2
    split at h1 <;> split at h2
    · rename_i a b; rw [a, b]
    · rename_i a b
      injection h1 with h1; injection h1 with h3 h4
      rcases hobj with ho | ⟨e'', ho⟩
      · have := hs.old _ _ _ h2; omega
      · rw [h4] at ho
        rw [a]; exact hs.distinct _ _ _ _ _ ho h2
    · rename_i a b
      injection h2 with h2; injection h2 with h3 h4
      rcases hobj with ho | ⟨e'', ho⟩
      · have := hs.old _ _ _ h1; omega
      · rw [h4] at ho
        rw [b]; exact hs.distinct _ _ _ _ _ h1 ho
    · exact hs.distinct _ _ _ _ _ h1 h2

/-- Objects are never mixed up. -/
theorem apply_sound (h : Heap P V) (m : Msg P V) (hs : Sound h) : Sound (apply h m) := by
  cases m with
  | upRead p =>
    simp only [apply]
    split
    · exact set_sound h p _ hs
    · exact hs
  | downCreate p w => exact set_sound h p _ hs
  | downUpdate p w => exact set_sound h p _ hs
  | downRead p w =>
    simp only [apply]
    split
    · exact set_sound _ p _ (set_sound h p _ hs)
    · exact set_sound h p _ hs
    · exact hs
  | downDelete p =>
    constructor
    · intro q e i hq
      simp only [apply, Heap.erase] at hq
      split at hq
      · cases hq
      · exact hs.old _ _ _ hq
    · intro q q' e1 e2 i h1 h2
      simp only [apply, Heap.erase] at h1 h2
      split at h1
      · cases h1
      · split at h2
        · cases h2
        · exact hs.distinct _ _ _ _ _ h1 h2
  | upCreate p v => exact hs
  | upUpdate p v => exact hs
  | upDelete p => exact hs

/-! ## What a reference refers to -/

/-- The object is gone. -/
def Gone (h : Heap P V) (r : Ref P) : Prop := r.object < h.next ∧ ∀ e i, h.at_ r.path = some (e, i) → i ≠ r.object

theorem gone_set (h : Heap P V) (r : Ref P) (p : P) (e : Entry V) (hg : Gone h r) : Gone (h.set p e) r := by
  refine ⟨Nat.lt_succ_of_lt hg.1, fun e' i hi => ?_⟩
  simp only [Heap.set] at hi
  split at hi
  · rename_i hp
    injection hi with hi; injection hi with h1 h2
    unfold objectFor at h2
    split at h2
    · rename_i old j hj
      split at h2
      · rw [← h2]; exact hg.2 _ _ (hp ▸ hj)
      · have := hg.1; omega
    · have := hg.1; omega
  · exact hg.2 _ _ hi

theorem gone_apply (h : Heap P V) (r : Ref P) (m : Msg P V) (hg : Gone h r) : Gone (apply h m) r := by
  cases m with
  | upRead p =>
    simp only [apply]
    split
    · exact gone_set h r p _ hg
    · exact hg
  | downCreate p w => exact gone_set h r p _ hg
  | downUpdate p w => exact gone_set h r p _ hg
  | downRead p w =>
    simp only [apply]
    split
    · exact gone_set _ r p _ (gone_set h r p _ hg)
    · exact gone_set h r p _ hg
    · exact hg
  | downDelete p =>
    refine ⟨hg.1, fun e i hi => ?_⟩
    simp only [apply, Heap.erase] at hi
    split at hi
    · cases hi
    · exact hg.2 _ _ hi
  | upCreate p v => exact hg
  | upUpdate p v => exact hg
  | upDelete p => exact hg

theorem gone_all (ms : List (Msg P V)) : ∀ (h : Heap P V) (r : Ref P), Gone h r → deref (applyAll h ms) r = .ub := by
  induction ms with
  | nil =>
    intro h r hg
    rw [applyAll, deref]
    split
    · rename_i w i hi
      rw [if_neg (hg.2 _ _ hi)]
    · rfl
  | cons m ms ih => intro h r hg; exact ih _ r (gone_apply h r m hg)

theorem set_other (h : Heap P V) (p q : P) (e : Entry V) (hne : q ≠ p) : (h.set q e).at_ p = h.at_ p := by
  simp only [Heap.set, if_neg (Ne.symm hne)]

/-- A message that sets the value at the path of a reference. -/
theorem set_same (h : Heap P V) (hs : Sound h) (p : P) (w w' : Payload V) (i : Nat) (hp : h.at_ p = some (.resolved w, i)) :
    (sameAlt (.resolved w) (.resolved w' : Entry V) = true ∧ (h.set p (.resolved w')).at_ p = some (.resolved w', i))
    ∨ sameAlt (.resolved w) (.resolved w' : Entry V) = false ∧ Gone (h.set p (.resolved w')) ⟨p, i⟩ := by
  have hi := hs.old _ _ _ hp
  cases ha : sameAlt (.resolved w) (.resolved w' : Entry V)
  · refine .inr ⟨rfl, Nat.lt_succ_of_lt hi, fun e j hj => ?_⟩
    simp only [Heap.set, if_true, objectFor, hp, ha] at hj
    injection hj with hj; injection hj with h1 h2
    show j ≠ i
    have h3 : h.next = j := h2
    omega
  · refine .inl ⟨rfl, ?_⟩
    simp only [Heap.set, if_true, objectFor, hp, ha]

/-- C126, what happens exactly: after any messages a reference that was handed to a callback refers to what
`follow` says: the value its path was last set to, and nothing at all (its use is undefined behaviour) once
the path was deleted or turned from an entity to `not_found` or back, even if a value came back later. -/
theorem reference_follows (h : Heap P V) (hs : Sound h) (p : P) (w : Payload V) (r : Ref P)
    (hr : handed h p = some (w, r)) (ms : List (Msg P V)) : deref (applyAll h ms) r = follow p w ms := by
  have hat : ∃ i, h.at_ p = some (.resolved w, i) ∧ r = ⟨p, i⟩ := by
    unfold handed at hr
    split at hr
    · rename_i w' i hi
      injection hr with hr; injection hr with h1 h2
      exact ⟨i, by rw [hi, h1], h2.symm⟩
    · cases hr
  obtain ⟨i, hp, rfl⟩ := hat
  clear hr
  induction ms generalizing h w with
  | nil => rw [applyAll, follow, deref]; simp only [hp, if_true]
  | cons m ms ih =>
    have hs' := apply_sound h m hs
    have setting : ∀ q w', (∀ h', h' = h.set q (.resolved w') → Sound h' →
        deref (applyAll h' ms) ⟨p, i⟩ = (if q = p then
          if sameKind w w' then follow p w' ms else .ub
        else follow p w ms)) := by
      rintro q w' h' rfl hsh
      by_cases hq : q = p
      · subst hq
        rw [if_pos rfl]
        rcases set_same h hs q w w' i hp with ⟨ha, hn⟩ | ⟨ha, hg⟩
        · have hk : sameKind w w' = true := by cases w <;> cases w' <;> first | (cases ha; done) | rfl
          rw [if_pos hk]
          exact ih _ hsh _ hn
        · have hk : sameKind w w' = false := by cases w <;> cases w' <;> first | (cases ha; done) | rfl
          rw [hk]
          exact gone_all ms _ _ hg
      · rw [if_neg hq]
        exact ih _ hsh w (by rw [set_other h p q _ hq]; exact hp)
    rw [applyAll]
    cases m with
    | upRead q =>
      rw [follow]
      refine ih _ hs' w ?_
      simp only [apply]
      split
      · rename_i hn
        refine (set_other h p q _ ?_).trans hp
        rintro rfl; rw [hn] at hp; cases hp
      · exact hp
      all_goals nofun
    | downCreate q w' => rw [follow]; exact setting q w' _ rfl hs'
    | downUpdate q w' => rw [follow]; exact setting q w' _ rfl hs'
    | downRead q w' =>
      rw [follow]
      refine ih _ hs' w ?_
      simp only [apply]
      split
      · rename_i hn
        have hne : q ≠ p := by rintro rfl; rw [hn] at hp; cases hp
        exact (set_other _ p q _ hne).trans ((set_other h p q _ hne).trans hp)
      · rename_i j hn
        have hne : q ≠ p := by rintro rfl; rw [hn] at hp; cases hp
        exact (set_other h p q _ hne).trans hp
      · exact hp
      all_goals nofun
    | downDelete q =>
      rw [follow]
      by_cases hq : q = p
      · subst hq
        rw [if_pos rfl]
        refine gone_all ms _ _ ⟨hs.old _ _ _ hp, fun e j hj => ?_⟩
        simp only [apply, Heap.erase, if_true] at hj
        cases hj
      · rw [if_neg hq]
        refine ih _ hs' w ?_
        simp only [apply, Heap.erase, if_neg (Ne.symm hq)]
        exact hp
    | upCreate q v => rw [follow] <;> first | exact ih _ hs' w hp | nofun
    | upUpdate q v => rw [follow] <;> first | exact ih _ hs' w hp | nofun
    | upDelete q => rw [follow] <;> first | exact ih _ hs' w hp | nofun

theorem follow_leaves (p : P) (w : Payload V) (ms : List (Msg P V)) (h : ∀ m ∈ ms, Leaves p m) : follow p w ms = .ok w := by
  induction ms with
  | nil => rw [follow]
  | cons m ms ih =>
    have hm := h m List.mem_cons_self
    have ih := ih fun m' h' => h m' (List.mem_cons_of_mem _ h')
    cases m with
    | downCreate q w' => rw [follow, if_neg hm]; exact ih
    | downUpdate q w' => rw [follow, if_neg hm]; exact ih
    | downDelete q => rw [follow, if_neg hm]; exact ih
    | _ => rw [follow] <;> first | exact ih | nofun

/-- C126: while the callback of `match` runs, the value it was handed stays as it is, whatever the callback
pushes and whatever this leads to, if the value at the path is neither set nor deleted. -/
theorem value_kept_partial (h : Heap P V) (hs : Sound h) (p : P) (w : Payload V) (r : Ref P)
    (hr : handed h p = some (w, r)) (ms : List (Msg P V)) (hm : ∀ m ∈ ms, Leaves p m) :
    deref (applyAll h ms) r = .ok w := by
  rw [reference_follows h hs p w r hr ms, follow_leaves p w ms hm]

/-- A store with a value at path 5, for the examples. -/
def five : Heap Nat Nat := applyAll ⟨fun _ => none, 0⟩ [.downCreate 5 (.value 1), .downCreate 6 (.value 2)]

theorem empty_sound : Sound (⟨fun _ => none, 0⟩ : Heap P V) := ⟨nofun, nofun⟩

theorem all_sound (ms : List (Msg P V)) : ∀ h : Heap P V, Sound h → Sound (applyAll h ms) := by
  induction ms with
  | nil => exact fun _ hs => hs
  | cons m ms ih => exact fun h hs => ih _ (apply_sound h m hs)

theorem five_sound : Sound five := all_sound _ _ empty_sound

example : (handed five 5).isSome ∧ (∀ m ∈ ([.downUpdate 6 (.value 3), .upDelete 5, .downDelete 6, .downRead 5 (.value 8)] :
    List (Msg Nat Nat)), Leaves 5 m) := by
  refine ⟨by decide +kernel, fun m hm => ?_⟩
  simp only [List.mem_cons, List.not_mem_nil, or_false] at hm
  rcases hm with rfl | rfl | rfl | rfl <;> simp [Leaves]

/-- C126 does not hold in general: with an update the value changes under the callback, and after a delete
(also one that is followed by a create) the reference dangles. -/
theorem value_kept_violated : ∃ (h : Heap Nat Nat) (r : Ref Nat), Sound h ∧ handed h 5 = some (.value 1, r)
    ∧ deref (applyAll h [.downUpdate 5 (.value 2)]) r = .ok (.value 2)
    ∧ deref (applyAll h [.downDelete 5]) r = .ub
    ∧ deref (applyAll h [.downDelete 5, .downCreate 5 (.value 1)]) r = .ub
    ∧ deref (applyAll h [.downUpdate 5 .notFound, .downUpdate 5 (.value 1)]) r = .ub :=
  ⟨five, ⟨5, 0⟩, five_sound, rfl, rfl, rfl, rfl, rfl⟩

end Nbdl.Refs
