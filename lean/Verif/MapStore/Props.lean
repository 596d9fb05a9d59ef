import Verif.MapStore.Spec
/-! Map store properties C24, C25, C26. -/
namespace Nbdl.MapStore
variable {P V : Type} [DecidableEq P]

theorem view_set_self (m : Map P V) (p : P) (e : Entry V) :
    view (m.set p e) p = match e with | .unresolved => .unresolved | .resolved w => .value w := by
  unfold view Map.set
  cases e <;> simp

theorem view_set_ne (m : Map P V) (p q : P) (e : Entry V) (h : q ≠ p) : view (m.set p e) q = view m q := by
  unfold view Map.set; simp [h]

theorem view_erase_self (m : Map P V) (p : P) : view (m.erase p) p = .notInSet := by
  unfold view Map.erase; simp

theorem view_erase_ne (m : Map P V) (p q : P) (h : q ≠ p) : view (m.erase p) q = view m q := by
  unfold view Map.erase; simp [h]

/-- C24: paths do not interfere. -/
theorem apply_other (m : Map P V) (x : Msg P V) (q : P) (h : x.path ≠ q) :
    view (apply m x).1 q = view m q := by
  have hne : q ≠ x.path := fun e => h e.symm
  cases x with
  | upRead p =>
    simp only [apply]
    split
    · exact view_set_ne _ _ _ _ hne
    · rfl
  | downRead p w =>
    simp only [apply]
    split
    · exact view_set_ne _ _ _ _ hne
    · rfl
  | downCreate p w => exact view_set_ne _ _ _ _ hne
  | downUpdate p w => exact view_set_ne _ _ _ _ hne
  | downDelete p => exact view_erase_ne _ _ _ hne
  | upCreate p v => rfl
  | upUpdate p v => rfl
  | upDelete p => rfl

/-- One message about `p`, in terms of what is shown at `p`. -/
theorem apply_same (m : Map P V) (x : Msg P V) :
    view (apply m x).1 x.path = match x, view m x.path with
      | .downCreate _ w, _ => .value w
      | .downUpdate _ w, _ => .value w
      | .downDelete _, _ => .notInSet
      | .downRead _ _, .value w => .value w
      | .downRead _ w, _ => .value w
      | .upRead _, .notInSet => .unresolved
      | _, s => s := by
  cases x with
  | downCreate p w => simp only [apply, Msg.path]; exact view_set_self _ _ _
  | downUpdate p w => simp only [apply, Msg.path]; exact view_set_self _ _ _
  | downDelete p => simp only [apply, Msg.path]; exact view_erase_self _ _
  | upRead p =>
    simp only [apply, Msg.path]
    cases h : m p with
    | none => simp only [if_true]; rw [view_set_self]; simp [view, h]
    | some e => cases e <;> simp [view, h]
  | downRead p w =>
    simp only [apply, Msg.path]
    cases h : m p with
    | none => simp only [Option.getD_none]; rw [view_set_self]; simp [view, h]
    | some e =>
      cases e with
      | unresolved => simp only [Option.getD_some]; rw [view_set_self]; simp [view, h]
      | resolved w' => simp [view, h]
  | upCreate p v => rfl
  | upUpdate p v => rfl
  | upDelete p => rfl

theorem since_append_other (p : P) (h : List (Msg P V)) (x : Msg P V) (hx : x.path ≠ p) :
    Spec.since p (h ++ [x]) = Spec.since p h := by
  unfold Spec.since
  rw [List.filter_append]
  simp [hx]

theorem since_append_delete (p : P) (h : List (Msg P V)) :
    Spec.since p (h ++ [.downDelete p]) = [] := by
  unfold Spec.since
  rw [List.filter_append]
  simp [Msg.path, Spec.isDelete]

theorem since_append_same (p : P) (h : List (Msg P V)) (x : Msg P V) (hx : x.path = p)
    (hd : ∀ q, x ≠ .downDelete q) : Spec.since p (h ++ [x]) = Spec.since p h ++ [x] := by
  unfold Spec.since
  rw [List.filter_append]
  have : ([x].filter fun y => decide (y.path = p)) = [x] := by simp [hx]
  rw [this]
  simp only [List.reverse_append, List.reverse_cons, List.reverse_nil, List.nil_append,
    List.singleton_append]
  rw [List.takeWhile_cons]
  have : (!Spec.isDelete x) = true := by
    cases x <;> simp_all [Spec.isDelete]
  rw [if_pos this]
  simp

/-- C24: after every history the store shows at every path what the history says. -/
theorem behaves_as_map (h : List (Msg P V)) (p : P) : view (runAll h) p = Spec.shown p h := by
  induction hr : h.reverse generalizing h with
  | nil =>
    have : h = [] := by simpa using hr
    subst this; rfl
  | cons x r ih =>
    have hh : h = r.reverse ++ [x] := by rw [← List.reverse_reverse h, hr]; simp
    subst hh
    have ih := ih r.reverse (by simp)
    have hrun : runAll (r.reverse ++ [x]) = (apply (runAll r.reverse) x).1 := by
      unfold runAll; rw [List.foldl_append]; rfl
    rw [hrun]
    by_cases hx : x.path = p
    · subst hx
      rw [apply_same, ih]
      by_cases hd : ∃ q, x = .downDelete q
      · obtain ⟨q, rfl⟩ := hd
        unfold Spec.shown
        rw [show (Msg.downDelete q : Msg P V).path = q from rfl, since_append_delete]; rfl
      · have hs := since_append_same x.path r.reverse x rfl (fun q e => hd ⟨q, e⟩)
        unfold Spec.shown
        rw [hs]
        generalize Spec.since x.path r.reverse = s
        have hrev : (s ++ [x]).reverse = x :: s.reverse := by simp
        unfold Spec.result
        simp only [hrev, List.findSome?_cons, List.findSome?_append, List.any_append, List.any_cons,
          List.any_nil, Bool.or_false]
        cases hw : s.reverse.findSome? Spec.written <;> cases ha : s.findSome? Spec.answered <;>
          cases hu : s.any Msg.isUpRead <;> cases x <;>
          simp_all [Spec.written, Spec.answered, Msg.isUpRead]
    · rw [apply_other _ _ _ hx, ih]
      unfold Spec.shown
      rw [since_append_other _ _ _ hx]

/-- A history over two paths that exercises every kind of message. -/
def sampleHistory : List (Msg Nat Nat) :=
  [.upRead 1, .downRead 1 (.value 10), .downRead 1 (.value 11), .upCreate 2 7, .downCreate 2 (.value 7),
   .upUpdate 2 8, .downUpdate 2 (.value 8), .downRead 2 (.value 9), .downDelete 1, .upRead 1, .upDelete 2]

example : view (runAll sampleHistory) 1 = .unresolved ∧ view (runAll sampleHistory) 2 = .value (.value 8)
    ∧ view (runAll sampleHistory) 3 = .notInSet := by decide

/-! ## C26 -/

/-- C26: a read answer changes nothing at a resolved path, and reports no change … -/
theorem late_answer_ignored (m : Map P V) (p : P) (w w' : Payload V) (h : view m p = .value w) :
    apply m (.downRead p w') = (m, false) := by
  unfold view at h
  simp only [apply]
  cases hm : m p with
  | none => rw [hm] at h; simp at h
  | some e =>
    cases e with
    | unresolved => rw [hm] at h; simp at h
    | resolved w'' => rfl

/-- … and fills a path that is not resolved. -/
theorem answer_fills (m : Map P V) (p : P) (w' : Payload V) (h : ∀ w, view m p ≠ .value w) :
    view (apply m (.downRead p w')).1 p = .value w' ∧ (apply m (.downRead p w')).2 = true := by
  unfold view at h
  simp only [apply]
  cases hm : m p with
  | none => exact ⟨view_set_self _ _ _, rfl⟩
  | some e =>
    cases e with
    | unresolved => exact ⟨view_set_self _ _ _, rfl⟩
    | resolved w'' => rw [hm] at h; simp at h

/-- C26 over histories: once a path is resolved, no messages but creates, updates and deletes of
that path change what is shown, whatever reads and answers arrive. -/
theorem resolved_stable (m : Map P V) (h : List (Msg P V)) (p : P) (w : Payload V)
    (hv : view m p = .value w)
    (hh : ∀ x ∈ h, x.path = p → Spec.written x = none ∧ x ≠ .downDelete p) :
    view (h.foldl (fun m x => (apply m x).1) m) p = .value w := by
  induction h generalizing m with
  | nil => exact hv
  | cons x h ih =>
    refine ih _ ?_ (fun y hy => hh y (by simp [hy]))
    by_cases hx : x.path = p
    · have hxx := hh x (by simp) hx
      have := apply_same m x
      rw [hx, hv] at this
      rw [this]
      cases x <;> simp_all [Spec.written, Msg.path]
    · rw [apply_other _ _ _ hx, hv]

example : view (runAll [.downCreate 1 (.value 5)] : Map Nat Nat) 1 = .value (.value 5)
    ∧ ∀ x ∈ [Msg.downRead 1 (.value 6), .upRead 1, .downDelete 2], Msg.path x = 1 →
      Spec.written (V := Nat) x = none ∧ x ≠ .downDelete 1 := by decide

/-! ## C25 -/

/-- C25, the exact report: creates, updates and deletes always report a change; a read answer does
iff the path is not resolved; nothing else does. -/
theorem report_exact (m : Map P V) (x : Msg P V) :
    (apply m x).2 = true ↔
      (Spec.written x).isSome = true ∨ x = .downDelete x.path
      ∨ (∃ w, x = .downRead x.path w) ∧ ∀ w, view m x.path ≠ .value w := by
  cases x with
  | downCreate p w => simp [apply, Spec.written]
  | downUpdate p w => simp [apply, Spec.written]
  | downDelete p => simp [apply, Msg.path]
  | downRead p w =>
    simp only [Spec.written, Option.isSome_none, Bool.false_eq_true, reduceCtorEq, false_or, Msg.path,
      Msg.downRead.injEq, true_and, exists_eq', and_true]
    by_cases h : ∃ w', view m p = .value w'
    · obtain ⟨w', h⟩ := h
      rw [late_answer_ignored m p w' w h]
      simp [h]
    · have h' : ∀ w', view m p ≠ .value w' := fun w' e => h ⟨w', e⟩
      simp [(answer_fills m p w h').2, h']
  | upRead p => simp [apply, Spec.written]
  | upCreate p v => simp [apply, Spec.written]
  | upUpdate p v => simp [apply, Spec.written]
  | upDelete p => simp [apply, Spec.written]

/-- C25, partial: except for the placeholder of a read request, every change of what is shown
anywhere is reported. -/
theorem changes_reported_partial (m : Map P V) (x : Msg P V) (hx : x.isUpRead = false) (q : P)
    (hq : view (apply m x).1 q ≠ view m q) : (apply m x).2 = true := by
  by_cases hp : x.path = q
  · subst hp
    cases x with
    | downCreate p w => rfl
    | downUpdate p w => rfl
    | downDelete p => rfl
    | downRead p w =>
      by_cases h : ∃ w', view m p = .value w'
      · obtain ⟨w', h⟩ := h
        rw [late_answer_ignored m p w' w h] at hq
        exact absurd rfl hq
      · exact (answer_fills m p w (fun w' e => h ⟨w', e⟩)).2
    | upRead p => simp [Msg.isUpRead] at hx
    | upCreate p v => exact absurd rfl hq
    | upUpdate p v => exact absurd rfl hq
    | upDelete p => exact absurd rfl hq
  · exact absurd (apply_other m x q hp) hq

example : view (apply (runAll sampleHistory) (.downRead 1 (.value 4))).1 1 ≠ view (runAll sampleHistory) 1 := by
  decide

/-- C25, exactly: the report is right (it says whether what is shown somewhere has changed) just if the
message is none of: a read request or a delete of a path that is not there, and a write of what is shown
already. -/
theorem report_right_iff (m : Map P V) (x : Msg P V) :
    ((apply m x).2 = true ↔ ∃ q, view (apply m x).1 q ≠ view m q) ↔
      ¬ (((∃ p, x = .upRead p ∨ x = .downDelete p) ∧ view m x.path = .notInSet)
        ∨ ∃ w, Spec.written x = some w ∧ view m x.path = .value w) := by
  have only : (∃ q, view (apply m x).1 q ≠ view m q) ↔ view (apply m x).1 x.path ≠ view m x.path := by
    constructor
    · rintro ⟨q, hq⟩
      by_cases hp : x.path = q
      · subst hp; exact hq
      · exact absurd (apply_other m x q hp) hq
    · exact fun h => ⟨_, h⟩
  rw [only]
  cases x with
  | upCreate p v => simp [apply, Spec.written]
  | upUpdate p v => simp [apply, Spec.written]
  | upDelete p => simp [apply, Spec.written]
  | upRead p =>
    simp only [apply, Spec.written, Msg.path, Msg.upRead.injEq, reduceCtorEq, or_false, exists_eq', true_and,
      false_and, exists_false, Bool.false_eq_true, false_iff, Decidable.not_not, view]
    cases h : m p with
    | none => simp [Map.set]
    | some e => simp [h]; cases e <;> simp
  | downCreate p w =>
    simp [apply, Spec.written, Msg.path, view, Map.set]
    rw [eq_comm]
  | downUpdate p w =>
    simp [apply, Spec.written, Msg.path, view, Map.set]
    rw [eq_comm]
  | downDelete p =>
    simp [apply, Spec.written, Msg.path, view, Map.erase]
    rw [eq_comm]
  | downRead p w =>
    simp only [Spec.written, Msg.path, reduceCtorEq, or_false, exists_false, false_and, not_false_eq_true, iff_true]
    by_cases h : ∃ w', view m p = .value w'
    · obtain ⟨w', h⟩ := h
      rw [late_answer_ignored m p w' w h]
      simp
    · have h' : ∀ w', view m p ≠ .value w' := fun w' e => h ⟨w', e⟩
      have g := answer_fills m p w h'
      rw [g.2, g.1]
      simp only [true_iff]
      exact fun e => h' w e.symm


/-- C25 fails: deleting an absent path and writing the value already there report a change although
nothing shown changes; a read request changes what is shown and reports none. -/
theorem report_violated (p : P) (w : Payload V) :
    ((apply (empty : Map P V) (.downDelete p)).2 = true
      ∧ ∀ q, view (apply (empty : Map P V) (.downDelete p)).1 q = view (empty : Map P V) q)
    ∧ ((apply (runAll [.downCreate p w]) (.downUpdate p w)).2 = true
      ∧ ∀ q, view (apply (runAll [.downCreate p w]) (.downUpdate p w)).1 q = view (runAll [.downCreate p w]) q)
    ∧ ((apply (empty : Map P V) (.upRead p)).2 = false
      ∧ view (apply (empty : Map P V) (.upRead p)).1 p ≠ view (empty : Map P V) p) := by
  refine ⟨⟨rfl, fun q => ?_⟩, ⟨rfl, fun q => ?_⟩, rfl, ?_⟩
  · simp [apply, view, Map.erase, empty]
  · simp only [apply, view, runAll, Map.set, List.foldl_cons, List.foldl_nil]
    by_cases h : q = p <;> simp [h]
  · simp [apply, view, Map.set, empty]

end Nbdl.MapStore
