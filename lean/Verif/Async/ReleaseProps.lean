import Verif.Async.Release
import Verif.Async.Props
/-!
# A pipeline is released once, when it is over (C138)
-/
namespace Nbdl.Async
open Promise (Call)

variable {V E X O : Type}

/-- How far a part of a pipeline goes: to an operation, without having ended, or to an end. -/
def Goes (r : St V E X O × List (Event V E X O)) : Prop :=
  ((∃ rest, r.1 = .waiting rest) ∧ ∀ ev ∈ r.2, ¬ Spec.Last ev)
  ∨ (r.1 = .over ∧ ∃ es ev, r.2 = es ++ [ev] ∧ Spec.Last ev ∧ ∀ e ∈ es, ¬ Spec.Last e)

theorem Goes.cons {s : St V E X O} {es : List (Event V E X O)} (h : Goes (s, es)) (ev : Event V E X O)
    (hn : ¬ Spec.Last ev) : Goes (s, ev :: es) := by
  rcases h with ⟨h1, h2⟩ | ⟨h1, es', ev', he, hl, h2⟩
  · refine .inl ⟨h1, fun e he => ?_⟩
    rcases List.mem_cons.1 he with rfl | he
    · exact hn
    · exact h2 e he
  · refine .inr ⟨h1, ev :: es', ev', by rw [show es = es' ++ [ev'] from he]; rfl, hl, fun e he => ?_⟩
    rcases List.mem_cons.1 he with rfl | he
    · exact hn
    · exact h2 e he

theorem Goes.end_ (ev : Event V E X O) (hl : Spec.Last ev) : Goes ((.over : St V E X O), [ev]) :=
  .inr ⟨rfl, [], ev, rfl, hl, by simp⟩

theorem rejectTo_goes (steps : List (Step V E X O)) (e : E) : Goes ((.over : St V E X O), rejectTo steps e) := by
  induction steps with
  | nil => exact Goes.end_ _ trivial
  | cons s rest ih =>
    cases s with
    | catch_ id acc fn =>
      rw [rejectTo]
      split
      · split
        · exact Goes.cons (Goes.end_ .stopped trivial) (.handled id e) fun h => h
        · rename_i x _
          exact Goes.cons (Goes.end_ (.crashed x) trivial) (.handled id e) fun h => h
      · exact ih
    | _ => exact ih

theorem advance_goes (toE : X → E) (steps : List (Step V E X O)) (v : V) : Goes (advance toE steps v) := by
  induction steps generalizing v with
  | nil => exact Goes.end_ _ trivial
  | cons s rest ih =>
    cases s with
    | promise id start =>
      refine .inl ⟨⟨rest, rfl⟩, fun ev he => ?_⟩
      simp only [advance, List.mem_cons, List.not_mem_nil, or_false] at he
      rcases he with rfl | rfl <;> exact fun h => h
    | func id f =>
      rw [advance]
      split
      · exact Goes.cons (ih _) _ fun h => h
      · rename_i x _
        exact Goes.cons (Goes.end_ (.crashed x) trivial) (.ran id v) fun h => h
    | try_ id f =>
      rw [advance]
      split
      · exact Goes.cons (ih _) _ fun h => h
      · exact Goes.cons (rejectTo_goes _ _) _ fun h => h
    | tap id f =>
      rw [advance]
      split
      · exact Goes.cons (ih _) _ fun h => h
      · rename_i x _
        exact Goes.cons (Goes.end_ (.crashed x) trivial) (.ran id v) fun h => h
    | catch_ id acc fn => exact ih v

theorem settle_goes (toE : X → E) (rest : List (Step V E X O)) (c : Call V E) :
    Goes (settle toE (.waiting rest) c) := by
  cases c with
  | resolve v => exact advance_goes toE rest v
  | reject e => exact rejectTo_goes rest e
  | terminate => exact Goes.end_ _ trivial

theorem statusOf_last (es : List (Event V E X O)) (ev : Event V E X O) : statusOf (es ++ [ev]) = statusOf [ev] := by
  induction es with
  | nil => rfl
  | cons e es ih =>
    cases es with
    | nil => cases e <;> rfl
    | cons x xs => rw [← ih]; cases e <;> rfl

theorem statusOf_end (ev : Event V E X O) (h : Spec.Last ev) : statusOf [ev] ≠ .running := by
  cases ev <;> first | exact absurd h (fun h => h) | (intro h'; cases h')

/-! ## The operations of a pipeline -/

/-- What holds of a pipeline and what it has done: all operations that completed had been started, and exactly one
more has been started as long as it runs; nothing happens after the end. -/
structure Ok (p : Pipe V E X O) (es : List (Event V E X O)) : Prop where
  known : ∀ i ∈ p.done, i < p.asked.length
  count : p.asked.length = p.done.length + (if p.status = .running then 1 else 0)
  before : p.status = .running → ∀ ev ∈ es, ¬ Spec.Last ev
  after : p.status ≠ .running → ∃ es' ev, es = es' ++ [ev] ∧ Spec.Last ev ∧ statusOf [ev] = p.status
    ∧ ∀ e ∈ es', ¬ Spec.Last e

theorem went_ok (p : Pipe V E X O) (es : List (Event V E X O)) (r : St V E X O × List (Event V E X O)) (hr : Goes r)
    (hs : p.status = .running) (hb : ∀ ev ∈ es, ¬ Spec.Last ev) (hk : ∀ i ∈ p.done, i < p.asked.length)
    (hc : p.asked.length = p.done.length) : Ok (p.went r) (es ++ r.2) := by
  rcases hr with ⟨⟨rest, h1⟩, h2⟩ | ⟨h1, es', ev, he, hl, h2⟩
  · have e : p.went r = ⟨p.asked ++ [rest], p.done, p.status⟩ := by unfold Pipe.went; rw [h1]
    rw [e]
    refine ⟨fun i hi => ?_, ?_, fun _ ev hev => ?_, fun h => absurd hs h⟩
    · have := hk i hi
      rw [List.length_append]
      exact Nat.lt_of_lt_of_le this (Nat.le_add_right _ _)
    · rw [if_pos hs, List.length_append, hc]; rfl
    · rcases List.mem_append.1 hev with h | h
      · exact hb ev h
      · exact h2 ev h
  · have e : p.went r = ⟨p.asked, p.done, statusOf [ev]⟩ := by
      unfold Pipe.went; rw [h1, he, statusOf_last]
    have hn := statusOf_end ev hl
    rw [e]
    refine ⟨hk, ?_, fun h => absurd h hn, fun _ => ⟨es ++ es', ev, by rw [he, List.append_assoc], hl, rfl, ?_⟩⟩
    · rw [if_neg hn]; exact hc
    · intro x hx
      rcases List.mem_append.1 hx with h | h
      · exact hb x h
      · exact h2 x h

theorem launch_ok (toE : X → E) (steps : List (Step V E X O)) (v : V) :
    Ok (launch toE steps v).1 (launch toE steps v).2 :=
  went_ok ⟨[], [], .running⟩ [] (advance toE steps v) (advance_goes toE steps v) rfl (by simp) (by simp) rfl

theorem complete_ok (toE : X → E) {p : Pipe V E X O} {es : List (Event V E X O)} (h : Ok p es) (i : Nat) (c : Call V E)
    {q : Pipe V E X O} {fs : List (Event V E X O)} (hc : complete toE p i c = .ok (q, fs)) : Ok q (es ++ fs) := by
  unfold complete at hc
  split at hc
  · cases hc
    rw [List.append_nil]; exact h
  · rename_i rest hrest
    split at hc
    · cases hc
    · cases hc; rw [List.append_nil]; exact h
    · cases hc; rw [List.append_nil]; exact h
    · rename_i hs
      cases hc
      have hlt := (List.getElem?_eq_some_iff.1 hrest).1
      have hl := h.count
      rw [if_pos hs] at hl
      refine went_ok ⟨p.asked, p.done ++ [i], p.status⟩ es _ (settle_goes toE rest c) hs (h.before hs) ?_ ?_
      · intro j hj
        rcases List.mem_append.1 hj with hj | hj
        · exact h.known j hj
        · rw [List.mem_singleton.1 hj]; exact hlt
      · rw [List.length_append]; exact hl

theorem completes_ok (toE : X → E) (h : List (Nat × Call V E)) {p : Pipe V E X O} {es : List (Event V E X O)}
    (ho : Ok p es) {q : Pipe V E X O} {fs : List (Event V E X O)} (hc : completes toE p h = .ok (q, fs)) :
    Ok q (es ++ fs) := by
  induction h generalizing p es fs with
  | nil => cases hc; rw [List.append_nil]; exact ho
  | cons a h ih =>
    obtain ⟨i, c⟩ := a
    rw [completes] at hc
    cases h1 : complete toE p i c with
    | ub => rw [h1] at hc; cases hc
    | ok r =>
      rw [h1] at hc
      obtain ⟨p1, es1⟩ := r
      have hc' : (completes toE p1 h).map (fun r' => (r'.1, es1 ++ r'.2)) = .ok (q, fs) := hc
      cases h2 : completes toE p1 h with
      | ub => rw [h2] at hc'; cases hc'
      | ok r' =>
        rw [h2] at hc'
        obtain ⟨p2, es2⟩ := r'
        cases hc'
        rw [← List.append_assoc]
        exact ih (complete_ok toE ho i c h1) h2

theorem live_ok (toE : X → E) (steps : List (Step V E X O)) (v : V) (h : List (Nat × Call V E))
    {q : Pipe V E X O} {fs : List (Event V E X O)} (hc : live toE steps v h = .ok (q, fs)) : Ok q fs := by
  unfold live at hc
  cases h2 : completes toE (launch toE steps v).1 h with
  | ub => rw [h2] at hc; cases hc
  | ok r =>
    rw [h2] at hc
    cases hc
    exact completes_ok toE h (launch_ok toE steps v) h2

/-! ## Counting -/

theorem covers (n : Nat) (l : List Nat) (h : ∀ i < n, i ∈ l) : n ≤ l.length ∧ (n = l.length → l.Nodup) := by
  induction n generalizing l with
  | zero => exact ⟨Nat.zero_le _, fun h => by rw [List.length_eq_zero_iff.1 h.symm]; exact List.nodup_nil⟩
  | succ n ih =>
    have hn := h n (Nat.lt_succ_self n)
    have hl := List.length_erase_of_mem hn
    have hp := List.length_pos_of_mem hn
    have hc : ∀ l' : List Nat, (∀ i < n, i ∈ l') → ∀ i < n, i ∈ l'.erase n := fun l' h' i hi =>
      (List.mem_erase_of_ne (by omega)).2 (h' i hi)
    have h1 := hc l (fun i hi => h i (by omega))
    obtain ⟨i1, i2⟩ := ih _ h1
    refine ⟨by omega, fun he => ?_⟩
    have hnd := i2 (by omega)
    rw [(List.perm_cons_erase hn).nodup_iff, List.nodup_cons]
    refine ⟨fun hm => ?_, hnd⟩
    have := (ih _ (hc _ h1)).1
    have hl2 := List.length_erase_of_mem hm
    have hp2 := List.length_pos_of_mem hm
    omega

theorem bounded (n : Nat) (l : List Nat) (hn : l.Nodup) (h : ∀ i ∈ l, i < n) : l.length ≤ n := by
  induction n generalizing l with
  | zero =>
    cases l with
    | nil => simp
    | cons a l => exact absurd (h a List.mem_cons_self) (by omega)
  | succ n ih =>
    by_cases hm : n ∈ l
    · have hl := List.length_erase_of_mem hm
      have := ih (l.erase n) (hn.erase n) (fun i hi => by
        have h1 := h i (List.mem_of_mem_erase hi)
        have h2 : i ≠ n := fun e => by subst e; exact List.Nodup.not_mem_erase hn hi
        omega)
      omega
    · have := ih l hn (fun i hi => by
        have h1 := h i hi
        have h2 : i ≠ n := fun e => hm (e ▸ hi)
        omega)
      omega

theorem filled (n : Nat) (l : List Nat) (hn : l.Nodup) (h : ∀ i ∈ l, i < n) (hl : n ≤ l.length) (i : Nat) (hi : i < n) :
    i ∈ l := by
  apply Classical.byContradiction
  intro hc
  have := bounded n (i :: l) (List.nodup_cons.2 ⟨hc, hn⟩) (by
    intro j hj
    rcases List.mem_cons.1 hj with rfl | hj
    · exact hi
    · exact h j hj)
  rw [List.length_cons] at this
  omega

/-! ## C138 -/

/-- A history in which no operation completes twice leads to no use of a pipeline that has been deleted. -/
theorem completes_safe (toE : X → E) (h : List (Nat × Call V E)) (hn : (h.map (·.1)).Nodup) (p : Pipe V E X O)
    (es : List (Event V E X O)) (ho : Ok p es) (hd : p.done.Nodup) (hf : ∀ i ∈ p.done, i ∉ h.map (·.1)) :
    ∃ q fs, completes toE p h = .ok (q, fs) ∧ q.done.Nodup := by
  induction h generalizing p es with
  | nil => exact ⟨p, [], rfl, hd⟩
  | cons a h ih =>
    obtain ⟨i, c⟩ := a
    rw [List.map_cons, List.nodup_cons] at hn
    have hi : i ∉ p.done := fun hm => hf i hm (by simp)
    -- the completion is carried out
    have h1 : ∃ p1 es1, complete toE p i c = .ok (p1, es1) ∧ p1.done.Nodup ∧ ∀ j ∈ p1.done, j ∉ h.map (·.1) := by
      unfold complete
      cases hr : p.asked[i]? with
      | none => exact ⟨p, [], rfl, hd, fun j hj hm => hf j hj (by rw [List.map_cons]; exact List.mem_cons_of_mem _ hm)⟩
      | some rest =>
        have hlt := (List.getElem?_eq_some_iff.1 hr).1
        cases hs : p.status with
        | released =>
          have hc := ho.count
          rw [hs] at hc
          exact absurd (filled _ _ hd ho.known (Nat.le_of_eq hc) i hlt) hi
        | dead => exact ⟨p, [], rfl, hd, fun j hj hm => hf j hj (by rw [List.map_cons]; exact List.mem_cons_of_mem _ hm)⟩
        | unhandled => exact ⟨p, [], rfl, hd, fun j hj hm => hf j hj (by rw [List.map_cons]; exact List.mem_cons_of_mem _ hm)⟩
        | running =>
          have hw : ∀ (q : Pipe V E X O) r, (q.went r).done = q.done := by
            intro q r
            unfold Pipe.went
            split <;> rfl
          refine ⟨_, _, rfl, ?_, fun j hj hm => ?_⟩
          · rw [hw]
            show (p.done ++ [i]).Nodup
            rw [List.nodup_append]
            exact ⟨hd, by simp, fun a ha b hb e => by rw [List.mem_singleton.1 hb] at e; exact hi (e ▸ ha)⟩
          · rw [hw] at hj
            rcases List.mem_append.1 hj with hj | hj
            · exact hf j hj (by rw [List.map_cons]; exact List.mem_cons_of_mem _ hm)
            · rw [List.mem_singleton.1 hj] at hm; exact hn.1 hm
    obtain ⟨p1, es1, e1, d1, f1⟩ := h1
    obtain ⟨q, fs, e2, dq⟩ := ih hn.2 p1 _ (complete_ok toE ho i c e1) d1 f1
    refine ⟨q, es1 ++ fs, ?_, dq⟩
    rw [completes, e1]
    show (completes toE p1 h).map _ = _
    rw [e2]
    rfl

/-- C138, where no operation completes twice: a pipeline is never used after it was deleted; it is deleted exactly when
it has come to its end, once; and if it has, every operation that it started has completed (so one that never
completes leaves the pipeline in memory). -/
theorem released_once_partial (toE : X → E) (steps : List (Step V E X O)) (v : V) (h : List (Nat × Call V E))
    (hn : (h.map (·.1)).Nodup) :
    ∃ p es, live toE steps v h = .ok (p, es)
      ∧ (p.status = .released ↔ ∃ ev ∈ es, (∃ w, ev = .finished w) ∨ ev = .stopped)
      ∧ (∀ es' ev, es = es' ++ [ev] → ∀ e ∈ es', ¬ Spec.Last e)
      ∧ (p.status = .running ↔ ∀ ev ∈ es, ¬ Spec.Last ev)
      ∧ (p.status = .running ↔ ∃ i, i < p.asked.length ∧ i ∉ p.done) := by
  obtain ⟨q, fs, e, hd⟩ := completes_safe toE h hn _ _ (launch_ok toE steps v)
    (by
      have hw : ∀ (q : Pipe V E X O) r, (q.went r).done = q.done := by
        intro q r
        unfold Pipe.went
        split <;> rfl
      unfold launch
      rw [hw]
      exact List.nodup_nil)
    (by
      have hw : ∀ (q : Pipe V E X O) r, (q.went r).done = q.done := by
        intro q r
        unfold Pipe.went
        split <;> rfl
      unfold launch
      rw [hw]
      intro i hi
      exact absurd hi List.not_mem_nil)
  have el : live toE steps v h = .ok (q, (launch toE steps v).2 ++ fs) := by unfold live; rw [e]; rfl
  have ho := live_ok toE steps v h el
  refine ⟨q, _, el, ?_, ?_, ?_, ?_⟩
  · constructor
    · intro hs
      obtain ⟨es', ev, he, hl, hst, _⟩ := ho.after (by rw [hs]; decide)
      refine ⟨ev, by rw [he]; simp, ?_⟩
      rw [hs] at hst
      cases ev with
      | finished w => exact .inl ⟨w, rfl⟩
      | stopped => exact .inr rfl
      | crashed x => cases hst
      | unhandled x => cases hst
      | _ => exact absurd hl fun h => h
    · rintro ⟨ev, hm, hev⟩
      have hlast : Spec.Last ev := by rcases hev with ⟨w, rfl⟩ | rfl <;> trivial
      have hr : q.status ≠ .running := fun hs => ho.before hs ev hm hlast
      obtain ⟨es', ev', he, hl, hst, hb⟩ := ho.after hr
      rw [he] at hm
      rcases List.mem_append.1 hm with hm | hm
      · exact absurd hlast (hb ev hm)
      · rw [← hst, ← List.mem_singleton.1 hm]
        rcases hev with ⟨w, rfl⟩ | rfl <;> rfl
  · intro es' ev he x hx
    by_cases hr : q.status = .running
    · exact ho.before hr x (by rw [he]; exact List.mem_append_left _ hx)
    · obtain ⟨es2, ev2, he2, _, _, hb⟩ := ho.after hr
      rw [he] at he2
      exact hb x ((List.append_inj' he2 rfl).1 ▸ hx)
  · constructor
    · exact ho.before
    · intro hb
      apply Classical.byContradiction
      intro hr
      obtain ⟨es', ev, he, hl, _⟩ := ho.after hr
      exact hb ev (by rw [he]; simp) hl
  · have hc := ho.count
    constructor
    · intro hr
      rw [if_pos hr] at hc
      apply Classical.byContradiction
      intro hno
      have hall : ∀ i < q.asked.length, i ∈ q.done := fun i hi =>
        Classical.byContradiction fun hm => hno ⟨i, hi, hm⟩
      have := (covers _ _ hall).1
      omega
    · rintro ⟨i, hi, hm⟩
      apply Classical.byContradiction
      intro hr
      rw [if_neg hr] at hc
      exact hm (filled _ _ hd ho.known (Nat.le_of_eq hc) i hi)

/-- C138, exactly for histories in which every operation that was started has completed: if there is no use of the
pipeline after its deletion, no operation has completed twice, and the pipeline is over. -/
theorem completed_exact (toE : X → E) (steps : List (Step V E X O)) (v : V) (h : List (Nat × Call V E))
    (p : Pipe V E X O) (es : List (Event V E X O)) (he : live toE steps v h = .ok (p, es))
    (hall : ∀ i < p.asked.length, i ∈ p.done) :
    p.done.Nodup ∧ p.status ≠ .running ∧ ∃ ev ∈ es, Spec.Last ev := by
  have ho := live_ok toE steps v h he
  have hc := ho.count
  have hv := covers _ _ hall
  have hr : p.status ≠ .running := by
    intro hs
    rw [if_pos hs] at hc
    omega
  rw [if_neg hr] at hc
  obtain ⟨es', ev, he', hl, _⟩ := ho.after hr
  exact ⟨hv.2 (by omega), hr, ev, by rw [he']; simp, hl⟩

theorem completes_snoc (toE : X → E) (h : List (Nat × Call V E)) (p q : Pipe V E X O) (fs : List (Event V E X O))
    (e : completes toE p h = .ok (q, fs)) (i : Nat) (c : Call V E) (hu : complete toE q i c = .ub) :
    completes toE p (h ++ [(i, c)]) = .ub := by
  induction h generalizing p fs with
  | nil =>
    cases e
    show (complete toE q i c).bind _ = _
    rw [hu]
    rfl
  | cons a h ih =>
    obtain ⟨j, d⟩ := a
    rw [completes] at e
    rw [List.cons_append, completes]
    cases h1 : complete toE p j d with
    | ub => rfl
    | ok r =>
      rw [h1] at e
      have e' : (completes toE r.1 h).map (fun r' => (r'.1, r.2 ++ r'.2)) = .ok (q, fs) := e
      cases h2 : completes toE r.1 h with
      | ub => rw [h2] at e'; cases e'
      | ok r' =>
        rw [h2] at e'
        cases e'
        show (completes toE r.1 (h ++ [(i, c)])).map _ = _
        rw [ih r.1 r'.2 h2]
        rfl

/-- C138 is violated by an operation that completes again when the pipeline has come to its end: whichever operation it
is, and however it completes, its resolver has been deleted. -/
theorem late_completion_violated (toE : X → E) (steps : List (Step V E X O)) (v : V) (h : List (Nat × Call V E))
    (p : Pipe V E X O) (es : List (Event V E X O)) (he : live toE steps v h = .ok (p, es)) (hs : p.status = .released)
    (i : Nat) (hi : i < p.asked.length) (c : Call V E) : live toE steps v (h ++ [(i, c)]) = .ub := by
  unfold live at he ⊢
  cases h2 : completes toE (launch toE steps v).1 h with
  | ub => rw [h2] at he; cases he
  | ok r =>
    rw [h2] at he
    cases he
    have hu : complete toE r.1 i c = .ub := by
      unfold complete
      rw [List.getElem?_eq_getElem hi]
      simp only [hs]
    rw [completes_snoc toE h _ r.1 r.2 h2 i c hu]
    rfl

/-! ## With operations that complete in turn -/

theorem completes_dead (toE : X → E) (cs : List (Call V E)) (n : Nat) (p : Pipe V E X O) (hp : p.asked.length ≤ n) :
    completes toE p ((cs.zipIdx n).map fun x => (x.2, x.1)) = .ok (p, []) := by
  induction cs generalizing n with
  | nil => rfl
  | cons c cs ih =>
    rw [List.zipIdx_cons, List.map_cons, completes]
    have h1 : complete toE p n c = .ok (p, []) := by
      unfold complete
      rw [List.getElem?_eq_none hp]
    rw [h1]
    show (completes toE p _).map _ = _
    rw [ih (n + 1) (by omega)]
    rfl

theorem completes_agrees (toE : X → E) (cs : List (Call V E)) (asked : List (List (Step V E X O))) (done : List Nat)
    (rest : List (Step V E X O)) :
    ∃ p, completes toE ⟨asked ++ [rest], done, .running⟩ ((cs.zipIdx asked.length).map fun x => (x.2, x.1))
      = .ok (p, (settles toE (.waiting rest) cs).2) := by
  induction cs generalizing asked done rest with
  | nil => exact ⟨_, rfl⟩
  | cons c cs ih =>
    rw [List.zipIdx_cons, List.map_cons, completes, settles]
    have h1 : complete toE ⟨asked ++ [rest], done, .running⟩ asked.length c
        = .ok (Pipe.went ⟨asked ++ [rest], done ++ [asked.length], .running⟩ (settle toE (.waiting rest) c),
          (settle toE (.waiting rest) c).2) := by
      unfold complete
      rw [List.getElem?_append_right (Nat.le_refl _), Nat.sub_self]
      rfl
    rw [h1]
    cases hst : (settle toE (.waiting rest) c).1 with
    | waiting rest' =>
      have hw : Pipe.went ⟨asked ++ [rest], done ++ [asked.length], .running⟩ (settle toE (.waiting rest) c)
          = ⟨(asked ++ [rest]) ++ [rest'], done ++ [asked.length], .running⟩ := by
        unfold Pipe.went; rw [hst]
      obtain ⟨p, hp⟩ := ih (asked ++ [rest]) (done ++ [asked.length]) rest'
      rw [List.length_append] at hp
      refine ⟨p, ?_⟩
      rw [hw]
      show (completes toE _ _).map _ = _
      rw [show asked.length + 1 = asked.length + [rest].length from rfl, hp]
      rfl
    | over =>
      have hw : Pipe.went ⟨asked ++ [rest], done ++ [asked.length], .running⟩ (settle toE (.waiting rest) c)
          = ⟨asked ++ [rest], done ++ [asked.length], statusOf (settle toE (.waiting rest) c).2⟩ := by
        unfold Pipe.went; rw [hst]
      refine ⟨⟨asked ++ [rest], done ++ [asked.length], statusOf (settle toE (.waiting rest) c).2⟩, ?_⟩
      rw [hw]
      show (completes toE _ _).map _ = _
      rw [completes_dead toE cs _ _ (by rw [List.length_append]; exact Nat.le_refl _), settles_over]
      rfl

/-- Where the operations complete one after the other, each once, the pipeline does what `Verif.Async` says. -/
theorem live_agrees (toE : X → E) (steps : List (Step V E X O)) (v : V) (cs : List (Call V E)) :
    ∃ p, live toE steps v (cs.zipIdx.map fun x => (x.2, x.1)) = .ok (p, (run toE steps v cs).2) := by
  unfold live launch run
  cases hst : (advance toE steps v).1 with
  | waiting rest =>
    obtain ⟨p, hp⟩ := completes_agrees toE cs [] [] rest
    refine ⟨p, ?_⟩
    have hw : Pipe.went ⟨[], [], .running⟩ (advance toE steps v) = ⟨[] ++ [rest], [], .running⟩ := by
      unfold Pipe.went; rw [hst]
    rw [hw]
    show (completes toE _ _).map _ = _
    rw [show (0 : Nat) = ([] : List (List (Step V E X O))).length from rfl, hp]
    rfl
  | over =>
    have hw : Pipe.went ⟨[], [], .running⟩ (advance toE steps v) = ⟨[], [], statusOf (advance toE steps v).2⟩ := by
      unfold Pipe.went; rw [hst]
    refine ⟨⟨[], [], statusOf (advance toE steps v).2⟩, ?_⟩
    rw [hw]
    show (completes toE _ _).map _ = _
    rw [completes_dead toE cs 0 _ (Nat.zero_le _), settles_over]
    rfl

/-! ## Cases -/

/-- Two operations, a function and a handler. -/
def twoOperations : List (Step Nat Nat Nat Nat) :=
  [.promise 0 (· + 10), .func 1 (fun v => .ok (v * 2)), .promise 2 (· + 100), .catch_ 3 (fun _ => true) (fun _ => none)]

example : (live id twoOperations 1 [(0, .resolve 5), (1, .resolve 6)]).map (fun r => (r.1.status, r.1.done, r.2))
    = .ok (.released, [0, 1], [.ran 0 1, .asked 11, .ran 1 5, .ran 2 10, .asked 110, .finished 6]) := by decide +kernel
example : (live id twoOperations 1 [(0, .reject 5)]).map (fun r => (r.1.status, r.1.done, r.2))
    = .ok (.released, [0], [.ran 0 1, .asked 11, .handled 3 5, .stopped]) := by decide +kernel
-- the first operation completes twice: the second part runs twice, and the second end is undefined behaviour
example : (live id twoOperations 1 [(0, .resolve 5), (0, .resolve 7)]).map (fun r => (r.1.status, r.1.done, r.2))
    = .ok (.running, [0, 0], [.ran 0 1, .asked 11, .ran 1 5, .ran 2 10, .asked 110, .ran 1 7, .ran 2 14, .asked 114]) := by
  decide +kernel
example : (live id twoOperations 1 [(0, .resolve 5), (0, .resolve 7), (1, .resolve 6), (2, .resolve 6)]).map (fun _ => ())
    = .ub := by decide +kernel
-- an operation that never completes
example : (live id twoOperations 1 [(0, .resolve 5)]).map (fun r => (r.1.status, r.1.asked.length, r.1.done))
    = .ok (.running, 2, [0]) := by decide +kernel

/-- C138 as stated is violated: an operation that completes twice. -/
theorem twice_violated : ∃ (steps : List (Step Nat Nat Nat Nat)) (h : List (Nat × Call Nat Nat)),
    live id steps 1 h = .ub :=
  ⟨twoOperations, [(0, .resolve 5), (0, .resolve 7), (1, .resolve 6), (2, .resolve 6)], by
    have : (live id twoOperations 1 [(0, .resolve 5), (0, .resolve 7), (1, .resolve 6), (2, .resolve 6)]).map (fun _ => ())
      = .ub := by decide +kernel
    cases h : live id twoOperations 1 [(0, .resolve 5), (0, .resolve 7), (1, .resolve 6), (2, .resolve 6)] with
    | ok r => rw [h] at this; cases this
    | ub => rfl⟩

end Nbdl.Async
