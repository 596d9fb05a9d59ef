import Verif.Dom.Lemmas
/-!
# Rendering
-/
namespace Nbdl.Dom
open Spec

variable {S : Type}

theorem runAll_single (s : S) (h : Dom) (p : Nat) (x : Instr S) :
    runAll s h (some p) [x] = (run s h p x).map fun r => (r.1, r.2.1, [r.2.2]) := by
  simp only [runAll, bind]
  cases run s h p x <;> rfl

theorem lastOf_new {α : Type} (s : S) (f : S → Option α) : lastOf (s, []) f = f s := by
  simp only [lastOf, List.findSome?]
  cases f s <;> rfl

theorem lastOf_next {α : Type} (s : S) (o : S × List S) (f : S → Option α) :
    lastOf (s, o.1 :: o.2) f = (f s).or (lastOf o f) := by
  rw [lastOf, List.findSome?_cons]
  cases f s <;> rfl

/-- New nodes `fp` were made, and some of them, `ids`, appended to `p`. -/
structure Fresh (h h' : Dom) (p : Nat) (ids fp : List Nat) (an cn : List Text) : Prop where
  nodup : fp.Nodup
  fresh : ∀ i ∈ fp, h.next ≤ i ∧ i < h'.next
  chg : Chg h h' p [] an cn
  children : (h'.node p).children = (h.node p).children ++ ids

theorem Fresh.refl (h : Dom) (p : Nat) : Fresh h h p [] [] [] [] :=
  ⟨List.nodup_nil, fun _ hi => (by simp at hi), .refl .., by simp⟩

theorem Fresh.trans {h h1 h2 : Dom} {p : Nat} {i1 i2 f1 f2 : List Nat} {a1 a2 c1 c2 : List Text}
    (a : Fresh h h1 p i1 f1 a1 c1) (b : Fresh h1 h2 p i2 f2 a2 c2) :
    Fresh h h2 p (i1 ++ i2) (f1 ++ f2) (a1 ++ a2) (c1 ++ c2) where
  nodup := by
    refine List.nodup_append.2 ⟨a.nodup, b.nodup, fun x hx y hy e => ?_⟩
    have := a.fresh x hx
    have := b.fresh y hy
    omega
  fresh i hi := by
    have := a.chg.next
    have := b.chg.next
    rcases List.mem_append.1 hi with hi | hi
    · have := a.fresh i hi
      omega
    · have := b.fresh i hi
      omega
  chg := a.chg.trans b.chg (by simp)
  children := by rw [b.children, a.children, List.append_assoc]

/-- What was built before is not touched. -/
theorem Fresh.keep {h h1 h2 : Dom} {p : Nat} {i1 i2 f1 f2 : List Nat} {a1 a2 c1 c2 : List Text} (hp : p < h.next)
    (a : Fresh h h1 p i1 f1 a1 c1) (b : Fresh h1 h2 p i2 f2 a2 c2) : ∀ i ∈ f1, h2.node i = h1.node i := by
  intro i hi
  have := a.fresh i hi
  exact b.chg.other i this.2 (by simp) (by omega)

theorem fresh_create (h : Dom) (k : Kind) (p : Nat) (hp : p < h.next) :
    Fresh h ((h.create k).append p h.next) p [h.next] [h.next] [] [] := by
  obtain ⟨h1, h2, h3, -⟩ := create_append h k p hp
  refine ⟨by simp, ?_, create_append_chg h k p hp, by rw [h3]⟩
  intro i hi
  simp at hi
  omega

theorem Own.fresh {h h1 h2 : Dom} {p : Nat} {ids fp own : List Nat} {an cn : List Text} (hp : p < h.next)
    (a : Fresh h h1 p ids fp an cn) (b : Own h1 h2 own) (ho : ∀ i ∈ own, i ∈ fp) (hn : h2.next = h1.next) :
    Fresh h h2 p ids fp an cn := by
  have hpo : p ∉ own := fun hi => by have := a.fresh p (ho p hi); omega
  have hp1 : p < h1.next := Nat.lt_of_lt_of_le hp a.chg.next
  refine ⟨a.nodup, fun i hi => hn ▸ a.fresh i hi, ?_, by rw [b.other p hp1 hpo, a.children]⟩
  have := a.chg.trans (b.chg hpo hp1 [] []) fun i hi => .inr (a.fresh i (ho i hi)).1
  simpa using this

theorem updateText_own (s : S) (h : Dom) (f : S → Option Text) (i : Nat) :
    Own h (updateText s h f i) [i] ∧ (updateText s h f i).next = h.next := by
  rw [updateText]
  split
  · exact ⟨setKind_own .., rfl⟩
  · exact ⟨.refl .., rfl⟩

theorem updateText_parent (s : S) (h : Dom) (f : S → Option Text) (i j : Nat) :
    ((updateText s h f i).node j).parent = (h.node j).parent := by
  rw [updateText]
  split
  · simp only [Dom.setKind, node_set]; split <;> simp_all
  · rfl

mutual
theorem render_text (s : S) (p : Nat) : ∀ (t : TextSpec S) (h : Dom), p < h.next →
    ∃ h' ids ms, runAll s h (some p) (flattenText t) = .ok (h', some p, ms) ∧ BuiltText h' (s, []) t ids ms ∧
      Fresh h h' p ids ids [] [] ∧ ∀ i ∈ ids, (h'.node i).parent = some p
  | .const v, h, hp => by
    obtain ⟨-, -, -, h4⟩ := create_append h (.text v) p hp
    refine ⟨_, [h.next], _, by rw [flattenText, runAll_single]; rfl, ?_, fresh_create h (.text v) p hp, ?_⟩
    · rw [BuiltText]
      exact ⟨_, rfl, rfl, by rw [h4]⟩
    · intro i hi
      simp only [List.mem_singleton] at hi
      rw [hi, h4]
  | .path f, h, hp => by
    obtain ⟨-, -, -, h4⟩ := create_append h (.text []) p hp
    refine ⟨_, [h.next], _, by rw [flattenText, runAll_single]; rfl, ?_,
      Own.fresh hp (fresh_create h (.text []) p hp) (updateText_own s _ f h.next).1 (by simp) (updateText_own s _ f h.next).2, ?_⟩
    · rw [BuiltText]
      refine ⟨_, rfl, rfl, ?_⟩
      rw [lastOf_new]
      simp only [updateText]
      cases f s with
      | some v => simp [Dom.setKind]
      | none => simp only [h4]; rfl
    · intro i hi
      simp only [List.mem_singleton] at hi
      rw [hi, updateText_parent, h4]
  | .concat ts, h, hp => by
    rw [flattenText]
    obtain ⟨h', ids, ms, h1, h2, h3⟩ := render_texts s p ts h hp
    exact ⟨h', ids, ms, h1, by rw [BuiltText]; exact h2, h3⟩
theorem render_texts (s : S) (p : Nat) : ∀ (ts : List (TextSpec S)) (h : Dom), p < h.next →
    ∃ h' ids ms, runAll s h (some p) (flattenTexts ts) = .ok (h', some p, ms) ∧
      BuiltTexts h' (s, []) ts ids ms ∧ Fresh h h' p ids ids [] [] ∧ ∀ i ∈ ids, (h'.node i).parent = some p
  | [], h, hp => ⟨h, [], [], rfl, by rw [BuiltTexts]; exact ⟨rfl, rfl⟩, .refl h p, by simp⟩
  | t :: ts, h, hp => by
    obtain ⟨h1, i1, m1, e1, b1, f1, p1⟩ := render_text s p t h hp
    obtain ⟨h2, i2, m2, e2, b2, f2, p2⟩ := render_texts s p ts h1 (Nat.lt_of_lt_of_le hp f1.chg.next)
    have hk := Fresh.keep hp f1 f2
    refine ⟨h2, i1 ++ i2, m1 ++ m2, ?_, ?_, Fresh.trans f1 f2, ?_⟩
    · rw [flattenTexts, runAll_append, e1]
      simp only [Except.bind, e2]
      rfl
    · rw [BuiltTexts]
      exact ⟨i1, i2, m1, m2, rfl, rfl, builtText_frame t b1 fun i hi => by rw [hk i hi], b2⟩
    · intro i hi
      rcases List.mem_append.1 hi with hi | hi
      · rw [hk i hi, p1 i hi]
      · exact p2 i hi
end

/-! ### Items -/

def Renders (s : S) (h : Dom) (p : Nat) (x : Item S) : Prop :=
  ∃ h' ids fp ms, runAll s h (some p) (flatten x) = .ok (h', some p, ms) ∧ Built h' (s, []) p x ids fp ms ∧
    Fresh h h' p ids fp (attrNames [x]) (classNames [x]) ∧ (OneNode x → ∀ i ∈ ids, (h'.node i).parent = some p)

theorem attr_ids {h : Dom} {o : S × List S} {p : Nat} {x : Item S} {ids fp ms} (hx : IsAttr x)
    (hb : Built h o p x ids fp ms) : ids = [] := by
  cases x <;> first | exact hx.elim | (rw [Built] at hb; exact hb.1)

theorem builtEach_length {h : Dom} {o : S × List S} : ∀ (xs : List (Item S)) {cs fp mss},
    BuiltEach h o xs cs fp mss → cs.length = xs.length
  | [], _, _, _, hb => by rw [BuiltEach] at hb; rw [hb.1]; rfl
  | x :: xs, _, _, _, hb => by
    rw [BuiltEach] at hb
    obtain ⟨c, cs', f1, f2, m, ms', rfl, -, -, -, -, h2⟩ := hb
    simp [builtEach_length xs h2]

/-- The elements of a loop. -/
theorem render_loop (p : Nat) (body : Item S) (h0 : ¬ IsAttr body)
    (hr : ∀ s h, InRange s body → p < h.next → Renders s h p body) :
    ∀ (ss : List S) (h : Dom), (∀ s ∈ ss, InRange s body) → p < h.next →
    ∃ (h' : Dom) (parts : List (S × List Nat × List Nat × List (Inst S))), renderItems (fun s h => (runAll s h (some p) (flatten body)).map (·.1)) ss h = .ok h' ∧
      parts.map (·.1) = ss ∧ (∀ q ∈ parts, Built h' (q.1, []) p body q.2.1 q.2.2.1 q.2.2.2) ∧
      Fresh h h' p (parts.flatMap (·.2.1)) (parts.flatMap (·.2.2.1)) [] []
  | [], h, _, _ => ⟨h, [], rfl, rfl, by simp, .refl h p⟩
  | s :: ss, h, hs, hp => by
    obtain ⟨h1, i1, f1, m1, e1, b1, r1, -⟩ := hr s h (hs s (by simp)) hp
    rw [(notAttr_names h0).1, (notAttr_names h0).2] at r1
    obtain ⟨h2, parts, e2, e3, b2, r2⟩ := render_loop p body h0 hr ss h1 (fun s' hs' => hs s' (by simp [hs']))
      (Nat.lt_of_lt_of_le hp r1.chg.next)
    refine ⟨h2, (s, i1, f1, m1) :: parts, ?_, by simp [e3], ?_, Fresh.trans r1 r2⟩
    · simp only [renderItems, e1, bind, Except.map, Except.bind]
      exact e2
    · intro q hq
      rcases List.mem_cons.1 hq with rfl | hq
      · refine built_frame body b1 (Fresh.keep hp r1 r2) ?_ ?_
        · rw [(notAttr_names h0).1]; simp
        · rw [(notAttr_names h0).2]; simp
      · exact b2 q hq

/-- A node is moved. -/
theorem append_move {h : Dom} {p c q : Nat} (hq : (h.node c).parent = some q) (h1 : c ≠ p) (h2 : q ≠ p) (h3 : c ≠ q) :
    (∀ i, i ≠ c → i ≠ p → i ≠ q → (h.append p c).node i = h.node i) ∧
      (h.append p c).node p = { h.node p with children := (h.node p).children ++ [c] } ∧
      (h.append p c).node c = { h.node c with parent := some p } := by
  simp only [Dom.append, Dom.detach, hq]
  refine ⟨fun i a b d => by simp [a, b, d], ?_, ?_⟩
  · simp [Ne.symm h1, Ne.symm h2]
  · simp [h1, h3]

mutual
theorem render_item : ∀ (x : Item S) (s : S) (h : Dom) (p : Nat), Shape x → InRange s x → p < h.next →
    (Filler x → (h.node p).children = []) → (∀ n ∈ attrNames [x], (h.node p).attrs n = none) →
    (∀ n ∈ classNames [x], (h.node p).classes n = false) → Renders s h p x
  | .elem tag items, s, h, p, hs, hr, hp, _, _, _ => by
    rw [Shape] at hs
    rw [InRange] at hr
    obtain ⟨a1, a2, a3, a4⟩ := create_append h (.elem tag) p hp
    have hne : h.next ≠ p := by omega
    obtain ⟨h2, ids, fp, ms, e, b, r⟩ := render_all items s ((h.create (.elem tag)).append p h.next) h.next hs.1 hr
      (by omega) (by intro x _ _; rw [a4]) (by intro n _; rw [a4]) (by intro n _; rw [a4]) hs.2.1 hs.2.2.1 hs.2.2.2
    have hpar : (h2.node h.next).parent = some p := by rw [r.chg.parent, a4]
    have hch : (h2.node h.next).children = ids := by rw [r.children, a4]; rfl
    refine ⟨h2, [h.next], h.next :: fp, .static :: (ms ++ [.static]), ?_, ?_, ?_, ?_⟩
    · rw [flatten]
      simp only [runAll, run, bind, Except.bind, runAll_append, e, hpar]
      rfl
    · rw [Built]
      refine ⟨_, fp, ms, rfl, rfl, rfl, by rw [r.chg.kind, a4], fun n hn => by rw [r.chg.attrs n hn, a4],
        fun n hn => by rw [r.chg.classes n hn, a4], ?_⟩
      rw [hch]
      exact b
    · have hp1 : p < ((h.create (.elem tag)).append p h.next).next := by omega
      have hpk : h2.node p = ((h.create (.elem tag)).append p h.next).node p := r.chg.other p hp1 (by simp) (Ne.symm hne)
      refine ⟨List.nodup_cons.2 ⟨fun hi => ?_, r.nodup⟩, fun i hi => ?_, ?_, by rw [hpk, a3]⟩
      · have := r.fresh _ hi
        omega
      · have := r.chg.next
        rcases List.mem_cons.1 hi with rfl | hi
        · omega
        · have := r.fresh _ hi
          omega
      · refine Chg.trans (an' := []) (cn' := []) (create_append_chg h (.elem tag) p hp)
          (r.chg.own.chg (by simp [Ne.symm hne]) hp1 [] []) (by simp)
    · intro _ i hi
      simp only [List.mem_singleton] at hi
      rw [hi, hpar]
  | .text t, s, h, p, _, _, hp, _, _, _ => by
    obtain ⟨h', ids, ms, e, b, r, q⟩ := render_text s p t h hp
    exact ⟨h', ids, ids, ms, by rw [flatten, e], by rw [Built]; exact ⟨rfl, b⟩, r, fun _ => q⟩
  | .attr n v, s, h, p, _, _, hp, _, _, _ => by
    refine ⟨h.setAttr p n (some v), [], [], [.static], by rw [flatten, runAll_single]; rfl, ?_, ?_, fun _ i hi => by simp at hi⟩
    · rw [Built]; exact ⟨rfl, rfl, rfl, by simp [Dom.setAttr]⟩
    · exact ⟨by simp, by simp, setAttr_chg .., by simp⟩
  | .attrDyn n f, s, h, p, _, _, hp, _, _, _ => by
    refine ⟨h.setAttr p n (some (f s)), [], [], [.attrDyn n f p], by rw [flatten, runAll_single]; rfl, ?_, ?_, fun _ i hi => by simp at hi⟩
    · rw [Built]; exact ⟨rfl, rfl, rfl, by simp [Dom.setAttr]⟩
    · exact ⟨by simp, by simp, setAttr_chg .., by simp⟩
  | .attrIf n f, s, h, p, _, _, hp, _, ha, _ => by
    refine ⟨updateAttrIf s h n f p, [], [], [.attrIf n f p], by rw [flatten, runAll_single]; rfl, ?_, ?_, fun _ i hi => by simp at hi⟩
    · rw [Built]
      refine ⟨rfl, rfl, rfl, ?_⟩
      rw [lastOf_new, updateAttrIf]
      split <;> rename_i hf <;> simp [Dom.setAttr, hf]
      exact ha n (by simp [attrNames])
    · rw [updateAttrIf]
      split
      · exact ⟨by simp, by simp, setAttr_chg .., by simp⟩
      · exact ⟨by simp, by simp, setAttr_chg .., by simp⟩
      · exact ⟨by simp, by simp, .refl .., by simp⟩
  | .classIf n f, s, h, p, _, _, hp, _, _, hc => by
    refine ⟨updateClassIf s h n f p, [], [], [.classIf n f p], by rw [flatten, runAll_single]; rfl, ?_, ?_, fun _ i hi => by simp at hi⟩
    · rw [Built]
      refine ⟨rfl, rfl, rfl, ?_⟩
      rw [lastOf_new, updateClassIf]
      split <;> rename_i hf
      · simp [Dom.setClass, hf]
      · rw [hc n (by simp [classNames]), hf]; rfl
    · rw [updateClassIf]
      split
      · exact ⟨by simp, by simp, setClass_chg .., by simp⟩
      · exact ⟨by simp, by simp, .refl .., by simp⟩
  | .classWhen n f, s, h, p, _, _, hp, _, _, _ => by
    refine ⟨h.setClass p n (f s), [], [], [.classWhen n f p], by rw [flatten, runAll_single]; rfl, ?_, ?_, fun _ i hi => by simp at hi⟩
    · rw [Built]; exact ⟨rfl, rfl, rfl, by simp [Dom.setClass]⟩
    · exact ⟨by simp, by simp, setClass_chg .., by simp⟩
  | .branch f bs, s, h, p, hs, hr, hp, _, _, _ => by
    rw [Shape] at hs
    rw [InRange] at hr
    obtain ⟨⟨i, hi, hlt⟩, hr⟩ := hr
    obtain ⟨h2, cs, fp, mss, e, b, r, hpar⟩ := render_branches bs s (h.create (.elem "span".toList)) h.next hs.1 hs.2 hr
      (by simp)
    have hlen := builtEach_length bs b
    have hn : h.next < h2.next := by have := r.chg.next; simp at this; omega
    have hfp : ∀ j ∈ fp, h.next < j := fun j hj => by have := r.fresh j hj; simp at this; omega
    have hci : cs[i]? = some (cs[i]'(by omega)) := by simp
    generalize cs[i]'(by omega) = c at hci
    have hcm := List.mem_of_getElem? hci
    have hcf := builtEach_sub bs b c hcm
    have hcp := hpar c hcm
    have hcgt := hfp c hcf
    obtain ⟨m1, m2, m3⟩ := append_move (p := p) hcp (by omega) (by omega) (by omega)
    have hpk : h2.node p = h.node p := by
      rw [r.chg.other p (by simp; omega) (by simp) (by omega)]
      simp [show p ≠ h.next by omega]
    refine ⟨h2.append p c, [c], h.next :: fp, [.branch f p (some i) (cs.map some) mss], ?_, ?_, ?_, fun hx => hx.elim⟩
    · rw [flatten, runAll_single]
      have : updateBranch s h2 f p none (cs.map some) = .ok (h2.append p c) := by
        rw [updateBranch, hi]
        simp [hci]
      simp only [run, bind, Except.bind, e, this, hi]
      rfl
    · rw [Built]
      refine ⟨h.next, cs, mss, i, c, fp, rfl, hci, rfl, rfl, ?_, by rw [m3], ?_, ?_⟩
      · refine builtEach_frame_one bs b r.nodup (fun j hj hjc => m1 j ?_ ?_ ?_) fun j hj => ?_
        · rintro rfl; exact hjc hcm
        · have := hfp j hj; omega
        · have := hfp j hj; omega
        · by_cases hjc : j = c
          · subst hjc; rw [m3]; exact ⟨rfl, rfl, rfl, rfl⟩
          · have := hfp j (builtEach_sub bs b j hj)
            exact .of_eq (m1 j hjc (by omega) (by omega))
      · exact hi
      · intro c' hc' hne
        have := hfp c' (builtEach_sub bs b c' hc')
        rw [m1 c' hne (by omega) (by omega), hpar c' hc']
        exact .inr rfl
    · refine ⟨List.nodup_cons.2 ⟨fun hj => ?_, r.nodup⟩, fun j hj => ?_, ?_, by rw [m2, hpk]⟩
      · have := hfp _ hj; omega
      · rw [next_append]
        rcases List.mem_cons.1 hj with rfl | hj
        · omega
        · have := hfp j hj
          have := r.fresh j hj
          omega
      · refine ⟨by rw [next_append]; omega, fun j h1 _ h3 => ?_, by rw [m2, hpk], by rw [m2, hpk], fun n _ => by rw [m2, hpk],
          fun n _ => by rw [m2, hpk]⟩
        rw [m1 j (by omega) h3 (by omega), r.chg.other j (by simp; omega) (by simp) (by omega)]
        simp [show j ≠ h.next by omega]
  | .forEach f body, s, h, p, hs, hr, hp, hf, _, _ => by
    rw [Shape] at hs
    rw [InRange] at hr
    have hf := hf trivial
    obtain ⟨c1, c2, c3⟩ := clear_chg h p [] (by simp [hf]) (by simp)
    obtain ⟨h', parts, e, e2, b, r⟩ := render_loop p body hs.2.1
      (fun s h hr hp => render_item body s h p hs.1 hr hp (fun x => absurd x hs.2.2)
        (by rw [(notAttr_names hs.2.1).1]; simp) (by rw [(notAttr_names hs.2.1).2]; simp))
      ((f s).getD []) (h.clear p) hr (by omega)
    refine ⟨h', parts.flatMap (·.2.1), parts.flatMap (·.2.2.1), [.forEach f (flatten body) p], ?_, ?_, ?_, fun hx => hx.elim⟩
    · rw [flatten, runAll_single]
      simp only [run, bind, Except.bind, e]
      rfl
    · rw [Built]
      exact ⟨parts, rfl, rfl, rfl, hs.2.1, b, e2⟩
    · refine ⟨r.nodup, fun i hi => c3 ▸ r.fresh i hi, Chg.trans (an' := []) (cn' := []) c1 r.chg (by simp), ?_⟩
      rw [r.children, c2, hf]
  | .html v, s, h, p, _, _, hp, hf, _, _ => by
    have hf := hf trivial
    obtain ⟨c1, c2, c3⟩ := clear_chg h p [] (by simp [hf]) (by simp)
    have r := fresh_create (h.clear p) (.raw v) p (by omega)
    obtain ⟨-, -, -, a4⟩ := create_append (h.clear p) (.raw v) p (by omega)
    rw [c3] at r a4
    refine ⟨_, [h.next], [h.next], [.static], by rw [flatten, runAll_single]; rfl, ?_, ?_, fun hx => hx.elim⟩
    · rw [Built]
      exact ⟨_, rfl, rfl, rfl, by rw [a4]⟩
    · refine ⟨r.nodup, fun i hi => c3 ▸ r.fresh i hi, Chg.trans (an' := []) (cn' := []) c1 r.chg (by simp), ?_⟩
      rw [r.children, c2, hf]
  | .noop, s, h, p, _, _, hp, _, _, _ =>
    ⟨h, [], [], [], rfl, by rw [Built]; exact ⟨rfl, rfl, rfl⟩, .refl h p, fun hx => hx.elim⟩
theorem render_all : ∀ (xs : List (Item S)) (s : S) (h : Dom) (p : Nat), ShapeAll xs → InRangeAll s xs → p < h.next →
    (∀ x ∈ xs, Filler x → (h.node p).children = []) → (∀ n ∈ attrNames xs, (h.node p).attrs n = none) →
    (∀ n ∈ classNames xs, (h.node p).classes n = false) → (attrNames xs).Nodup → (classNames xs).Nodup →
    (xs.Pairwise fun x y => (Filler x → IsAttr y) ∧ (Filler y → IsAttr x)) →
    ∃ h' ids fp ms, runAll s h (some p) (flattenAll xs) = .ok (h', some p, ms) ∧ BuiltAll h' (s, []) p xs ids fp ms ∧
      Fresh h h' p ids fp (attrNames xs) (classNames xs)
  | [], s, h, p, _, _, _, _, _, _, _, _, _ => ⟨h, [], [], [], rfl, by rw [BuiltAll]; exact ⟨rfl, rfl, rfl⟩, .refl h p⟩
  | x :: xs, s, h, p, hs, hr, hp, hf, ha, hc, na, nc, hw => by
    rw [ShapeAll] at hs
    rw [InRangeAll] at hr
    rw [attrNames_cons] at ha na
    rw [classNames_cons] at hc nc
    rw [List.nodup_append] at na nc
    rw [List.pairwise_cons] at hw
    obtain ⟨h1, i1, f1, m1, e1, b1, r1, -⟩ := render_item x s h p hs.1 hr.1 hp (hf x (by simp))
      (fun n hn => ha n (by simp [hn])) (fun n hn => hc n (by simp [hn]))
    have da : ∀ n ∈ attrNames xs, n ∉ attrNames [x] := fun n h1 h2 => na.2.2 n h2 n h1 rfl
    have dc : ∀ n ∈ classNames xs, n ∉ classNames [x] := fun n h1 h2 => nc.2.2 n h2 n h1 rfl
    obtain ⟨h2, i2, f2, m2, e2, b2, r2⟩ := render_all xs s h1 p hs.2 hr.2 (Nat.lt_of_lt_of_le hp r1.chg.next)
      (fun y hy hfy => by
        rw [r1.children, hf y (by simp [hy]) hfy, attr_ids ((hw.1 y hy).2 hfy) b1]; rfl)
      (fun n hn => by rw [r1.chg.attrs n (da n hn)]; exact ha n (by simp [hn]))
      (fun n hn => by rw [r1.chg.classes n (dc n hn)]; exact hc n (by simp [hn])) na.2.1 nc.2.1 hw.2
    refine ⟨h2, i1 ++ i2, f1 ++ f2, m1 ++ m2, ?_, ?_, ?_⟩
    · rw [flattenAll, runAll_append, e1]
      simp only [Except.bind, e2]
      rfl
    · rw [BuiltAll]
      refine ⟨i1, i2, f1, f2, m1, m2, rfl, rfl, rfl, ?_, b2⟩
      exact built_frame x b1 (Fresh.keep hp r1 r2) (fun n hn => r2.chg.attrs n fun h => da n h hn)
        (fun n hn => r2.chg.classes n fun h => dc n h hn)
    · rw [attrNames_cons x xs, classNames_cons x xs]
      exact Fresh.trans r1 r2
theorem render_branches : ∀ (xs : List (Item S)) (s : S) (h : Dom) (p : Nat), ShapeAll xs → (∀ x ∈ xs, OneNode x) →
    InRangeAll s xs → p < h.next →
    ∃ h' cs fp mss, runBranches s h p (flattenEach xs) = .ok (h', cs.map some, mss) ∧
      BuiltEach h' (s, []) xs cs fp mss ∧ Fresh h h' p cs fp [] [] ∧ ∀ i ∈ cs, (h'.node i).parent = some p
  | [], s, h, p, _, _, _, _ => ⟨h, [], [], [], rfl, by rw [BuiltEach]; exact ⟨rfl, rfl, rfl⟩, .refl h p, by simp⟩
  | x :: xs, s, h, p, hs, ho, hr, hp => by
    rw [ShapeAll] at hs
    rw [InRangeAll] at hr
    have h0 := ho x (by simp)
    obtain ⟨h1, i1, f1, m1, e1, b1, r1, p1⟩ := render_item x s h p hs.1 hr.1 hp (by cases x <;> first | exact h0.elim | exact fun h => h.elim)
      (by rw [(one_names h0).1]; simp) (by rw [(one_names h0).2]; simp)
    obtain ⟨c, rfl⟩ := one_id h0 b1
    rw [(one_names h0).1, (one_names h0).2] at r1
    obtain ⟨h2, cs, f2, mss, e2, b2, r2, p2⟩ := render_branches xs s h1 p hs.2 (fun y hy => ho y (by simp [hy])) hr.2
      (Nat.lt_of_lt_of_le hp r1.chg.next)
    have hk := Fresh.keep hp r1 r2
    refine ⟨h2, c :: cs, f1 ++ f2, m1 :: mss, ?_, ?_, Fresh.trans r1 r2, ?_⟩
    · rw [flattenEach]
      simp only [runBranches, bind, e1, Except.bind, e2, r1.children]
      simp
    · rw [BuiltEach]
      refine ⟨c, cs, f1, f2, m1, mss, rfl, rfl, rfl, h0, ?_, b2⟩
      refine built_frame x (built_one h0 b1) hk ?_ ?_
      · rw [(one_names h0).1]; simp
      · rw [(one_names h0).2]; simp
    · intro i hi
      rcases List.mem_cons.1 hi with rfl | hi
      · rw [hk i (built_sub x b1 i (by simp)), p1 h0 i (by simp)]
      · exact p2 i hi
end

end Nbdl.Dom
