import Verif.Dom.Render
/-!
# Updates
-/
namespace Nbdl.Dom
open Spec

variable {S : Type}

theorem updateAll_single (s : S) (h : Dom) (m : Inst S) :
    updateAll s h [m] = (update s h m).map fun r => (r.1, [r.2]) := by
  simp only [updateAll, bind]
  cases update s h m <;> rfl

/-! ### Texts -/

mutual
theorem update_text (s : S) (o : S × List S) : ∀ (t : TextSpec S) (h : Dom) {ids ms}, BuiltText h o t ids ms →
    ids.Nodup → (∀ i ∈ ids, i < h.next) →
    ∃ h', updateAll s h ms = .ok (h', ms) ∧ BuiltText h' (s, o.1 :: o.2) t ids ms ∧ Own h h' ids ∧ h'.next = h.next ∧
      ∀ j, (h'.node j).parent = (h.node j).parent
  | .const v, h, _, _, hb, _, _ => by
    rw [BuiltText] at hb
    obtain ⟨i, rfl, rfl, hk⟩ := hb
    exact ⟨h, rfl, by rw [BuiltText]; exact ⟨i, rfl, rfl, hk⟩, .refl .., rfl, fun _ => rfl⟩
  | .path f, h, _, _, hb, _, _ => by
    rw [BuiltText] at hb
    obtain ⟨i, rfl, rfl, hk⟩ := hb
    refine ⟨updateText s h f i, rfl, ?_, (updateText_own s h f i).1, (updateText_own s h f i).2, updateText_parent s h f i⟩
    rw [BuiltText]
    refine ⟨i, rfl, rfl, ?_⟩
    rw [lastOf_next, updateText]
    split <;> rename_i hf
    · simp [Dom.setKind, hf]
    · rw [hf, Option.none_or, hk]
  | .concat ts, h, _, _, hb, hn, hl => by
    rw [BuiltText] at hb
    obtain ⟨h', h1, h2, h3⟩ := update_texts s o ts h hb hn hl
    exact ⟨h', h1, by rw [BuiltText]; exact h2, h3⟩
theorem update_texts (s : S) (o : S × List S) : ∀ (ts : List (TextSpec S)) (h : Dom) {ids ms},
    BuiltTexts h o ts ids ms → ids.Nodup → (∀ i ∈ ids, i < h.next) →
    ∃ h', updateAll s h ms = .ok (h', ms) ∧ BuiltTexts h' (s, o.1 :: o.2) ts ids ms ∧ Own h h' ids ∧ h'.next = h.next ∧
      ∀ j, (h'.node j).parent = (h.node j).parent
  | [], h, _, _, hb, _, _ => by
    rw [BuiltTexts] at hb
    obtain ⟨rfl, rfl⟩ := hb
    exact ⟨h, rfl, by rw [BuiltTexts]; exact ⟨rfl, rfl⟩, .refl .., rfl, fun _ => rfl⟩
  | t :: ts, h, _, _, hb, hn, hl => by
    rw [BuiltTexts] at hb
    obtain ⟨i1, i2, m1, m2, rfl, rfl, b1, b2⟩ := hb
    rw [List.nodup_append] at hn
    obtain ⟨h1, e1, c1, d1, n1, q1⟩ := update_text s o t h b1 hn.1 (fun i hi => hl i (by simp [hi]))
    have b2' := builtTexts_frame (h' := h1) ts b2 fun i hi => by
      rw [d1.other i (hl i (by simp [hi])) fun hi1 => hn.2.2 i hi1 i hi rfl]
    obtain ⟨h2, e2, c2, d2, n2, q2⟩ := update_texts s o ts h1 b2' hn.2.1 (fun i hi => n1 ▸ hl i (by simp [hi]))
    have c1' := builtText_frame (h' := h2) t c1 fun i hi => by
      rw [d2.other i (n1 ▸ hl i (by simp [hi])) fun hi2 => hn.2.2 i hi i hi2 rfl]
    refine ⟨h2, ?_, ?_, ?_, by rw [n2, n1], fun j => by rw [q2, q1]⟩
    · rw [updateAll_append, e1]
      simp only [Except.bind, e2]
      rfl
    · rw [BuiltTexts]
      exact ⟨i1, i2, m1, m2, rfl, rfl, c1', c2⟩
    · exact Own.trans (d1.mono fun i hi _ => by simp [hi]) d2 fun i hi => .inl (by simp [hi])
end

/-! ### Items -/

/-- The nodes after an update: some of those before, and new ones. -/
structure Upd (h h' : Dom) (fp fp' : List Nat) : Prop where
  nodup : fp'.Nodup
  sub : ∀ i ∈ fp', i ∈ fp ∨ h.next ≤ i
  lt : ∀ i ∈ fp', i < h'.next

theorem Upd.refl {h h' : Dom} {fp : List Nat} (hn : fp.Nodup) (hl : ∀ i ∈ fp, i < h.next) (hh : h.next ≤ h'.next) :
    Upd h h' fp fp :=
  ⟨hn, fun _ hi => .inl hi, fun i hi => Nat.lt_of_lt_of_le (hl i hi) hh⟩

theorem Upd.append {h h1 h2 : Dom} {f1 f2 f1' f2' : List Nat} (hd : ∀ a ∈ f1, ∀ b ∈ f2, a ≠ b)
    (hl : ∀ i ∈ f2, i < h.next) (hle : h.next ≤ h1.next) (hle2 : h1.next ≤ h2.next)
    (a : Upd h h1 f1 f1') (b : Upd h1 h2 f2 f2') : Upd h h2 (f1 ++ f2) (f1' ++ f2') := by
  refine ⟨List.nodup_append.2 ⟨a.nodup, b.nodup, fun x hx y hy e => ?_⟩, fun i hi => ?_, fun i hi => ?_⟩
  · subst e
    have h3 := a.lt x hx
    rcases b.sub x hy with h4 | h4
    · rcases a.sub x hx with h5 | h5
      · exact hd x h5 x h4 rfl
      · have := hl x h4
        omega
    · omega
  · rcases List.mem_append.1 hi with hi | hi
    · rcases a.sub i hi with h | h
      · simp [h]
      · exact .inr h
    · rcases b.sub i hi with h | h
      · simp [h]
      · exact .inr (by omega)
  · rcases List.mem_append.1 hi with hi | hi
    · exact Nat.lt_of_lt_of_le (a.lt i hi) hle2
    · exact b.lt i hi

theorem allAttr_ids {h : Dom} {o : S × List S} {p : Nat} : ∀ (xs : List (Item S)) {ids fp ms}, (∀ x ∈ xs, IsAttr x) →
    BuiltAll h o p xs ids fp ms → ids = []
  | [], _, _, _, _, hb => by rw [BuiltAll] at hb; exact hb.1
  | x :: xs, _, _, _, hx, hb => by
    rw [BuiltAll] at hb
    obtain ⟨i1, i2, f1, f2, m1, m2, rfl, -, -, b1, b2⟩ := hb
    rw [attr_ids (hx x (by simp)) b1, allAttr_ids xs (fun y hy => hx y (by simp [hy])) b2]; rfl

theorem builtEach_nodup {h : Dom} {o : S × List S} : ∀ (xs : List (Item S)) {cs fp mss},
    BuiltEach h o xs cs fp mss → fp.Nodup → cs.Nodup
  | [], _, _, _, hb, _ => by rw [BuiltEach] at hb; rw [hb.1]; exact List.nodup_nil
  | x :: xs, _, _, _, hb, hn => by
    rw [BuiltEach] at hb
    obtain ⟨c, cs', f1, f2, m, ms', rfl, rfl, -, -, h1, h2⟩ := hb
    rw [List.nodup_append] at hn
    exact List.nodup_cons.2 ⟨fun hc => hn.2.2 c (built_sub x h1 c (by simp)) c (builtEach_sub xs h2 c hc) rfl,
      builtEach_nodup xs h2 hn.2.1⟩

/-- A node takes the place of another one. -/
theorem replace_ok {h : Dom} {p new old sp : Nat} {pre post : List Nat} (ho : (h.node old).parent = some p)
    (hn : (h.node new).parent = none ∨ (h.node new).parent = some sp) (h1 : new ≠ old) (h2 : new ≠ p)
    (h3 : old ≠ p) (h4 : sp ≠ p) (h5 : sp ≠ new) (h6 : sp ≠ old) (hc : (h.node p).children = pre ++ [old] ++ post)
    (hpre : old ∉ pre) (hpost : old ∉ post) :
    ∃ h', h.replace p new old = .ok h' ∧ h'.next = h.next ∧
      (∀ i, i ≠ new → i ≠ old → i ≠ p → i ≠ sp → h'.node i = h.node i) ∧
      h'.node p = { h.node p with children := pre ++ [new] ++ post } ∧
      h'.node new = { h.node new with parent := some p } ∧ h'.node old = { h.node old with parent := none } := by
  have hm : ((h.node p).children.map fun c => if c = old then new else c) = pre ++ [new] ++ post := by
    have e : ∀ l : List Nat, old ∉ l → (l.map fun c => if c = old then new else c) = l := fun l hl => by
      conv => rhs; rw [← List.map_id l]
      refine List.map_congr_left fun a ha => ?_
      have hne : a ≠ old := by rintro rfl; exact hl ha
      rw [if_neg hne, id]
    rw [hc, List.map_append, List.map_append, e pre hpre, e post hpost]
    simp
  refine ⟨_, by rw [Dom.replace, if_neg (by simp [ho]), if_neg h1], ?_⟩
  rcases hn with hn | hn
  · rw [detach_orphan hn]
    refine ⟨rfl, fun i a b c d => by simp [a, b, c], ?_, ?_, ?_⟩
    · simp only [node_set, hm]; simp [Ne.symm h2, Ne.symm h3]
    · simp [h1, h2]
    · simp [Ne.symm h1, h3]
  · simp only [Dom.detach, hn]
    refine ⟨rfl, fun i a b c d => by simp [a, b, c, d], ?_, ?_, ?_⟩
    · simp [Ne.symm h2, Ne.symm h3, Ne.symm h4]
      simpa using hm
    · simp [h1, h2, Ne.symm h5]
    · simp [Ne.symm h1, h3, Ne.symm h6]

/-- What an update does to a single node. -/
def UpdatesOne (s : S) (o : S × List S) (h : Dom) (x : Item S) (c : Nat) (fp : List Nat) (ms : List (Inst S)) : Prop :=
  ∃ h' fp' ms', updateAll s h ms = .ok (h', ms') ∧ Built h' (s, o.1 :: o.2) 0 x [c] fp' ms' ∧ Own h h' fp ∧ Upd h h' fp fp' ∧
    (h'.node c).parent = (h.node c).parent

mutual
theorem update_item : ∀ (x : Item S) (s : S) (o : S × List S) (h : Dom) (p : Nat) (pre post : List Nat) {ids fp ms},
    Shape x → InRange s x → Built h o p x ids fp ms → p < h.next → p ∉ fp → fp.Nodup → (∀ i ∈ fp, i < h.next) →
    (h.node p).children = pre ++ ids ++ post → (Filler x → pre = [] ∧ post = []) →
    (∀ i ∈ fp, i ∉ pre ∧ i ∉ post) →
    ∃ h' ids' fp' ms', updateAll s h ms = .ok (h', ms') ∧ Built h' (s, o.1 :: o.2) p x ids' fp' ms' ∧
      Chg h h' p fp (attrNames [x]) (classNames [x]) ∧ Upd h h' fp fp' ∧ (h'.node p).children = pre ++ ids' ++ post
  | .elem tag items, s, o, h, p, pre, post, ids, fp, ms, hs, hr, hb, hp, hpf, hn, hl, hc, _, _ => by
    obtain ⟨c, rfl⟩ := one_id (x := .elem tag items) trivial hb
    obtain ⟨h', fp', ms', e, b, w, u, -⟩ := update_one (.elem tag items) s o h trivial hs hr (built_one trivial hb) hn hl
    exact ⟨h', [c], fp', ms', e, built_one (x := .elem tag items) trivial b, w.chg hpf hp _ _, u, by rw [w.other p hp hpf, hc]⟩
  | .text t, s, o, h, p, pre, post, ids, fp, ms, hs, hr, hb, hp, hpf, hn, hl, hc, _, _ => by
    rw [Built] at hb
    obtain ⟨rfl, hb⟩ := hb
    obtain ⟨h', e, b, w, n, -⟩ := update_text s o t h hb hn hl
    exact ⟨h', _, _, ms, e, by rw [Built]; exact ⟨rfl, b⟩, w.chg hpf hp _ _, .refl hn hl (by omega), by rw [w.other p hp hpf, hc]⟩
  | .attr n v, s, o, h, p, pre, post, ids, fp, ms, hs, hr, hb, hp, hpf, hn, hl, hc, _, _ => by
    rw [Built] at hb
    obtain ⟨rfl, rfl, rfl, hb⟩ := hb
    exact ⟨h, [], [], [.static], rfl, by rw [Built]; exact ⟨rfl, rfl, rfl, hb⟩, .refl .., .refl hn hl (Nat.le_refl _), hc⟩
  | .attrDyn n f, s, o, h, p, pre, post, ids, fp, ms, hs, hr, hb, hp, hpf, hn, hl, hc, _, _ => by
    rw [Built] at hb
    obtain ⟨rfl, rfl, rfl, -⟩ := hb
    refine ⟨h.setAttr p n (some (f s)), [], [], [.attrDyn n f p], rfl, ?_, setAttr_chg .., .refl hn hl (Nat.le_refl _), by simp [hc]⟩
    rw [Built]
    exact ⟨rfl, rfl, rfl, by simp [Dom.setAttr]⟩
  | .attrIf n f, s, o, h, p, pre, post, ids, fp, ms, hs, hr, hb, hp, hpf, hn, hl, hc, _, _ => by
    rw [Built] at hb
    obtain ⟨rfl, rfl, rfl, hold⟩ := hb
    have hk : Chg h (updateAttrIf s h n f p) p [] [n] [] ∧ ((updateAttrIf s h n f p).node p).children = (h.node p).children := by
      rw [updateAttrIf]
      split
      · exact ⟨setAttr_chg .., by simp⟩
      · exact ⟨setAttr_chg .., by simp⟩
      · exact ⟨.refl .., rfl⟩
    refine ⟨updateAttrIf s h n f p, [], [], [.attrIf n f p], rfl, ?_, hk.1, .refl hn hl hk.1.next, by rw [hk.2, hc]⟩
    rw [Built]
    refine ⟨rfl, rfl, rfl, ?_⟩
    rw [lastOf_next, updateAttrIf]
    split <;> rename_i hf
    · simp [Dom.setAttr, hf]
    · simp [Dom.setAttr, hf]
    · rw [hf, Option.none_or, hold]
  | .classIf n f, s, o, h, p, pre, post, ids, fp, ms, hs, hr, hb, hp, hpf, hn, hl, hc, _, _ => by
    rw [Built] at hb
    obtain ⟨rfl, rfl, rfl, hold⟩ := hb
    have hk : Chg h (updateClassIf s h n f p) p [] [] [n] ∧ ((updateClassIf s h n f p).node p).children = (h.node p).children := by
      rw [updateClassIf]
      split
      · exact ⟨setClass_chg .., by simp⟩
      · exact ⟨.refl .., rfl⟩
    refine ⟨updateClassIf s h n f p, [], [], [.classIf n f p], rfl, ?_, hk.1, .refl hn hl hk.1.next, by rw [hk.2, hc]⟩
    rw [Built]
    refine ⟨rfl, rfl, rfl, ?_⟩
    rw [lastOf_next, updateClassIf]
    split <;> rename_i hf
    · simp [Dom.setClass, hf]
    · rw [hf, Option.none_or, hold]
  | .classWhen n f, s, o, h, p, pre, post, ids, fp, ms, hs, hr, hb, hp, hpf, hn, hl, hc, _, _ => by
    rw [Built] at hb
    obtain ⟨rfl, rfl, rfl, -⟩ := hb
    refine ⟨h.setClass p n (f s), [], [], [.classWhen n f p], rfl, ?_, setClass_chg .., .refl hn hl (Nat.le_refl _), by simp [hc]⟩
    rw [Built]
    exact ⟨rfl, rfl, rfl, by simp [Dom.setClass]⟩
  | .branch f bs, s, o, h, p, pre, post, ids, fp, ms, hs, hr, hb, hp, hpf, hn, hl, hc, _, hd => by
    rw [Shape] at hs
    rw [InRange] at hr
    rw [Built] at hb
    obtain ⟨⟨i, hi, hlt⟩, hr⟩ := hr
    obtain ⟨sp, cs, subs, cur, c, kfp, rfl, hcur, rfl, rfl, b, hpar, -, hoth⟩ := hb
    rw [List.nodup_cons] at hn
    have hcn := builtEach_nodup bs b hn.2
    have hlen := builtEach_length bs b
    have hci : cs[i]? = some (cs[i]'(by omega)) := by simp
    generalize cs[i]'(by omega) = new at hci
    have hcm := List.mem_of_getElem? hcur
    have hnm := List.mem_of_getElem? hci
    have hsub := builtEach_sub bs b
    have hspp : sp ≠ p := by rintro rfl; exact hpf (by simp)
    have hsp : ∀ j ∈ cs, sp ≠ j := by rintro j hj rfl; exact hn.1 (hsub _ hj)
    have hnp : ∀ j ∈ cs, j ≠ p := by rintro j hj rfl; exact hpf (by simp [hsub _ hj])
    -- the node that is shown is changed
    have step : ∃ h1, updateBranch s h f p (some cur) (cs.map some) = .ok h1 ∧ h1.next = h.next ∧
        BuiltEach h1 o bs cs kfp subs ∧ (h1.node new).parent = some p ∧
        (∀ c' ∈ cs, c' ≠ new → (h1.node c').parent = none ∨ (h1.node c').parent = some sp) ∧
        Chg h h1 p (sp :: kfp) [] [] ∧ (h1.node p).children = pre ++ [new] ++ post := by
      by_cases hic : i = cur
      · subst hic
        obtain rfl : c = new := by rw [hcur] at hci; simpa using hci
        exact ⟨h, by rw [updateBranch, if_pos hi], rfl, b, hpar, hoth, .refl .., hc⟩
      · have hne : new ≠ c := by
          rintro rfl
          have h1 := List.getElem?_eq_some_iff.1 hci
          have h2 := List.getElem?_eq_some_iff.1 hcur
          have hw := List.pairwise_iff_getElem.1 hcn
          rcases Nat.lt_or_gt_of_ne hic with h | h
          · exact hw i cur _ _ h (h1.2.trans h2.2.symm)
          · exact hw cur i _ _ h (h2.2.trans h1.2.symm)
        obtain ⟨h1, e, n, k1, k2, k3, k4⟩ := replace_ok (pre := pre) (post := post) hpar (hoth new hnm hne) hne (hnp _ hnm)
          (hnp _ hcm) hspp (hsp _ hnm) (hsp _ hcm) hc (hd c (by simp [hsub _ hcm])).1 (hd c (by simp [hsub _ hcm])).2
        refine ⟨h1, ?_, n, ?_, by rw [k3], ?_, ?_, by rw [k2]⟩
        · rw [updateBranch, if_neg (by simp [hi, hic]), hi]
          simp [hci, hcur, e]
        · refine builtEach_frame_one bs b hn.2 (fun j hj hjc => k1 j ?_ ?_ ?_ ?_) fun j hj => ?_
          · rintro rfl; exact hjc hnm
          · rintro rfl; exact hjc hcm
          · rintro rfl; exact hpf (by simp [hj])
          · rintro rfl; exact hn.1 hj
          · by_cases h1 : j = new
            · subst h1; rw [k3]; exact ⟨rfl, rfl, rfl, rfl⟩
            · by_cases h2 : j = c
              · subst h2; rw [k4]; exact ⟨rfl, rfl, rfl, rfl⟩
              · exact .of_eq (k1 j h1 h2 (hnp j hj) (Ne.symm (hsp j hj)))
        · intro c' hc' hne'
          by_cases h2 : c' = c
          · subst h2; rw [k4]; exact .inl rfl
          · rw [k1 c' hne' h2 (hnp _ hc') (Ne.symm (hsp _ hc'))]
            exact hoth c' hc' h2
        · refine ⟨by omega, fun j _ h2 h3 => k1 j ?_ ?_ h3 ?_, by rw [k2], by rw [k2], fun _ _ => by rw [k2], fun _ _ => by rw [k2]⟩
          · rintro rfl; exact h2 (by simp [hsub _ hnm])
          · rintro rfl; exact h2 (by simp [hsub _ hcm])
          · rintro rfl; exact h2 (by simp)
    obtain ⟨h1, e1, n1, b1, p1, o1, g1, c1⟩ := step
    obtain ⟨h2, kfp', subs', e2, b2, w2, u2, p2⟩ := update_each bs s o h1 hs.1 hr b1 hn.2
      (fun j hj => n1 ▸ hl j (by simp [hj]))
    have hpk : p ∉ kfp := fun h => hpf (by simp [h])
    have hpe : h2.node p = h1.node p := w2.other p (by omega) hpk
    refine ⟨h2, [new], sp :: kfp', [.branch f p (some i) (cs.map some) subs'], ?_, ?_, ?_, ?_, by rw [hpe, c1]⟩
    · rw [updateAll_single]
      simp only [update, bind, Except.bind, e1, e2, hi]
      rfl
    · rw [Built]
      refine ⟨sp, cs, subs', i, new, kfp', rfl, hci, rfl, rfl, b2, by rw [p2 _ hnm, p1], hi, fun c' hc' hne => ?_⟩
      rw [p2 _ hc']; exact o1 c' hc' hne
    · exact Chg.trans (an' := []) (cn' := []) g1 (w2.chg hpk (by omega) [] []) fun j hj => .inl (by simp [hj])
    · have hspl := hl sp (by simp)
      have := w2.next
      refine ⟨List.nodup_cons.2 ⟨fun hj => ?_, u2.nodup⟩, fun j hj => ?_, fun j hj => ?_⟩
      · rcases u2.sub sp hj with h | h
        · exact hn.1 h
        · omega
      · rcases List.mem_cons.1 hj with rfl | hj
        · simp
        · rcases u2.sub j hj with h | h
          · simp [h]
          · exact .inr (by omega)
      · rcases List.mem_cons.1 hj with rfl | hj
        · omega
        · exact u2.lt j hj
  | .forEach f body, s, o, h, p, pre, post, ids, fp, ms, hs, hr, hb, hp, hpf, hn, hl, hc, hf, _ => by
    rw [Shape] at hs
    rw [InRange] at hr
    obtain ⟨rfl, rfl⟩ := hf trivial
    have hsub := built_sub _ hb
    rw [Built] at hb
    obtain ⟨parts0, hids, hfp, rfl, -⟩ := hb
    simp only [List.nil_append, List.append_nil] at hc
    obtain ⟨c1, c2, c3⟩ := clear_chg h p fp (by rw [hc]; exact hsub) hpf
    obtain ⟨h', parts, e, e2, b, r⟩ := render_loop p body hs.2.1
      (fun s h hr hp => render_item body s h p hs.1 hr hp (fun x => absurd x hs.2.2)
        (by rw [(notAttr_names hs.2.1).1]; simp) (by rw [(notAttr_names hs.2.1).2]; simp))
      ((f s).getD []) (h.clear p) hr (by omega)
    refine ⟨h', parts.flatMap (·.2.1), parts.flatMap (·.2.2.1), [.forEach f (flatten body) p], ?_, ?_, ?_, ?_, ?_⟩
    · rw [updateAll_single]
      simp only [update, bind, Except.bind, e]
      rfl
    · rw [Built]
      exact ⟨parts, rfl, rfl, rfl, hs.2.1, b, e2⟩
    · exact Chg.trans (an' := []) (cn' := []) c1 r.chg (by simp)
    · exact ⟨r.nodup, fun i hi => .inr (c3 ▸ (r.fresh i hi).1), fun i hi => (r.fresh i hi).2⟩
    · rw [r.children, c2]; simp
  | .html v, s, o, h, p, pre, post, ids, fp, ms, hs, hr, hb, hp, hpf, hn, hl, hc, _, _ => by
    rw [Built] at hb
    obtain ⟨i, rfl, rfl, rfl, hb⟩ := hb
    exact ⟨h, [i], [i], [.static], rfl, by rw [Built]; exact ⟨i, rfl, rfl, rfl, hb⟩, .refl .., .refl hn hl (Nat.le_refl _), hc⟩
  | .noop, s, o, h, p, pre, post, ids, fp, ms, hs, hr, hb, hp, hpf, hn, hl, hc, _, _ => by
    rw [Built] at hb
    obtain ⟨rfl, rfl, rfl⟩ := hb
    exact ⟨h, [], [], [], rfl, by rw [Built]; exact ⟨rfl, rfl, rfl⟩, .refl .., .refl hn hl (Nat.le_refl _), hc⟩
theorem update_one : ∀ (x : Item S) (s : S) (o : S × List S) (h : Dom) {c fp ms}, OneNode x → Shape x → InRange s x →
    Built h o 0 x [c] fp ms → fp.Nodup → (∀ i ∈ fp, i < h.next) →
    UpdatesOne s o h x c fp ms
  | .elem tag items, s, o, h, c, fp, ms, _, hs, hr, hb, hn, hl => by
    rw [Shape] at hs
    rw [InRange] at hr
    rw [Built] at hb
    obtain ⟨el, kfp, mid, hel, rfl, rfl, hk, ha, hcl, b⟩ := hb
    obtain rfl : c = el := by simpa using hel
    rw [List.nodup_cons] at hn
    have hcl' := hl c (by simp)
    obtain ⟨h', ids', kfp', ms', e, b', g, u, hch⟩ := update_all items s o h c [] [] hs.1 hr b hcl' hn.1 hn.2
      (fun i hi => hl i (by simp [hi])) (by simp) (by simp) (by simp) hs.2.1 hs.2.2.1 hs.2.2.2
    refine ⟨h', c :: kfp', .static :: (ms' ++ [.static]), ?_, ?_, g.own, ?_, g.parent⟩
    · simp only [updateAll, update, bind, Except.bind, updateAll_append, e]
      rfl
    · rw [Built]
      refine ⟨c, kfp', ms', rfl, rfl, rfl, by rw [g.kind, hk], fun n hn => by rw [g.attrs n hn, ha n hn],
        fun n hn => by rw [g.classes n hn, hcl n hn], ?_⟩
      rw [hch]
      simpa using b'
    · have := g.next
      refine ⟨List.nodup_cons.2 ⟨fun hj => ?_, u.nodup⟩, fun j hj => ?_, fun j hj => ?_⟩
      · rcases u.sub c hj with h | h
        · exact hn.1 h
        · omega
      · rcases List.mem_cons.1 hj with rfl | hj
        · simp
        · rcases u.sub j hj with h | h
          · simp [h]
          · exact .inr h
      · rcases List.mem_cons.1 hj with rfl | hj
        · omega
        · exact u.lt j hj
  | .text t, s, o, h, c, fp, ms, _, hs, hr, hb, hn, hl => by
    rw [Built] at hb
    obtain ⟨rfl, hb⟩ := hb
    obtain ⟨h', e, b, w, n, q⟩ := update_text s o t h hb hn hl
    exact ⟨h', [c], ms, e, by rw [Built]; exact ⟨rfl, b⟩, w, .refl hn hl (by omega), q c⟩
theorem update_all : ∀ (xs : List (Item S)) (s : S) (o : S × List S) (h : Dom) (p : Nat) (pre post : List Nat) {ids fp ms},
    ShapeAll xs → InRangeAll s xs → BuiltAll h o p xs ids fp ms → p < h.next → p ∉ fp → fp.Nodup →
    (∀ i ∈ fp, i < h.next) → (h.node p).children = pre ++ ids ++ post → (∀ x ∈ xs, Filler x → pre = [] ∧ post = []) →
    (∀ i ∈ fp, i ∉ pre ∧ i ∉ post) → (attrNames xs).Nodup → (classNames xs).Nodup →
    (xs.Pairwise fun x y => (Filler x → IsAttr y) ∧ (Filler y → IsAttr x)) →
    ∃ h' ids' fp' ms', updateAll s h ms = .ok (h', ms') ∧ BuiltAll h' (s, o.1 :: o.2) p xs ids' fp' ms' ∧
      Chg h h' p fp (attrNames xs) (classNames xs) ∧ Upd h h' fp fp' ∧ (h'.node p).children = pre ++ ids' ++ post
  | [], s, o, h, p, pre, post, ids, fp, ms, hs, hr, hb, hp, hpf, hn, hl, hc, _, _, _, _, _ => by
    rw [BuiltAll] at hb
    obtain ⟨rfl, rfl, rfl⟩ := hb
    exact ⟨h, [], [], [], rfl, by rw [BuiltAll]; exact ⟨rfl, rfl, rfl⟩, .refl .., .refl hn hl (Nat.le_refl _), hc⟩
  | x :: xs, s, o, h, p, pre, post, ids, fp, ms, hs, hr, hb, hp, hpf, hn, hl, hc, hf, hd, na, nc, hw => by
    rw [ShapeAll] at hs
    rw [InRangeAll] at hr
    rw [BuiltAll] at hb
    obtain ⟨i1, i2, f1, f2, m1, m2, rfl, rfl, rfl, b1, b2⟩ := hb
    rw [attrNames_cons, List.nodup_append] at na
    rw [classNames_cons, List.nodup_append] at nc
    rw [List.pairwise_cons] at hw
    rw [List.nodup_append] at hn
    simp only [List.mem_append, not_or] at hpf
    have hl1 : ∀ i ∈ f1, i < h.next := fun i hi => hl i (by simp [hi])
    have hl2 : ∀ i ∈ f2, i < h.next := fun i hi => hl i (by simp [hi])
    obtain ⟨h1, i1', f1', m1', e1, c1, g1, u1, k1⟩ := update_item x s o h p pre (i2 ++ post) hs.1 hr.1 b1 hp hpf.1 hn.1
      hl1 (by rw [hc]; simp)
      (fun hfx => by
        have h1 := hf x (by simp) hfx
        have h2 := allAttr_ids xs (fun y hy => (hw.1 y hy).1 hfx) b2
        simp [h1, h2])
      (fun i hi => by
        have := hd i (by simp [hi])
        refine ⟨this.1, ?_⟩
        simp only [List.mem_append, not_or]
        exact ⟨fun h2 => hn.2.2 i hi i (builtAll_sub xs b2 i h2) rfl, this.2⟩)
    have da : ∀ n ∈ attrNames xs, n ∉ attrNames [x] := fun n h1 h2 => na.2.2 n h2 n h1 rfl
    have dc : ∀ n ∈ classNames xs, n ∉ classNames [x] := fun n h1 h2 => nc.2.2 n h2 n h1 rfl
    have b2' := builtAll_frame (h' := h1) xs b2
      (fun i hi => g1.other i (hl2 i hi) (fun h3 => hn.2.2 i h3 i hi rfl) (fun e => hpf.2 (e ▸ hi)))
      (fun n hn => g1.attrs n (da n hn)) (fun n hn => g1.classes n (dc n hn))
    have hx1 : h.next ≤ h1.next := g1.next
    have hf12 : ∀ i ∈ f1', i ∉ f2 := fun i hi h2 => by
      rcases u1.sub i hi with h3 | h3
      · exact hn.2.2 i h3 i h2 rfl
      · have := hl2 i h2
        omega
    obtain ⟨h2, i2', f2', m2', e2, c2, g2, u2, k2⟩ := update_all xs s o h1 p (pre ++ i1') post hs.2 hr.2 b2' (by omega) hpf.2
      hn.2.1 (fun i hi => by have := hl2 i hi; omega) (by rw [k1]; simp)
      (fun y hy hfy => by
        have h1 := hf y (by simp [hy]) hfy
        have h2 := attr_ids ((hw.1 y hy).2 hfy) c1
        simp [h1, h2])
      (fun i hi => by
        have := hd i (by simp [hi])
        refine ⟨?_, this.2⟩
        simp only [List.mem_append, not_or]
        exact ⟨this.1, fun h2 => hf12 i (built_sub x c1 i h2) hi⟩)
      na.2.1 nc.2.1 hw.2
    refine ⟨h2, i1' ++ i2', f1' ++ f2', m1' ++ m2', ?_, ?_, ?_, ?_, by rw [k2]; simp⟩
    · rw [updateAll_append, e1]
      simp only [Except.bind, e2]
      rfl
    · rw [BuiltAll]
      refine ⟨i1', i2', f1', f2', m1', m2', rfl, rfl, rfl, ?_, c2⟩
      refine built_frame x c1 (fun i hi => g2.other i (u1.lt i hi) (hf12 i hi) ?_)
        (fun n hn => g2.attrs n fun h => da n h hn) (fun n hn => g2.classes n fun h => dc n h hn)
      rintro rfl
      rcases u1.sub i hi with h3 | h3
      · exact hpf.1 h3
      · omega
    · rw [attrNames_cons x xs, classNames_cons x xs]
      exact Chg.trans (g1.mono fun i hi _ => by simp [hi]) g2 fun i hi => .inl (by simp [hi])
    · exact Upd.append hn.2.2 hl2 hx1 g2.next u1 u2
theorem update_each : ∀ (xs : List (Item S)) (s : S) (o : S × List S) (h : Dom) {cs fp mss},
    ShapeAll xs → InRangeAll s xs → BuiltEach h o xs cs fp mss → fp.Nodup → (∀ i ∈ fp, i < h.next) →
    ∃ h' fp' mss', updateEach s h mss = .ok (h', mss') ∧ BuiltEach h' (s, o.1 :: o.2) xs cs fp' mss' ∧ Own h h' fp ∧
      Upd h h' fp fp' ∧ ∀ c ∈ cs, (h'.node c).parent = (h.node c).parent
  | [], s, o, h, cs, fp, mss, hs, hr, hb, hn, hl => by
    rw [BuiltEach] at hb
    obtain ⟨rfl, rfl, rfl⟩ := hb
    exact ⟨h, [], [], rfl, by rw [BuiltEach]; exact ⟨rfl, rfl, rfl⟩, .refl .., .refl hn hl (Nat.le_refl _), by simp⟩
  | x :: xs, s, o, h, cs, fp, mss, hs, hr, hb, hn, hl => by
    rw [ShapeAll] at hs
    rw [InRangeAll] at hr
    rw [BuiltEach] at hb
    obtain ⟨c, cs', f1, f2, m, ms, rfl, rfl, rfl, h0, b1, b2⟩ := hb
    rw [List.nodup_append] at hn
    have hl1 : ∀ i ∈ f1, i < h.next := fun i hi => hl i (by simp [hi])
    have hl2 : ∀ i ∈ f2, i < h.next := fun i hi => hl i (by simp [hi])
    obtain ⟨h1, f1', m1', e1, c1, w1, u1, q1⟩ := update_one x s o h h0 hs.1 hr.1 b1 hn.1 hl1
    have hx1 := w1.next
    have hf12 : ∀ i ∈ f1', i ∉ f2 := fun i hi h2 => by
      rcases u1.sub i hi with h3 | h3
      · exact hn.2.2 i h3 i h2 rfl
      · have := hl2 i h2
        omega
    have hk2 : ∀ i ∈ f2, h1.node i = h.node i := fun i hi => w1.other i (hl2 i hi) fun h3 => hn.2.2 i h3 i hi rfl
    obtain ⟨h2, f2', m2', e2, c2, w2, u2, q2⟩ := update_each xs s o h1 hs.2 hr.2
      (builtEach_frame xs b2 hk2) hn.2.1 (fun i hi => by have := hl2 i hi; omega)
    have hcf : c ∈ f1' := built_sub x c1 c (by simp)
    have hk1 : ∀ i ∈ f1', h2.node i = h1.node i := fun i hi => w2.other i (u1.lt i hi) (hf12 i hi)
    refine ⟨h2, f1' ++ f2', m1' :: m2', ?_, ?_, ?_, Upd.append hn.2.2 hl2 hx1 w2.next u1 u2, ?_⟩
    · simp only [updateEach, bind, Except.bind, e1, e2]
    · rw [BuiltEach]
      refine ⟨c, cs', f1', f2', m1', m2', rfl, rfl, rfl, h0, ?_, c2⟩
      refine built_frame x c1 hk1 ?_ ?_
      · rw [(one_names h0).1]; simp
      · rw [(one_names h0).2]; simp
    · exact Own.trans (w1.mono fun i hi _ => by simp [hi]) w2 fun i hi => .inl (by simp [hi])
    · intro i hi
      rcases List.mem_cons.1 hi with rfl | hi
      · rw [hk1 i hcf, q1]
      · rw [q2 i hi, hk2 i (builtEach_sub xs b2 i hi)]
end

/-! ### What is shown -/

theorem attrOf_none (s : S) (n : Text) : ∀ (xs : List (Item S)), n ∉ attrNames xs → attrOf s n xs = none
  | [], _ => rfl
  | x :: xs, hn => by
    rw [attrNames_cons] at hn
    simp only [List.mem_append, not_or] at hn
    rw [attrOf, attrOf_none s n xs hn.2]
    cases x <;> simp_all [attrNames, attrBy]

theorem attrNames_remember : ∀ xs : List (Item S), attrNames (rememberAll xs) = attrNames xs
  | [] => rfl
  | x :: xs => by
    rw [rememberAll, attrNames_cons, attrNames_cons x, attrNames_remember xs]
    congr 1
    cases x <;> rw [remember] <;> rfl

theorem classNames_remember : ∀ xs : List (Item S), classNames (rememberAll xs) = classNames xs
  | [] => rfl
  | x :: xs => by
    rw [rememberAll, classNames_cons, classNames_cons x, classNames_remember xs]
    congr 1
    cases x <;> rw [remember] <;> rfl

theorem attrOf_built {h : Dom} {o : S × List S} {p : Nat} : ∀ (xs : List (Item S)) {ids fp ms},
    BuiltAll h o p xs ids fp ms → (attrNames xs).Nodup → ∀ n ∈ attrNames xs,
    (h.node p).attrs n = attrOf o n (rememberAll xs)
  | [], _, _, _, _, _, n, hn => by simp [attrNames] at hn
  | x :: xs, _, _, _, hb, hd, n, hn => by
    rw [BuiltAll] at hb
    obtain ⟨i1, i2, f1, f2, m1, m2, -, -, -, b1, b2⟩ := hb
    rw [attrNames_cons] at hn
    rw [attrNames_cons, List.nodup_append] at hd
    rw [rememberAll, attrOf]
    rcases List.mem_append.1 hn with h1 | h1
    · rw [attrOf_none o n _ (by rw [attrNames_remember]; exact fun h2 => hd.2.2 n h1 n h2 rfl), Option.none_or]
      cases x <;> simp only [attrNames, List.not_mem_nil, List.mem_singleton] at h1 <;> subst h1 <;>
        rw [Built] at b1 <;> rw [remember] <;> simp [attrBy, b1.2.2.2]
    · have e : attrBy o n (remember x) = none := by
        have : n ∉ attrNames [x] := fun h2 => hd.2.2 n h2 n h1 rfl
        cases x <;> simp_all [attrNames, attrBy, remember]
      rw [e, Option.or_none]
      exact attrOf_built xs b2 hd.2.1 n h1

theorem classOf_none (s : S) (n : Text) (xs : List (Item S)) (hn : n ∉ classNames xs) : classOf s n xs = false := by
  induction xs with
  | nil => rfl
  | cons x xs ih =>
    rw [classNames_cons] at hn
    simp only [List.mem_append, not_or] at hn
    have := ih hn.2
    rw [classOf] at this ⊢
    rw [List.any_cons, this]
    cases x <;> simp_all [classNames, classBy]

theorem classOf_built {h : Dom} {o : S × List S} {p : Nat} : ∀ (xs : List (Item S)) {ids fp ms},
    BuiltAll h o p xs ids fp ms → (classNames xs).Nodup → ∀ n ∈ classNames xs,
    (h.node p).classes n = classOf o n (rememberAll xs)
  | [], _, _, _, _, _, n, hn => by simp [classNames] at hn
  | x :: xs, _, _, _, hb, hd, n, hn => by
    rw [BuiltAll] at hb
    obtain ⟨i1, i2, f1, f2, m1, m2, -, -, -, b1, b2⟩ := hb
    rw [classNames_cons] at hn
    rw [classNames_cons, List.nodup_append] at hd
    have e1 : classOf o n (rememberAll (x :: xs)) = (classBy o n (remember x) || classOf o n (rememberAll xs)) := by
      rw [rememberAll]; rfl
    rw [e1]
    rcases List.mem_append.1 hn with h1 | h1
    · rw [classOf_none o n _ (by rw [classNames_remember]; exact fun h2 => hd.2.2 n h1 n h2 rfl), Bool.or_false]
      cases x <;> simp only [classNames, List.not_mem_nil, List.mem_singleton] at h1 <;> subst h1 <;>
        rw [Built] at b1 <;> rw [remember] <;> simp [classBy, b1.2.2.2]
    · have e : classBy o n (remember x) = false := by
        have : n ∉ classNames [x] := fun h2 => hd.2.2 n h2 n h1 rfl
        cases x <;> simp_all [classNames, classBy, remember]
      rw [e, Bool.false_or]
      exact classOf_built xs b2 hd.2.1 n h1

theorem showsAll_append {h : Dom} : ∀ {a b : List Tree} {i j : List Nat}, ShowsAll h a i → ShowsAll h b j →
    ShowsAll h (a ++ b) (i ++ j)
  | [], b, i, j, h1, h2 => by rw [ShowsAll] at h1; subst h1; exact h2
  | t :: a, b, i, j, h1, h2 => by
    rw [ShowsAll] at h1
    obtain ⟨k, is, rfl, h3, h4⟩ := h1
    exact (show ShowsAll h (t :: (a ++ b)) (k :: (is ++ j)) by rw [ShowsAll]; exact ⟨k, _, rfl, h3, showsAll_append h4 h2⟩)

theorem showsAll_single {h : Dom} {t : Tree} {i : Nat} (ht : Shows h t i) : ShowsAll h [t] [i] := by
  rw [ShowsAll]
  exact ⟨i, [], rfl, ht, by rw [ShowsAll]⟩

mutual
theorem shows_text {h : Dom} {o : S × List S} : ∀ (t : TextSpec S) {ids ms}, BuiltText h o t ids ms →
    ShowsAll h (textNodes o (rememberText t)) ids
  | .const v, _, _, hb => by
    rw [BuiltText] at hb
    obtain ⟨i, rfl, -, hk⟩ := hb
    rw [rememberText, textNodes]
    exact showsAll_single (by rw [Shows]; exact hk)
  | .path f, _, _, hb => by
    rw [BuiltText] at hb
    obtain ⟨i, rfl, -, hk⟩ := hb
    rw [rememberText, textNodes]
    exact showsAll_single (by rw [Shows]; exact hk)
  | .concat ts, _, _, hb => by rw [BuiltText] at hb; rw [rememberText, textNodes]; exact shows_texts ts hb
theorem shows_texts {h : Dom} {o : S × List S} : ∀ (ts : List (TextSpec S)) {ids ms}, BuiltTexts h o ts ids ms →
    ShowsAll h (textsNodes o (rememberTexts ts)) ids
  | [], _, _, hb => by rw [BuiltTexts] at hb; rw [rememberTexts, textsNodes, ShowsAll]; exact hb.1
  | t :: ts, _, _, hb => by
    rw [BuiltTexts] at hb
    obtain ⟨i1, i2, m1, m2, rfl, -, b1, b2⟩ := hb
    rw [rememberTexts, textsNodes]
    exact showsAll_append (shows_text t b1) (shows_texts ts b2)
end

theorem shows_loop {h : Dom} {p : Nat} {body : Item S}
    (hs : ∀ (s : S) ids fp ms, Built h (s, []) p body ids fp ms → ShowsAll h (trees (s, []) (remember body)) ids) :
    ∀ parts : List (S × List Nat × List Nat × List (Inst S)),
    (∀ q ∈ parts, Built h (q.1, []) p body q.2.1 q.2.2.1 q.2.2.2) →
    ShowsAll h (((parts.map (·.1)).map fun s : S => (s, ([] : List S))).flatMap fun o => trees o (remember body)) (parts.flatMap (·.2.1))
  | [], _ => by simp [ShowsAll]
  | q :: parts, hb => by
    simp only [List.map_cons, List.flatMap_cons]
    exact showsAll_append (hs _ _ _ _ (hb q (by simp))) (shows_loop hs parts fun q hq => hb q (by simp [hq]))

mutual
theorem shows_item {h : Dom} : ∀ (x : Item S) (o : S × List S) (p : Nat) {ids fp ms}, Shape x →
    Built h o p x ids fp ms → ShowsAll h (trees o (remember x)) ids
  | .elem tag items, o, p, _, _, _, hs, hb => by
    rw [Shape] at hs
    rw [Built] at hb
    obtain ⟨el, kfp, mid, rfl, -, -, hk, ha, hc, b⟩ := hb
    rw [remember, trees]
    refine showsAll_single ?_
    rw [Shows]
    refine ⟨hk, funext fun n => ?_, funext fun n => ?_, shows_all items o el hs.1 b⟩
    · by_cases hn : n ∈ attrNames items
      · exact attrOf_built items b hs.2.1 n hn
      · rw [ha n hn, attrOf_none o n _ (by rw [attrNames_remember]; exact hn)]
    · by_cases hn : n ∈ classNames items
      · exact classOf_built items b hs.2.2.1 n hn
      · rw [hc n hn, classOf_none o n _ (by rw [classNames_remember]; exact hn)]
  | .text t, o, p, _, _, _, _, hb => by rw [Built] at hb; rw [remember, trees]; exact shows_text t hb.2
  | .attr n v, o, p, _, _, _, _, hb => by rw [Built] at hb; rw [hb.1]; simp [remember, trees, ShowsAll]
  | .attrDyn n v, o, p, _, _, _, _, hb => by rw [Built] at hb; rw [hb.1]; simp [remember, trees, ShowsAll]
  | .attrIf n v, o, p, _, _, _, _, hb => by rw [Built] at hb; rw [hb.1]; simp [remember, trees, ShowsAll]
  | .classIf n v, o, p, _, _, _, _, hb => by rw [Built] at hb; rw [hb.1]; simp [remember, trees, ShowsAll]
  | .classWhen n v, o, p, _, _, _, _, hb => by rw [Built] at hb; rw [hb.1]; simp [remember, trees, ShowsAll]
  | .branch f bs, o, p, _, _, _, hs, hb => by
    rw [Shape] at hs
    rw [Built] at hb
    obtain ⟨sp, cs, subs, cur, c, kfp, rfl, hcur, -, -, b, -, hf, -⟩ := hb
    rw [remember, trees, hf]
    exact shows_at bs o cur hs.1 b hcur
  | .forEach f body, o, p, _, _, _, hs, hb => by
    rw [Shape] at hs
    rw [Built] at hb
    obtain ⟨parts, rfl, -, -, -, b, hp⟩ := hb
    have e : ((f o.1).map fun l => l.map fun s : S => (s, ([] : List S))).getD []
        = (parts.map (·.1)).map fun s : S => (s, ([] : List S)) := by
      rw [hp]
      cases f o.1 <;> rfl
    rw [remember, trees, e]
    exact shows_loop (fun s ids fp ms hb => shows_item body (s, []) p hs.1 hb) parts b
  | .html v, o, p, _, _, _, _, hb => by
    rw [Built] at hb
    obtain ⟨i, rfl, -, -, hk⟩ := hb
    rw [remember, trees]
    exact showsAll_single (by rw [Shows]; exact hk)
  | .noop, o, p, _, _, _, _, hb => by rw [Built] at hb; rw [hb.1]; simp [remember, trees, ShowsAll]
theorem shows_all {h : Dom} : ∀ (xs : List (Item S)) (o : S × List S) (p : Nat) {ids fp ms}, ShapeAll xs →
    BuiltAll h o p xs ids fp ms → ShowsAll h (treesAll o (rememberAll xs)) ids
  | [], o, p, _, _, _, _, hb => by rw [BuiltAll] at hb; rw [rememberAll, treesAll, ShowsAll]; exact hb.1
  | x :: xs, o, p, _, _, _, hs, hb => by
    rw [ShapeAll] at hs
    rw [BuiltAll] at hb
    obtain ⟨i1, i2, f1, f2, m1, m2, rfl, -, -, b1, b2⟩ := hb
    rw [rememberAll, treesAll]
    exact showsAll_append (shows_item x o p hs.1 b1) (shows_all xs o p hs.2 b2)
theorem shows_at {h : Dom} : ∀ (xs : List (Item S)) (o : S × List S) (i : Nat) {cs fp mss c}, ShapeAll xs →
    BuiltEach h o xs cs fp mss → cs[i]? = some c → ShowsAll h (treesAt o (rememberAll xs) (some i)) [c]
  | [], o, i, _, _, _, _, _, hb, hc => by rw [BuiltEach] at hb; rw [hb.1] at hc; simp at hc
  | x :: xs, o, 0, _, _, _, _, hs, hb, hc => by
    rw [ShapeAll] at hs
    rw [BuiltEach] at hb
    obtain ⟨c', cs', f1, f2, m, ms, rfl, -, -, -, b1, -⟩ := hb
    obtain rfl : c' = _ := by simpa using hc
    rw [rememberAll, treesAt]
    exact shows_item x o 0 hs.1 b1
  | x :: xs, o, i + 1, _, _, _, _, hs, hb, hc => by
    rw [ShapeAll] at hs
    rw [BuiltEach] at hb
    obtain ⟨c', cs', f1, f2, m, ms, rfl, -, -, -, -, b2⟩ := hb
    rw [rememberAll, treesAt]
    exact shows_at xs o i hs.2 b2 (by simpa using hc)
end

end Nbdl.Dom
