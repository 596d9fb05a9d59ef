import Verif.Page.Spec
import Verif.Nested.History
namespace Nbdl.Page
open MapStore (Msg View Payload)
open Context (Config Actor StoreOps actorsWith Lawful setStore pushMain)
open Nested Nested.Spec Spec
variable {A S P V : Type}

/-! ## What depends on the stores only by their values -/

section
open Dom.Spec
variable {T : Type} {R : T → T → Prop} {s s' : T}

mutual
theorem text_congr (hR : R s s') : ∀ (t : Dom.TextSpec T), RespectsText R t → textNodes s t = textNodes s' t
  | .const _, _ => by rw [textNodes, textNodes]
  | .path f, h => by
    rw [RespectsText] at h
    rw [textNodes, textNodes, h s s' hR]
  | .concat ts, h => by
    rw [RespectsText] at h
    rw [textNodes, textNodes, texts_congr hR ts h]
theorem texts_congr (hR : R s s') : ∀ (ts : List (Dom.TextSpec T)), RespectsTexts R ts → textsNodes s ts = textsNodes s' ts
  | [], _ => by rw [textsNodes, textsNodes]
  | t :: ts, h => by
    rw [RespectsTexts] at h
    rw [textsNodes, textsNodes, text_congr hR t h.1, texts_congr hR ts h.2]
end

theorem attrBy_congr (hR : R s s') (n : Dom.Text) (x : Dom.Item T) (h : Respects R x) : attrBy s n x = attrBy s' n x := by
  cases x with
  | attrDyn m f => rw [Respects] at h; rw [attrBy, attrBy, h s s' hR]
  | attrIf m f => rw [Respects] at h; rw [attrBy, attrBy, h s s' hR]
  | _ => rfl

theorem attrOf_congr (hR : R s s') (n : Dom.Text) : ∀ (xs : List (Dom.Item T)), RespectsAll R xs → attrOf s n xs = attrOf s' n xs
  | [], _ => rfl
  | x :: xs, h => by
    rw [RespectsAll] at h
    rw [attrOf, attrOf, attrOf_congr hR n xs h.2, attrBy_congr hR n x h.1]

theorem classBy_congr (hR : R s s') (n : Dom.Text) (x : Dom.Item T) (h : Respects R x) : classBy s n x = classBy s' n x := by
  cases x with
  | classIf m f => rw [Respects] at h; rw [classBy, classBy, h s s' hR]
  | classWhen m f => rw [Respects] at h; rw [classBy, classBy, h s s' hR]
  | _ => rfl

theorem classOf_congr (hR : R s s') (n : Dom.Text) : ∀ (xs : List (Dom.Item T)), RespectsAll R xs → classOf s n xs = classOf s' n xs
  | [], _ => rfl
  | x :: xs, h => by
    rw [RespectsAll] at h
    have ih := classOf_congr hR n xs h.2
    unfold classOf at ih ⊢
    rw [List.any_cons, List.any_cons, ih, classBy_congr hR n x h.1]

mutual
theorem trees_congr (hR : R s s') : ∀ (x : Dom.Item T), Respects R x → trees s x = trees s' x
  | .elem tag items, h => by
    rw [Respects] at h
    rw [trees, trees, treesAll_congr hR items h]
    congr 2
    · funext n; exact attrOf_congr hR n items h
    · funext n; exact classOf_congr hR n items h
  | .text t, h => by
    rw [Respects] at h
    rw [trees, trees, text_congr hR t h]
  | .branch f bs, h => by
    rw [Respects] at h
    rw [trees, trees, h.1 s s' hR, treesAt_congr hR bs h.2]
  | .forEach f body, h => by
    rw [Respects] at h
    rw [trees, trees, h s s' hR]
  | .html v, _ => by rw [trees, trees]
  | .attr _ _, _ => by simp only [trees]
  | .attrDyn _ _, _ => by simp only [trees]
  | .attrIf _ _, _ => by simp only [trees]
  | .classIf _ _, _ => by simp only [trees]
  | .classWhen _ _, _ => by simp only [trees]
  | .noop, _ => by simp only [trees]
theorem treesAll_congr (hR : R s s') : ∀ (xs : List (Dom.Item T)), RespectsAll R xs → treesAll s xs = treesAll s' xs
  | [], _ => by rw [treesAll, treesAll]
  | x :: xs, h => by
    rw [RespectsAll] at h
    rw [treesAll, treesAll, trees_congr hR x h.1, treesAll_congr hR xs h.2]
theorem treesAt_congr (hR : R s s') : ∀ (xs : List (Dom.Item T)), RespectsAll R xs → ∀ i, treesAt s xs i = treesAt s' xs i
  | _, _, none => by rw [treesAt, treesAt]
  | [], _, some _ => by rw [treesAt, treesAt]
  | x :: _, h, some 0 => by
    rw [RespectsAll] at h
    rw [treesAt, treesAt, trees_congr hR x h.1]
  | _ :: xs, h, some (i + 1) => by
    rw [RespectsAll] at h
    rw [treesAt, treesAt, treesAt_congr hR xs h.2]
end

theorem setsOnly_congr (hR : R s s') (x : Dom.Item T) (h : Respects R x) {d d' : Dom.Dom} {p : Nat}
    (hs : Dom.SetsOnly d d' p s x) : Dom.SetsOnly d d' p s' x := by
  have h1 : RespectsAll R [x] := by rw [RespectsAll, RespectsAll]; exact ⟨h, trivial⟩
  exact ⟨fun n => by rw [hs.1 n, attrOf_congr hR n [x] h1], fun n => by rw [hs.2 n, classOf_congr hR n [x] h1]⟩

mutual
theorem matchedText_congr (hR : R s s') : ∀ (t : Dom.TextSpec T), RespectsText R t → MatchedText s t → MatchedText s' t
  | .const _, _, _ => by rw [MatchedText]; trivial
  | .path f, h, hm => by
    rw [RespectsText] at h
    rw [MatchedText] at hm ⊢
    rw [← h s s' hR]; exact hm
  | .concat ts, h, hm => by
    rw [RespectsText] at h
    rw [MatchedText] at hm ⊢
    exact matchedTexts_congr hR ts h hm
theorem matchedTexts_congr (hR : R s s') : ∀ (ts : List (Dom.TextSpec T)), RespectsTexts R ts → MatchedTexts s ts → MatchedTexts s' ts
  | [], _, _ => by rw [MatchedTexts]; trivial
  | t :: ts, h, hm => by
    rw [RespectsTexts] at h
    rw [MatchedTexts] at hm ⊢
    exact ⟨matchedText_congr hR t h.1 hm.1, matchedTexts_congr hR ts h.2 hm.2⟩
end

mutual
theorem matched_congr (hR : R s s') : ∀ (x : Dom.Item T), Respects R x → Matched s x → Matched s' x
  | .elem tag items, h, hm => by
    rw [Respects] at h
    rw [Matched] at hm ⊢
    exact matchedAll_congr hR items h hm
  | .text t, h, hm => by
    rw [Respects] at h
    rw [Matched] at hm ⊢
    exact matchedText_congr hR t h hm
  | .branch f bs, h, hm => by
    rw [Respects] at h
    rw [Matched] at hm ⊢
    rw [← h.1 s s' hR]
    exact matchedAt_congr hR bs h.2 _ hm
  | .attrIf _ f, h, hm => by
    rw [Respects] at h
    rw [Matched] at hm ⊢
    rw [← h s s' hR]; exact hm
  | .classIf _ f, h, hm => by
    rw [Respects] at h
    rw [Matched] at hm ⊢
    rw [← h s s' hR]; exact hm
  | .forEach f body, _, _ => by simp only [Matched]
  | .html v, _, _ => by simp only [Matched]
  | .attr _ _, _, _ => by simp only [Matched]
  | .attrDyn _ _, _, _ => by simp only [Matched]
  | .classWhen _ _, _, _ => by simp only [Matched]
  | .noop, _, _ => by simp only [Matched]
theorem matchedAll_congr (hR : R s s') : ∀ (xs : List (Dom.Item T)), RespectsAll R xs → MatchedAll s xs → MatchedAll s' xs
  | [], _, _ => by rw [MatchedAll]; trivial
  | x :: xs, h, hm => by
    rw [RespectsAll] at h
    rw [MatchedAll] at hm ⊢
    exact ⟨matched_congr hR x h.1 hm.1, matchedAll_congr hR xs h.2 hm.2⟩
theorem matchedAt_congr (hR : R s s') : ∀ (xs : List (Dom.Item T)), RespectsAll R xs → ∀ i, MatchedAt s xs i → MatchedAt s' xs i
  | _, _, none, _ => by rw [MatchedAt]; trivial
  | [], _, some _, _ => by rw [MatchedAt]; trivial
  | x :: _, h, some 0, hm => by
    rw [RespectsAll] at h
    rw [MatchedAt] at hm ⊢
    exact matched_congr hR x h.1 hm
  | _ :: xs, h, some (i + 1), hm => by
    rw [RespectsAll] at h
    rw [MatchedAt] at hm ⊢
    exact matchedAt_congr hR xs h.2 _ hm
end
end

/-! ## The renderer has seen the last change -/

theorem seenBy_append (b : Nat) (l1 l2 : List (Entry S P V)) : seenBy b (l1 ++ l2) = seenBy b l1 ++ seenBy b l2 :=
  List.filterMap_append

/-- What the renderer found last. -/
def lastSeen (b : Nat) (st : Nat → S) (log : List (Entry S P V)) : Nat → S := (seenBy b log).getLast?.getD st

theorem lastSeen_none (b : Nat) (st : Nat → S) (l : List (Entry S P V)) (e : Entry S P V) (h : seenBy b [e] = []) :
    lastSeen b st (l ++ [e]) = lastSeen b st l := by
  rw [lastSeen, seenBy_append, h, List.append_nil]; rfl

theorem lastSeen_some (b : Nat) (st st' : Nat → S) (l : List (Entry S P V)) (e : Entry S P V) (h : seenBy b [e] = [st']) :
    lastSeen b st (l ++ [e]) = st' := by
  rw [lastSeen, seenBy_append, h]; simp

/-- The invariant. -/
def Current (c : Config S P V) (b : Nat) (st0 : Nat → S) (s : State A S P V) : Prop :=
  (∃ i src t p, Task.call i src (.notify b t p) ∈ s.tasks)
    ∨ ∀ t p, Same c t p s.world.stores (lastSeen b st0 s.world.log)

theorem current_exec [DecidableEq P] (c : Config S P V) (hl : ∀ t, Lawful (c.ops t)) (hh : ∀ t, Honest (c.ops t))
    (code : Code A P V) (b : Nat) (hb : b ∈ actorsWith Actor.stateConsumer c) (st0 : Nat → S) (w : World A S P V)
    (x : Task A P V) (r : List (Task A P V)) (h : Current c b st0 ⟨w, x :: r⟩) :
    Current c b st0 ⟨(exec c code w x).1, (exec c code w x).2 ++ r⟩ := by
  -- a task that is no call and does not touch the stores
  have plain : ∀ (w' : World A S P V) (ts : List (Task A P V)), (∀ i src b, x ≠ .call i src b) →
      w'.stores = w.stores → lastSeen b st0 w'.log = lastSeen b st0 w.log →
      Current c b st0 ⟨w', ts ++ r⟩ := by
    intro w' ts hx h1 h2
    rcases h with ⟨i, src, t, p, hm⟩ | hs
    · rcases List.mem_cons.1 hm with hm | hm
      · exact absurd hm.symm (hx _ _ _)
      · exact .inl ⟨i, src, t, p, List.mem_append_right _ hm⟩
    · refine .inr fun t p => ?_
      dsimp only
      rw [h1, h2]
      exact hs t p
  match x, plain, h with
  | .prog .done, plain, h => exact plain _ _ (fun _ _ _ h => by cases h) rfl rfl
  | .prog (.get k), plain, h => exact plain _ _ (fun _ _ _ h => by cases h) rfl rfl
  | .prog (.put a k), plain, h => exact plain _ _ (fun _ _ _ h => by cases h) rfl rfl
  | .prog (.push _ m k), plain, h => exact plain _ _ (fun _ _ _ h => by cases h) rfl rfl
  | .prog (.submit _ m k), plain, h => exact plain _ _ (fun _ _ _ h => by cases h) rfl rfl
  | .prog (.look t' p' k), plain, h =>
    by_cases hv : (c.ops t').view (w.stores t') p' = .triggerRead
    · rw [exec_look_trigger c code w t' p' k hv]; exact plain _ _ (fun _ _ _ h => by cases h) rfl rfl
    · rw [exec_look_other c code w t' p' k hv]; exact plain _ _ (fun _ _ _ h => by cases h) rfl rfl
  | .submit t' m, plain, h =>
    exact plain _ _ (fun _ _ _ h => by cases h) rfl (lastSeen_none b st0 _ _ rfl)
  | .push t' m, _, h =>
    by_cases hc : ∃ t p, Call.notify b t p ∈ mainCalls c w.stores t' m
    · obtain ⟨t, p, hc⟩ := hc
      exact .inl ⟨w.next, none, t, p, List.mem_append_left _ (List.mem_append_left _ (List.mem_map.2 ⟨_, hc, rfl⟩))⟩
    · rcases h with ⟨i, src, t, p, hm⟩ | h
      · rcases List.mem_cons.1 hm with hm | hm
        · cases hm
        · exact .inl ⟨i, src, t, p, List.mem_append_right _ hm⟩
      · refine .inr fun t p v => ?_
        have hs := (push_same c hl hh w.stores t' t m p b hb).resolve_left fun hn => hc ⟨t, p, hn⟩
        have e : lastSeen b st0 (exec c code w (.push t' m)).1.log = lastSeen b st0 w.log := lastSeen_none b st0 _ _ rfl
        dsimp only
        rw [e]
        exact (hs v).trans (h t p v)
  | .listen i l t' m, _, h =>
    by_cases hc : ((c.ops l).foreign (w.stores l) t' m).2 = []
    · rcases h with ⟨j, src, t, p, hm⟩ | h
      · rcases List.mem_cons.1 hm with hm | hm
        · cases hm
        · exact .inl ⟨j, src, t, p, List.mem_append_right _ hm⟩
      · refine .inr fun t p v => ?_
        have e : lastSeen b st0 (exec c code w (.listen i l t' m)).1.log = lastSeen b st0 w.log :=
          lastSeen_none b st0 _ _ rfl
        dsimp only
        rw [e]
        refine Iff.trans ?_ (h t p v)
        show (c.ops t).view (setStore w.stores l ((c.ops l).foreign (w.stores l) t' m).1 t) p = .value v ↔ _
        by_cases htl : t = l
        · subst htl
          have : setStore w.stores t ((c.ops t).foreign (w.stores t) t' m).1 t = ((c.ops t).foreign (w.stores t) t' m).1 := by
            simp [setStore]
          rw [this]
          exact (hh t).marked (w.stores t) t' m p v fun hp => by rw [hc] at hp; cases hp
        · have : setStore w.stores l ((c.ops l).foreign (w.stores l) t' m).1 t = w.stores t := by
            simp [setStore, htl]
          rw [this]
    · obtain ⟨p, hp⟩ := List.exists_mem_of_ne_nil _ hc
      refine .inl ⟨i, some l, l, p, List.mem_append_left _ (List.mem_map.2 ⟨_, ?_, rfl⟩)⟩
      refine List.mem_flatMap.2 ⟨p, hp, ?_⟩
      rw [notifyCalls_eq]
      exact List.mem_map.2 ⟨b, hb, rfl⟩
  | .call i src a, _, h =>
    by_cases ha : ∃ t p, a = .notify b t p
    · obtain ⟨t0, p0, rfl⟩ := ha
      refine .inr fun t p => ?_
      have e : lastSeen b st0 (exec c code w (.call i src (.notify b t0 p0))).1.log = w.stores :=
        lastSeen_some b st0 _ _ _ (by simp [seenBy])
      dsimp only
      rw [e]
      exact fun v => Iff.rfl
    · rcases h with ⟨j, src', t, p, hm⟩ | h
      · rcases List.mem_cons.1 hm with hm | hm
        · injection hm with h1 h2 h3
          exact absurd ⟨t, p, h3.symm⟩ ha
        · exact .inl ⟨j, src', t, p, List.mem_append_right _ hm⟩
      · refine .inr fun t p => ?_
        have e : lastSeen b st0 (exec c code w (.call i src a)).1.log = lastSeen b st0 w.log := by
          refine lastSeen_none b st0 _ _ ?_
          cases a with
          | up _ _ _ => rfl
          | down _ _ _ => rfl
          | notify a' t' p' =>
            have : a' ≠ b := fun h => ha ⟨t', p', by rw [h]⟩
            simp [seenBy, this]
        dsimp only
        rw [e]
        exact h t p

theorem current_run [DecidableEq P] (c : Config S P V) (hl : ∀ t, Lawful (c.ops t)) (hh : ∀ t, Honest (c.ops t))
    (code : Code A P V) (b : Nat) (hb : b ∈ actorsWith Actor.stateConsumer c) (st0 : Nat → S) (a : A) (q : Prog A P V)
    (n : Nat) : Current c b st0 (run c code n (start st0 a q)) :=
  run_inv c code (Current c b st0) (fun w x r h => current_exec c hl hh code b hb st0 w x r h) n _
    (.inr fun _ _ _ => Iff.rfl)

end Nbdl.Page
