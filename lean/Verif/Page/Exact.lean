import Verif.Page.Props
import Verif.Dom.Right
/-! When a page that is kept by a context is right (C124). -/
namespace Nbdl.Page
open MapStore (Msg View Payload Map)
open Context (Config Actor StoreOps actorsWith Lawful mapOps)
open Nested Nested.Spec Spec
variable {A S P V : Type}

namespace Spec

/-- The states that the renderer, actor `b`, has found, the last one first. -/
def found (b : Nat) (st : Nat → S) (log : List (Entry S P V)) : (Nat → S) × List (Nat → S) :=
  match (seenBy b log).reverse with
  | [] => (st, [])
  | s :: before => (s, before ++ [st])

end Spec

/-- C124, exactly, for specifications for which updates work and that depend on the values in the stores only: when
everything has returned the page is the one its specification stands for with the stores as they are now, just if for
every path that is shown the last value it led to, among the states that the renderer has found, is the present
one. -/
theorem page_right_iff [DecidableEq P] (c : Config S P V) (hl : ∀ t, Lawful (c.ops t)) (hh : ∀ t, Honest (c.ops t))
    (code : Code A P V) (b : Nat) (hb : b ∈ actorsWith Actor.stateConsumer c)
    (x : Dom.Item (Nat → S)) (hx : Dom.Spec.Shape x) (hv : Respects (SameValues c) x) (doc : Dom.Dom) (el : Nat)
    (hroom : Dom.Room doc el x) (st : Nat → S) (a : A) (q : Prog A P V) (n : Nat)
    (hrest : (run c code n (start st a q)).tasks = [])
    (hr : ∀ s ∈ st :: seenBy b (run c code n (start st a q)).world.log, Dom.Spec.InRange s x) :
    ∃ doc' ms, page b x el doc st (run c code n (start st a q)).world.log = .ok (doc', ms)
      ∧ (IsPage doc el x (run c code n (start st a q)).world.stores doc'
        ↔ Dom.Spec.Current (found b st (run c code n (start st a q)).world.log) x) := by
  have hcur : SameValues c (lastSeen b st (run c code n (start st a q)).world.log)
      (run c code n (start st a q)).world.stores := by
    rcases current_run c hl hh code b hb st a q n with ⟨i, src, t, p, h⟩ | h
    · rw [hrest] at h; cases h
    · exact fun t p => (same_shows c t p _ _ (h t p)).symm
  have hcur' : SameValues c (run c code n (start st a q)).world.stores
      (lastSeen b st (run c code n (start st a q)).world.log) := fun t p => (hcur t p).symm
  generalize (run c code n (start st a q)).world.stores = now at *
  unfold page found
  unfold lastSeen at hcur hcur'
  generalize seenBy b (run c code n (start st a q)).world.log = seen at *
  rcases List.eq_nil_or_concat seen with rfl | ⟨ss, s, rfl⟩
  · obtain ⟨h', ms, ids, e, hch, hsh, -, hot, -, -, hset⟩ := Dom.render_correct_partial x st doc el hx
      (hr st List.mem_cons_self) hroom
    refine ⟨h', ms, by simp only [Dom.render, e, Except.map, Except.bind, Dom.updates],
      fun _ => Dom.current_new st x, fun _ => ⟨⟨ids, hch, ?_⟩, hot, ?_⟩⟩
    · rw [← trees_congr hcur x hv]; exact hsh
    · exact setsOnly_congr hcur x hv hset
  · rw [List.concat_eq_append] at hcur hcur' hr ⊢
    have hg : (ss ++ [s]).getLast?.getD st = s := by simp
    rw [hg] at hcur hcur'
    obtain ⟨h1, m1, h2, m2, ids, e1, e2, hch, hiff⟩ := Dom.update_right_iff x st ss s doc el hx hr hroom
    obtain ⟨h1', m1', h2', m2', ids', e1', e2', -, -, -, hot, -⟩ := Dom.update_shows_partial x st ss s doc el hx hr hroom
    rw [e1] at e1'
    obtain ⟨rfl, rfl⟩ : h1 = h1' ∧ m1 = m1' := by simpa using e1'
    rw [e2] at e2'
    obtain ⟨rfl, rfl⟩ : h2 = h2' ∧ m2 = m2' := by simpa using e2'
    refine ⟨h2, m2, by rw [e1]; exact e2, ?_⟩
    have ef : (match (ss ++ [s]).reverse with
        | [] => (st, [])
        | s :: before => (s, before ++ [st])) = (s, ss.reverse ++ [st]) := by
      rw [List.reverse_append]; rfl
    rw [ef, ← hiff]
    constructor
    · rintro ⟨⟨ids2, hch2, hsh2⟩, -, hset2⟩
      rw [hch] at hch2
      obtain rfl := List.append_cancel_left hch2
      exact ⟨by rw [trees_congr hcur x hv]; exact hsh2, setsOnly_congr hcur' x hv hset2⟩
    · rintro ⟨hsh2, hset2⟩
      exact ⟨⟨ids, hch, by rw [← trees_congr hcur x hv]; exact hsh2⟩, hot, setsOnly_congr hcur x hv hset2⟩

/-- A page for the examples: the number at path 5 of type 0, as a text. -/
def plain : Dom.Item (Nat → Map Nat Nat) :=
  .elem "p".toList [.text (.path fun s => match shows sample s 0 5 with
    | some (.value v) => some (Dom.digits v)
    | _ => none)]

example : Dom.Spec.Shape plain ∧ Respects (SameValues sample) plain ∧ Dom.Room Dom.doc0 0 plain
    ∧ ∀ s, Dom.Spec.InRange s plain := by
  refine ⟨?_, ?_, ⟨by decide, by simp [Dom.doc0], fun h => h.elim, by simp [plain, Dom.Spec.attrNames],
    by simp [plain, Dom.Spec.classNames]⟩, fun s => by simp [plain, Dom.Spec.InRange, Dom.Spec.InRangeAll]⟩
  · simp [plain, Dom.Spec.Shape, Dom.Spec.ShapeAll, Dom.Spec.attrNames, Dom.Spec.classNames]
  · simp only [plain, Respects, RespectsAll, RespectsText, and_true]
    intro s s' h; rw [h 0 5]

/-- C124 does not hold for texts whose path leads nowhere any more: a value that has been deleted is still shown. -/
theorem page_deleted_violated :
    (run sample (fun _ => .done : Code Nat Nat Nat) 40 (start (fun _ => MapStore.empty) 0
      (.push 0 (.downCreate 5 (.value 1)) (.push 0 (.downDelete 5) .done)))).tasks.length = 0
    ∧ Dom.lookAt 0 (page 1 plain 0 Dom.doc0 (fun _ => MapStore.empty) (run sample (fun _ => .done : Code Nat Nat Nat) 40
        (start (fun _ => MapStore.empty) 0
          (.push 0 (.downCreate 5 (.value 1)) (.push 0 (.downDelete 5) .done)))).world.log)
      = .seen [(8, .elem ['p']), (7, .text ['1'])]
    ∧ Dom.lookAt 0 (Dom.render (run sample (fun _ => .done : Code Nat Nat Nat) 40
        (start (fun _ => MapStore.empty) 0
          (.push 0 (.downCreate 5 (.value 1)) (.push 0 (.downDelete 5) .done)))).world.stores Dom.doc0 0 plain)
      = .seen [(8, .elem ['p']), (7, .text [])] := by decide +kernel

end Nbdl.Page
