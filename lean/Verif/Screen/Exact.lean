import Verif.Screen.Props
/-! Exactly when the page of a client shows what the server has (C153). -/
namespace Nbdl.Screen
open MapStore (Msg Map Payload)
open Context (Config Actor actorsWith)
open Replica Replica.Spec Spec
variable {P V : Type} [DecidableEq P]

namespace Spec

/-- The states a page has been given, the last one first. -/
def lastFirst {S : Type} (st : S) (seen : List S) : S × List S :=
  match seen.reverse with
  | [] => (st, [])
  | s :: before => (s, before ++ [st])

end Spec

theorem follow_iff {S : Type} {R : (Nat → S) → (Nat → S) → Prop} (x : Dom.Item (Nat → S)) (hx : Dom.Spec.Shape x)
    (hv : Page.Spec.Respects R x) (doc : Dom.Dom) (el : Nat) (hroom : Dom.Room doc el x) (st : Nat → S)
    (seen : List (Nat → S)) (now : Nat → S) (hcur : R (seen.getLast?.getD st) now) (hcur' : R now (seen.getLast?.getD st))
    (hr : ∀ s ∈ st :: seen, Dom.Spec.InRange s x) :
    ∃ doc' ms, ((Dom.render st doc el x).bind fun r => Dom.updates r.1 r.2 seen) = .ok (doc', ms)
      ∧ (Page.Spec.IsPage doc el x now doc' ↔ Dom.Spec.Current (lastFirst st seen) x) := by
  rcases List.eq_nil_or_concat seen with rfl | ⟨ss, s, rfl⟩
  · obtain ⟨h', ms, ids, e, hch, hsh, -, hot, -, -, hset⟩ := Dom.render_correct_partial x st doc el hx
      (hr st List.mem_cons_self) hroom
    refine ⟨h', ms, by simp only [Dom.render, e, Except.map, Except.bind, Dom.updates],
      fun _ => Dom.current_new st x, fun _ => ⟨⟨ids, hch, ?_⟩, hot, ?_⟩⟩
    · rw [← Page.trees_congr hcur x hv]; exact hsh
    · exact Page.setsOnly_congr hcur x hv hset
  · rw [List.concat_eq_append] at hcur hcur' hr ⊢
    have hg : (ss ++ [s]).getLast?.getD st = s := by simp
    rw [hg] at hcur hcur'
    obtain ⟨h1, m1, h2, m2, ids, e1, e2, hch, hiff⟩ := Dom.update_right_iff x st ss s doc el hx hr hroom
    obtain ⟨h1', m1', h2', m2', ids', e1', e2', -, -, -, hot, -⟩ := Dom.update_shows_partial x st ss s doc el hx hr hroom
    rw [e1] at e1'
    obtain ⟨rfl, rfl⟩ : h1 = h1' ∧ m1 = m1' := by simpa using e1'
    rw [e2] at e2'
    obtain ⟨rfl, rfl⟩ : h2 = h2' ∧ m2 = m2' := by simpa using e2'
    refine ⟨h2, m2, by rw [e1]; exact e2, ?_⟩
    have ef : lastFirst st (ss ++ [s]) = (s, ss.reverse ++ [st]) := by
      rw [lastFirst, List.reverse_append]; rfl
    rw [ef, ← hiff]
    constructor
    · rintro ⟨⟨ids2, hch2, hsh2⟩, -, hset2⟩
      rw [hch] at hch2
      obtain rfl := List.append_cancel_left hch2
      exact ⟨by rw [Page.trees_congr hcur x hv]; exact hsh2, Page.setsOnly_congr hcur' x hv hset2⟩
    · rintro ⟨hsh2, hset2⟩
      exact ⟨⟨ids, hch, by rw [← Page.trees_congr hcur x hv]; exact hsh2⟩, hot, Page.setsOnly_congr hcur x hv hset2⟩

/-- C153, exactly, for what the client's own stores show: the page is right just if for every path that is shown the
last value it led to, among the states that the renderer has found, is the present one. -/
theorem own_page_iff (u : Setup P V) (hu : Legal u) (b : Nat) (hb : b ∈ actorsWith Actor.stateConsumer u.client)
    (D : Nat → P → Prop) (x : Dom.Item (Stores P V)) (hx : Dom.Spec.Shape x) (hv : Page.Spec.Respects (Agree D) x)
    (doc : Dom.Dom) (el : Nat) (hroom : Dom.Room doc el x) (pre post : List (Step P V))
    (hr : ∀ s ∈ given u b pre post, Dom.Spec.InRange s x) :
    ∃ c, (run u start (pre ++ .join :: post)).clients[(run u start pre).clients.length]? = some c
      ∧ ∀ st, Agree D c.stores st →
        ∃ doc' ms, pageOf u b x el doc pre post = .ok (doc', ms)
          ∧ (Page.Spec.IsPage doc el x st doc' ↔ Dom.Spec.Current (lastFirst fresh
              (found u b (run u start pre).clients.length (run u start (pre ++ [.join])) post)) x) := by
  obtain ⟨c, h1, h2⟩ := found_run u hu b (run u start pre).clients.length hb post _ _ fresh (joined u pre) (fun _ _ => rfl)
  rw [run_join]
  refine ⟨c, h1, fun st hst => ?_⟩
  exact follow_iff x hx hv doc el hroom fresh _ st (fun t p hd => (h2 t p).trans (hst t p hd))
    (fun t p hd => ((h2 t p).trans (hst t p hd)).symm) hr

/-- C153, exactly, for what the server has, at the paths at which the client agrees with it: no condition on what the
paths of the page lead to is needed then. -/
theorem server_page_iff (u : Setup P V) (hu : Legal u) (b : Nat) (hb : b ∈ actorsWith Actor.stateConsumer u.client)
    (D : Nat → P → Prop) (x : Dom.Item (Stores P V)) (hx : Dom.Spec.Shape x) (hv : Page.Spec.Respects (Agree D) x)
    (doc : Dom.Dom) (el : Nat) (hroom : Dom.Room doc el x) (pre post : List (Step P V))
    (hr : ∀ s ∈ given u b pre post, Dom.Spec.InRange s x)
    (hask : ∀ y ∈ post, asksOnly y = true)
    (hD : ∀ t p, D t p → shows (run u start pre).server t p = none ∨ (∃ y ∈ post, settles t p y)
      ∨ ∃ w0, shows (run u start pre).server t p = some w0 ∧ told t p w0 post = some w0) :
    ∃ c, (run u start (pre ++ .join :: post)).clients[(run u start pre).clients.length]? = some c
      ∧ (c.registered = true → c.inbox = [] →
        ∃ doc' ms, pageOf u b x el doc pre post = .ok (doc', ms)
          ∧ (Page.Spec.IsPage doc el x (run u start (pre ++ .join :: post)).server doc'
            ↔ Dom.Spec.Current (lastFirst fresh
              (found u b (run u start pre).clients.length (run u start (pre ++ [.join])) post)) x)) := by
  obtain ⟨c, h1, h2⟩ := own_page_iff u hu b hb D x hx hv doc el hroom pre post hr
  refine ⟨c, h1, fun hreg hin => h2 _ (fun t p hd => ?_)⟩
  obtain ⟨c', h3, h4⟩ := agrees_exact u hu pre post hask t p
  rw [h1] at h3
  cases h3
  exact (h4 hreg hin).2 (hD t p hd)

/-- A page whose text has nothing to show when there is no number. -/
def bare : Dom.Item (Stores Nat Nat) :=
  .elem "p".toList [.text (.path fun s => match shows s 0 7 with
    | some (.value v) => some (Dom.digits v)
    | _ => none)]

/-- A value that is made and deleted. -/
def comesAndGoes : List (Step Nat Nat) :=
  [.produce 0 (.downCreate 7 (.value 1)), .deliver 0, .produce 0 (.downDelete 7), .deliver 0]

example : Dom.Spec.Shape bare ∧ Page.Spec.Respects (Agree fun t p => t = 0 ∧ p = 7) bare ∧ Dom.Room Dom.doc0 0 bare
    ∧ (∀ s, Dom.Spec.InRange s bare) ∧ (∀ y ∈ comesAndGoes, asksOnly y = true)
    ∧ ∀ t p, shows (run sample start []).server t p = none := by
  refine ⟨?_, ?_, ⟨by decide, by simp [Dom.doc0], fun h => h.elim, by simp [bare, Dom.Spec.attrNames],
    by simp [bare, Dom.Spec.classNames]⟩, fun s => by simp [bare, Dom.Spec.InRange, Dom.Spec.InRangeAll], by decide,
    fun _ _ => rfl⟩
  · simp [bare, Dom.Spec.Shape, Dom.Spec.ShapeAll, Dom.Spec.attrNames, Dom.Spec.classNames]
  · simp only [bare, Page.Spec.Respects, Page.Spec.RespectsAll, Page.Spec.RespectsText, and_true]
    intro s s' h; rw [h 0 7 ⟨rfl, rfl⟩]

/-- VIOLATION of C153: what has been deleted at the server stays on the pages of clients that show it as a text. -/
theorem deleted_on_page_violated :
    Dom.lookAt 0 (pageOf sample 1 bare 0 Dom.doc0 [] comesAndGoes) = .seen [(8, .elem ['p']), (7, .text ['1'])]
    ∧ Dom.lookAt 0 (Dom.render (run sample start ([] ++ .join :: comesAndGoes)).server Dom.doc0 0 bare)
      = .seen [(8, .elem ['p']), (7, .text [])]
    ∧ ((run sample start ([] ++ .join :: comesAndGoes)).clients.map fun c => (c.registered, c.inbox.length)) = [(true, 0)] := by
  refine ⟨by decide +kernel, by decide +kernel, by decide +kernel⟩

end Nbdl.Screen
