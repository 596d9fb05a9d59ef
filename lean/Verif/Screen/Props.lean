import Verif.Screen.Lemmas
/-! What the pages of clients show (C153). -/
namespace Nbdl.Screen
open MapStore (Msg Map Payload)
open Context (Config Actor actorsWith)
open Replica Replica.Spec Spec
variable {P V : Type} [DecidableEq P]

theorem joined (u : Setup P V) (pre : List (Step P V)) :
    (run u start (pre ++ [.join])).clients[(run u start pre).clients.length]? = some ⟨fresh, [], [], true⟩ := by
  rw [run_append]
  simp [run, step]

theorem run_join (u : Setup P V) (pre post : List (Step P V)) :
    run u start (pre ++ .join :: post) = run u (run u start (pre ++ [.join])) post := by
  rw [← run_append, List.append_assoc]
  rfl

/-- The page of the client that joins after `pre`, after `post`. -/
def pageOf (u : Setup P V) (b : Nat) (x : Dom.Item (Stores P V)) (el : Nat) (doc : Dom.Dom) (pre post : List (Step P V)) :
    Except Dom.Fault (Dom.Dom × List (Dom.Inst (Stores P V))) :=
  screen u b (run u start pre).clients.length x el doc (run u start (pre ++ [.join])) post

/-- The stores its renderer has found, beginning with those it was rendered with. -/
def given (u : Setup P V) (b : Nat) (pre post : List (Step P V)) : List (Stores P V) :=
  fresh :: found u b (run u start pre).clients.length (run u start (pre ++ [.join])) post

/-- C153: over every history of a server and its clients, the page of a client is always the one its specification
stands for with what the client's own stores show.

Partial: the specification is one for which updates work (C48), what it shows depends on the values at some paths only,
and what it shows is there. -/
theorem own_page_partial (u : Setup P V) (hu : Legal u) (b : Nat) (hb : b ∈ actorsWith Actor.stateConsumer u.client)
    (D : Nat → P → Prop) (x : Dom.Item (Stores P V)) (hx : Dom.Spec.Shape x) (hv : Page.Spec.Respects (Agree D) x)
    (doc : Dom.Dom) (el : Nat) (hroom : Dom.Room doc el x) (pre post : List (Step P V))
    (hr : ∀ s ∈ given u b pre post, Dom.Spec.InRange s x) :
    ∃ c, (run u start (pre ++ .join :: post)).clients[(run u start pre).clients.length]? = some c
      ∧ ∀ st, Agree D c.stores st → Dom.Spec.Matched st x →
        ∃ doc' ms, pageOf u b x el doc pre post = .ok (doc', ms) ∧ Page.Spec.IsPage doc el x st doc' := by
  obtain ⟨c, h1, h2⟩ := found_run u hu b (run u start pre).clients.length hb post _ _ fresh (joined u pre) (fun _ _ => rfl)
  rw [run_join]
  refine ⟨c, h1, fun st hst hm => ?_⟩
  exact follow x hx hv doc el hroom fresh _ st (fun t p hd => (h2 t p).trans (hst t p hd))
    (fun t p hd => ((h2 t p).trans (hst t p hd)).symm) hr hm

/-- C153: the page of a client that is connected and has read what was sent to it shows what the server has, if the
server showed nothing, when the client joined, at the paths the page looks at, or something has been created, updated
or deleted there since, or the first thing told of it since is what the server shows (`Replica.agrees_exact`: at no
other paths the client shows what the server shows). -/
theorem page_shows_server_partial (u : Setup P V) (hu : Legal u) (b : Nat)
    (hb : b ∈ actorsWith Actor.stateConsumer u.client)
    (D : Nat → P → Prop) (x : Dom.Item (Stores P V)) (hx : Dom.Spec.Shape x) (hv : Page.Spec.Respects (Agree D) x)
    (doc : Dom.Dom) (el : Nat) (hroom : Dom.Room doc el x) (pre post : List (Step P V))
    (hr : ∀ s ∈ given u b pre post, Dom.Spec.InRange s x)
    (hask : ∀ y ∈ post, asksOnly y = true)
    (hD : ∀ t p, D t p → shows (run u start pre).server t p = none ∨ (∃ y ∈ post, settles t p y)
      ∨ ∃ w0, shows (run u start pre).server t p = some w0 ∧ told t p w0 post = some w0)
    (hm : Dom.Spec.Matched (run u start (pre ++ .join :: post)).server x) :
    ∃ c, (run u start (pre ++ .join :: post)).clients[(run u start pre).clients.length]? = some c
      ∧ (c.registered = true → c.inbox = [] →
        ∃ doc' ms, pageOf u b x el doc pre post = .ok (doc', ms)
          ∧ Page.Spec.IsPage doc el x (run u start (pre ++ .join :: post)).server doc') := by
  obtain ⟨c, h1, h2⟩ := own_page_partial u hu b hb D x hx hv doc el hroom pre post hr
  refine ⟨c, h1, fun hreg hin => h2 _ (fun t p hd => ?_) hm⟩
  obtain ⟨c', h3, h4⟩ := agrees_exact u hu pre post hask t p
  rw [h1] at h3
  cases h3
  exact (h4 hreg hin).2 (hD t p hd)

/-- C153: at any time, whatever has not been read yet, the page of a client that joins while the server shows nothing
is a page of what the server had at some time since, and it never goes back. -/
theorem page_shows_past_partial (u : Setup P V) (hu : Legal u) (b : Nat) (hb : b ∈ actorsWith Actor.stateConsumer u.client)
    (x : Dom.Item (Stores P V)) (hx : Dom.Spec.Shape x) (hv : Page.Spec.Respects (Agree fun _ _ => True) x)
    (doc : Dom.Dom) (el : Nat) (hroom : Dom.Room doc el x) (pre post : List (Step P V))
    (hr : ∀ k, ∀ s ∈ given u b pre (post.take k), Dom.Spec.InRange s x)
    (hask : ∀ y ∈ post, asksOnly y = true) (h0 : ∀ t p, shows (run u start pre).server t p = none)
    (hm : ∀ k, Dom.Spec.Matched (run u start (afterJoin pre post k)).server x) :
    ∃ f : Nat → Nat, (∀ k, f k ≤ k) ∧ (∀ k, k < post.length → f k ≤ f (k + 1)) ∧ ∀ k, k ≤ post.length →
      ∃ doc' ms, pageOf u b x el doc pre (post.take k) = .ok (doc', ms)
        ∧ Page.Spec.IsPage doc el x (run u start (afterJoin pre post (f k))).server doc' := by
  obtain ⟨f, hf1, hf2, hf3⟩ := founder_follows_partial u hu pre post hask h0
  refine ⟨f, hf1, hf2, fun k hk => ?_⟩
  obtain ⟨c, h1, h2, -⟩ := hf3 k hk
  obtain ⟨c', h3, h4⟩ := own_page_partial u hu b hb (fun _ _ => True) x hx hv doc el hroom pre (post.take k) (hr k)
  have h1' : (run u start (pre ++ .join :: post.take k)).clients[(run u start pre).clients.length]? = some c := h1
  rw [h1'] at h3
  cases h3
  exact h4 _ (fun t p _ => h2 t p) (hm (f k))

/-! ## A page for the examples -/

/-- The number at path 7 of type 0, or that there is none. -/
def number : Dom.Item (Stores Nat Nat) :=
  .elem "p".toList [.branch (fun s => some (if (shows s 0 7).isSome then 1 else 0))
    [.text (.const "none".toList),
     .text (.path fun s => some (match shows s 0 7 with
      | some (.value v) => Dom.digits v
      | _ => []))]]

theorem number_shape : Dom.Spec.Shape number := by
  simp only [number, Dom.Spec.Shape, Dom.Spec.ShapeAll, Dom.Spec.OneNode, Dom.Spec.attrNames, Dom.Spec.classNames]
  simp

theorem number_respects (D : Nat → Nat → Prop) (h7 : D 0 7) : Page.Spec.Respects (Agree D) number := by
  simp only [number, Page.Spec.Respects, Page.Spec.RespectsAll, Page.Spec.RespectsText]
  refine ⟨⟨?_, trivial, ?_, trivial⟩, trivial⟩
  · intro s s' h; rw [h 0 7 h7]
  · intro s s' h; rw [h 0 7 h7]

theorem number_inRange (s : Stores Nat Nat) : Dom.Spec.InRange s number := by
  simp only [number, Dom.Spec.InRange, Dom.Spec.InRangeAll]
  refine ⟨⟨⟨_, rfl, ?_⟩, trivial, trivial, trivial⟩, trivial⟩
  split <;> decide

theorem number_matched (s : Stores Nat Nat) : Dom.Spec.Matched s number := by
  simp only [number, Dom.Spec.Matched, Dom.Spec.MatchedAll]
  refine ⟨?_, trivial⟩
  split
  · rw [Dom.Spec.MatchedAt, Dom.Spec.MatchedAt, Dom.Spec.Matched, Dom.Spec.MatchedText]; simp
  · rw [Dom.Spec.MatchedAt, Dom.Spec.Matched, Dom.Spec.MatchedText]; trivial

theorem number_room : Dom.Room Dom.doc0 0 number where
  node := by decide
  children := by simp [Dom.doc0]
  filler h := h.elim
  attrs := by simp [number, Dom.Spec.attrNames]
  classes := by simp [number, Dom.Spec.classNames]

/-- The first client sees what the database made of its request. -/
example : 1 ∈ actorsWith Actor.stateConsumer sample.client
    ∧ Dom.lookAt 0 (pageOf sample 1 number 0 Dom.doc0 [] (sampleFirst.take 4)) = .seen [(8, .elem ['p']), (7, .text ['n', 'o', 'n', 'e'])]
    ∧ Dom.lookAt 0 (pageOf sample 1 number 0 Dom.doc0 [] sampleFirst) = .seen [(8, .elem ['p']), (7, .text ['1'])]
    ∧ (∀ t p, shows (run sample start []).server t p = none)
    ∧ ((run sample start ([] ++ .join :: sampleFirst)).clients.map fun c => (c.registered, c.inbox.length)) = [(true, 0)] := by
  refine ⟨by decide, by decide +kernel, by decide +kernel, fun _ _ => rfl, by decide⟩

/-- The second client, which joins later, is told of an update. -/
example : (∃ y ∈ sampleLater, settles 0 7 y)
    ∧ Dom.lookAt 0 (pageOf sample 1 number 0 Dom.doc0 (.join :: sampleFirst) sampleLater)
      = .seen [(8, .elem ['p']), (7, .text ['2'])]
    ∧ Dom.lookAt 0 (pageOf sample 1 number 0 Dom.doc0 (.join :: sampleFirst) (sampleLater ++ [.deliver 1, .deliver 1]))
      = .seen [(8, .elem ['p']), (7, .text ['3'])] := by
  refine ⟨⟨.produce 0 (.downUpdate 7 (.value 2)), by simp [sampleLater], rfl, rfl⟩, by decide +kernel, by decide +kernel⟩

/-- VIOLATION of C153: what there was before a client joined is never on its page, whatever it asks for: the server has
a value, the client is connected, asks for it and looks for it, nothing is on the way, and the page says that there is
none. -/
theorem existing_not_on_page_violated :
    let pre : List (Step Nat Nat) := [.produce 0 (.downCreate 7 (.value 1))]
    let post : List (Step Nat Nat) := [.act 0 0 (.upRead 7), .look 0 0 7, .serve 0, .deliver 0]
    Dom.lookAt 0 (pageOf sample 1 number 0 Dom.doc0 pre post) = .seen [(8, .elem ['p']), (7, .text ['n', 'o', 'n', 'e'])]
    ∧ Dom.lookAt 0 (Dom.render (run sample start (pre ++ .join :: post)).server Dom.doc0 0 number)
      = .seen [(8, .elem ['p']), (7, .text ['1'])]
    ∧ ((run sample start (pre ++ .join :: post)).clients.map fun c => (c.registered, c.inbox.length, c.outbox.length))
      = [(true, 0, 0)] := by
  refine ⟨by decide +kernel, by decide +kernel, by decide +kernel⟩

/-- VIOLATION of C153: a late answer to a read puts a value on the page which the server did not have while the client
was there, and there it stays. -/
theorem late_answer_on_page_violated :
    let pre : List (Step Nat Nat) := [.produce 0 (.downCreate 7 (.value 2))]
    let post : List (Step Nat Nat) := [.produce 0 (.downRead 7 (.value 1)), .deliver 0]
    Dom.lookAt 0 (pageOf sample 1 number 0 Dom.doc0 pre post) = .seen [(8, .elem ['p']), (7, .text ['1'])]
    ∧ (∀ k, k ≤ 2 → Dom.lookAt 0 (Dom.render (run sample start (afterJoin pre post k)).server Dom.doc0 0 number)
      = .seen [(8, .elem ['p']), (7, .text ['2'])])
    ∧ ((run sample start (pre ++ .join :: post)).clients.map fun c => (c.registered, c.inbox.length)) = [(true, 0)] := by
  refine ⟨by decide +kernel, by decide +kernel, by decide +kernel⟩

end Nbdl.Screen
