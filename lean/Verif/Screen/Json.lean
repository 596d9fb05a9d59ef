import Verif.Screen.Props
import Verif.App.Exact
/-!
# The page of a client that is connected by JSON

As `Verif.Screen.Model`, for the systems of `Verif.App`: what comes over a connection is read by the deserializer
(`/repo/include/nbdl/app/serializer.hpp`, `serializer_js.hpp`), and the messages it answers with are applied one after
the other (`/repo/include/nbdl/app/client.hpp` lines 30–31).
-/
namespace Nbdl.Screen
open MapStore (Msg Map Payload)
open Context (Config Actor actorsWith push matchCtx)
open Replica (Setup Stores Step Wire fresh)
open Replica.Spec (shows Legal asksOnly settles told afterJoin)
open App (App emb embC writeNative)
open App.Spec (Fits Allowed)
open Spec
variable {P V : Type} [DecidableEq P]

/-- What the actors of a client observe of messages that are applied one after the other (context.hpp:156-236). -/
def pushes (a : App P V) : Stores P V → List (Wire P V) → List (Context.Event (Map P V) P V)
  | _, [] => []
  | st, (t, m) :: ws => (push a.setup.client st t m).2 ++ pushes a (push a.setup.client st t m).1 ws

/-- What the context of client `i` makes its actors observe in one step (client.hpp:30-31, context.hpp:156-243,
306-336). -/
def jsonEvents (a : App P V) (i : Nat) (s : App.Sys P V) : Step P V → List (Context.Event (Map P V) P V)
  | .deliver j =>
    if j = i then
      match s.clients[i]? with
      | some ⟨st, d :: _, _, _⟩ => pushes a st (a.clientReads d)
      | _ => []
    else []
  | .act j t m =>
    if j = i then
      match s.clients[i]? with
      | some c => (push a.setup.client c.stores t m).2
      | none => []
    else []
  | .look j t p =>
    if j = i then
      match s.clients[i]? with
      | some c => (matchCtx a.setup.client c.stores t p).2.1
      | none => []
    else []
  | _ => []

/-- The stores as the renderer, actor `b` of client `i`, finds them in the course of a history (context.hpp:140-150). -/
def jsonFound (a : App P V) (b i : Nat) : App.Sys P V → List (Step P V) → List (Stores P V)
  | _, [] => []
  | s, x :: h => notified b (jsonEvents a i s x) ++ jsonFound a b i (App.step a s x) h

/-- The page of the client that joins after `pre`, after `post` (renderer.hpp:110-118, 120-145, 179-187). -/
def jsonPageOf (a : App P V) (b : Nat) (x : Dom.Item (Stores P V)) (el : Nat) (doc : Dom.Dom) (pre post : List (Step P V)) :
    Except Dom.Fault (Dom.Dom × List (Dom.Inst (Stores P V))) :=
  (Dom.render fresh doc el x).bind fun r =>
    Dom.updates r.1 r.2 (jsonFound a b (App.run a App.start pre).clients.length (App.run a App.start (pre ++ [.join])) post)

theorem events_emb {a : App P V} {k : Allowed P V} (h : Fits a k) (i : Nat) (s : Replica.Sys P V) (hi : App.Inv k s)
    (x : Step P V) : jsonEvents a i (emb a s) x = events a.setup i s x := by
  have hnone : s.clients[i]? = none → (emb a s).clients[i]? = none := fun hc => by simp [emb, hc]
  have hsome : ∀ c, s.clients[i]? = some c → (emb a s).clients[i]? = some (embC a c) := fun c hc => by simp [emb, hc]
  cases x with
  | deliver j =>
    by_cases hj : j = i
    · simp only [jsonEvents, events, hj, if_true]
      cases hc : s.clients[i]? with
      | none => rw [hnone hc]
      | some c =>
        rw [hsome c hc]
        obtain ⟨st, inb, outb, reg⟩ := c
        cases inb with
        | nil => rfl
        | cons w rest =>
          obtain ⟨t, m⟩ := w
          have hw := (hi.2 _ (List.mem_of_getElem? hc)).1 (t, m) (by simp)
          simp only [embC, List.map_cons, App.down_lossless h (t, m) hw.1 hw.2, pushes, List.append_nil]
    · simp only [jsonEvents, events, hj, if_false]
  | act j t m =>
    by_cases hj : j = i
    · simp only [jsonEvents, events, hj, if_true]
      cases hc : s.clients[i]? with
      | none => rw [hnone hc]
      | some c => rw [hsome c hc]; rfl
    · simp only [jsonEvents, events, hj, if_false]
  | look j t p =>
    by_cases hj : j = i
    · simp only [jsonEvents, events, hj, if_true]
      cases hc : s.clients[i]? with
      | none => rw [hnone hc]
      | some c => rw [hsome c hc]; rfl
    · simp only [jsonEvents, events, hj, if_false]
  | _ => rfl

theorem found_emb {a : App P V} {k : Allowed P V} (h : Fits a k) (hu : Legal a.setup) (b i : Nat) :
    ∀ (hist : List (Step P V)) (s : Replica.Sys P V), App.Inv k s → (∀ x ∈ hist, k.step x) →
      jsonFound a b i (emb a s) hist = found a.setup b i s hist
  | [], _, _, _ => rfl
  | x :: hist, s, hi, hk => by
    rw [jsonFound, found, events_emb h i s hi x, App.step_emb h s hi x,
      found_emb h hu b i hist _ (App.inv_step hu hi x (hk x (by simp))) fun y hy => hk y (by simp [hy])]

theorem inv_run {a : App P V} {k : Allowed P V} (hu : Legal a.setup) : ∀ (hist : List (Step P V)) (s : Replica.Sys P V),
    App.Inv k s → (∀ x ∈ hist, k.step x) → App.Inv k (Replica.run a.setup s hist)
  | [], _, hi, _ => hi
  | x :: hist, s, hi, hk => by
    have e : Replica.run a.setup s (x :: hist) = Replica.run a.setup (Replica.step a.setup s x) hist := rfl
    rw [e]
    exact inv_run hu hist _ (App.inv_step hu hi x (hk x (by simp))) fun y hy => hk y (by simp [hy])

/-- C153: the page of a client that is connected by JSON is the page it would have if the messages themselves were
handed over, in every history in which the programs apply only messages that fit the connections (C113). -/
theorem json_page_same_partial (a : App P V) (k : Allowed P V) (h : Fits a k) (hu : Legal a.setup) (b : Nat)
    (x : Dom.Item (Stores P V)) (el : Nat) (doc : Dom.Dom) (pre post : List (Step P V))
    (hk : ∀ y ∈ pre ++ .join :: post, k.step y) :
    jsonPageOf a b x el doc pre post = pageOf a.setup b x el doc pre post := by
  have hpre : ∀ y ∈ pre, k.step y := fun y hy => hk y (by simp [hy])
  have hjoin : ∀ y ∈ pre ++ [.join], k.step y := fun y hy => hk y (by
    simp only [List.mem_append, List.mem_cons, List.not_mem_nil, or_false] at hy ⊢
    exact hy.imp_right .inl)
  have hpost : ∀ y ∈ post, k.step y := fun y hy => hk y (by simp [hy])
  unfold jsonPageOf pageOf screen
  rw [App.run_eq h hu pre hpre, App.run_eq h hu _ hjoin, App.length_emb,
    found_emb h hu b _ post _ (inv_run hu _ _ (App.inv_start k) hjoin) hpost]

/-- C153: the page of a client that is connected by JSON, in a browser or not, and has read what was sent to it, is the
page of what the server has, under the conditions of `page_shows_server_partial` and C113. -/
theorem json_page_partial (a : App P V) (k : Allowed P V) (h : Fits a k) (hu : Legal a.setup) (b : Nat)
    (hb : b ∈ actorsWith Actor.stateConsumer a.setup.client)
    (D : Nat → P → Prop) (x : Dom.Item (Stores P V)) (hx : Dom.Spec.Shape x) (hv : Page.Spec.Respects (Agree D) x)
    (doc : Dom.Dom) (el : Nat) (hroom : Dom.Room doc el x) (pre post : List (Step P V))
    (hk : ∀ y ∈ pre ++ .join :: post, k.step y) (hr : ∀ s, Dom.Spec.InRange s x)
    (hask : ∀ y ∈ post, asksOnly y = true)
    (hD : ∀ t p, D t p → shows (App.run a App.start pre).server t p = none ∨ (∃ y ∈ post, settles t p y)
      ∨ ∃ w0, shows (App.run a App.start pre).server t p = some w0 ∧ told t p w0 post = some w0)
    (hm : Dom.Spec.Matched (App.run a App.start (pre ++ .join :: post)).server x) :
    ∃ c, (App.run a App.start (pre ++ .join :: post)).clients[(App.run a App.start pre).clients.length]? = some c
      ∧ (c.registered = true → c.inbox = [] →
        ∃ doc' ms, jsonPageOf a b x el doc pre post = .ok (doc', ms)
          ∧ Page.Spec.IsPage doc el x (App.run a App.start (pre ++ .join :: post)).server doc') := by
  rw [json_page_same_partial a k h hu b x el doc pre post hk]
  rw [App.run_eq h hu pre fun y hy => hk y (by simp [hy])] at hD ⊢
  rw [App.run_eq h hu (pre ++ .join :: post) hk] at hm ⊢
  rw [App.length_emb]
  obtain ⟨c, hc, h5⟩ := page_shows_server_partial a.setup hu b hb D x hx hv doc el hroom pre post (fun s _ => hr s) hask
    hD hm
  exact ⟨embC a c, by simp [emb, hc], fun hreg hin => h5 hreg (by simpa [embC] using hin)⟩

/-! ## A page of a text -/

/-- The text at path 7 of type 0, or that there is none. -/
def words : Dom.Item (Stores (BitVec 32) (List Byte)) :=
  .elem "p".toList [.branch (fun s => some (if (shows s 0 7#32).isSome then 1 else 0))
    [.text (.const "none".toList),
     .text (.path fun s => some (match shows s 0 7#32 with
      | some (.value v) => v.map fun b => Char.ofNat b.toNat
      | _ => []))]]

theorem words_fine (D : Nat → BitVec 32 → Prop) (h7 : D 0 7#32) :
    Dom.Spec.Shape words ∧ Page.Spec.Respects (Agree D) words ∧ Dom.Room Dom.doc0 0 words
      ∧ (∀ s, Dom.Spec.InRange s words) ∧ ∀ s, Dom.Spec.Matched s words := by
  refine ⟨?_, ?_, ⟨by decide, by simp [Dom.doc0], fun h => h.elim, by simp [words, Dom.Spec.attrNames],
    by simp [words, Dom.Spec.classNames]⟩, fun s => ?_, fun s => ?_⟩
  · simp only [words, Dom.Spec.Shape, Dom.Spec.ShapeAll, Dom.Spec.OneNode, Dom.Spec.attrNames, Dom.Spec.classNames]
    simp
  · simp only [words, Page.Spec.Respects, Page.Spec.RespectsAll, Page.Spec.RespectsText]
    refine ⟨⟨?_, trivial, ?_, trivial⟩, trivial⟩
    · intro s s' h; rw [h 0 7#32 h7]
    · intro s s' h; rw [h 0 7#32 h7]
  · simp only [words, Dom.Spec.InRange, Dom.Spec.InRangeAll]
    refine ⟨⟨⟨_, rfl, ?_⟩, trivial, trivial, trivial⟩, trivial⟩
    split <;> decide
  · simp only [words, Dom.Spec.Matched, Dom.Spec.MatchedAll]
    refine ⟨?_, trivial⟩
    split
    · rw [Dom.Spec.MatchedAt, Dom.Spec.MatchedAt, Dom.Spec.Matched, Dom.Spec.MatchedText]; simp
    · rw [Dom.Spec.MatchedAt, Dom.Spec.Matched, Dom.Spec.MatchedText]; trivial

/-- The second client of `App.later` shows the last text; it joined later and was told of an update. -/
example : (∀ y ∈ [.join] ++ App.first ++ .join :: App.later, App.plain.step y)
    ∧ (∀ y ∈ App.later, asksOnly y = true) ∧ (∃ y ∈ App.later, settles 0 7#32 y)
    ∧ 1 ∈ actorsWith Actor.stateConsumer (App.texts .native).setup.client
    ∧ Dom.lookAt 0 (jsonPageOf (App.texts .native) 1 words 0 Dom.doc0 ([.join] ++ App.first) App.later)
      = .seen [(8, .elem ['p']), (7, .text ['c'])] := by
  refine ⟨App.plain_steps, by decide, ⟨.produce 0 (.downUpdate 7 (.value [98#8])), by simp [App.later], rfl, rfl⟩,
    by decide, by decide +kernel⟩

/-- VIOLATION of C153 by texts with a NUL: the page of the client shows only what is before it. -/
theorem nul_on_page_violated :
    let post : List (Step (BitVec 32) (List Byte)) := [.produce 0 (.downCreate 7#32 (.value [97#8, 0#8, 98#8])), .deliver 0]
    Dom.lookAt 0 (jsonPageOf (App.texts .native) 1 words 0 Dom.doc0 [] post) = .seen [(8, .elem ['p']), (7, .text ['a'])]
    ∧ Dom.lookAt 0 (Dom.render (App.run (App.texts .native) App.start ([] ++ .join :: post)).server Dom.doc0 0 words)
      = .seen [(8, .elem ['p']), (7, .text ['a', Char.ofNat 0, 'b'])] := by
  refine ⟨by decide +kernel, by decide +kernel⟩

end Nbdl.Screen
