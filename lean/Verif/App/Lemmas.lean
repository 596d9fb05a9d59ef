import Verif.App.Spec
import Verif.Replica.Props
import Verif.Deser.Props
import Verif.DeserJs.Props
/-! A connection that carries JSON does what one that carries messages does. -/
namespace Nbdl.App
open Nbdl.Bind (Ty Tys Json)
open MapStore (Msg Map Payload)
open Context (push matchCtx)
open Replica (Wire Stores Setup Step downTo upTo fresh sends effect)
open Replica.Spec (shows Legal)
open Spec
variable {P V : Type} [DecidableEq P]

theorem up_lossless {a : App P V} {k : Allowed P V} (h : Fits a k) (w : Wire P V)
    (hu : w.2.isUpstream = true) (hk : k.msg w) : readNative a.upstream (a.clientWrites w) = [w] := by
  have hd := h.upstream w hu hk
  unfold App.clientWrites readNative
  cases hp : a.platform with
  | native =>
    obtain ⟨h1, -, h3, -⟩ := h.native hp
    simp only
    rw [Deser.deserialize_serialize_partial a.upstream.sys a.upstream.msgs h1 _ _ (a.upstream.enc w) (h3 w hu hk) rfl]
    simp only [received, hd]
  | browser e =>
    obtain ⟨h1, h2, -, h4, -⟩ := h.browser e hp
    obtain ⟨h5, h6⟩ := h4 w hu hk
    simp only
    rw [(DeserJs.browser_to_server_partial h1 a.upstream.sys a.upstream.msgs h2 (a.upstream.enc w) h5 _ _ rfl).2 h6]
    simp only [received, hd]

theorem down_lossless {a : App P V} {k : Allowed P V} (h : Fits a k) (w : Wire P V)
    (hu : w.2.isUpstream = false) (hk : k.msg w) : a.clientReads (writeNative a.downstream w) = [w] := by
  have hd := h.downstream w hu hk
  unfold App.clientReads
  cases hp : a.platform with
  | native =>
    obtain ⟨-, h2, -, h4⟩ := h.native hp
    simp only
    unfold readNative
    rw [Deser.deserialize_serialize_partial a.downstream.sys a.downstream.msgs h2 _ _ (a.downstream.enc w) (h4 w hu hk) rfl]
    simp only [received, hd]
  | browser e =>
    obtain ⟨h1, -, h3, -, h4⟩ := h.browser e hp
    obtain ⟨h5, h6⟩ := h4 w hu hk
    simp only
    unfold readBrowser writeNative
    rw [(DeserJs.server_to_browser_partial h1 a.downstream.sys a.downstream.msgs h3 (a.downstream.enc w) h5).2 h6]
    simp only [received, hd]

/-- The client whose connection carries documents. -/
def embC (a : App P V) (c : Replica.Client P V) : Client P V :=
  ⟨c.stores, c.inbox.map (writeNative a.downstream), c.outbox.map a.clientWrites, c.registered⟩

/-- The system whose connections carry documents. -/
def emb (a : App P V) (s : Replica.Sys P V) : Sys P V := ⟨s.server, s.clients.map (embC a)⟩

/-- Only allowed messages are on their way. -/
def InvC (k : Allowed P V) (c : Replica.Client P V) : Prop :=
  (∀ w ∈ c.inbox, w.2.isUpstream = false ∧ k.msg w) ∧ ∀ w ∈ c.outbox, w.2.isUpstream = true ∧ k.msg w

/-- … and only allowed entities are at the server. -/
def Inv (k : Allowed P V) (s : Replica.Sys P V) : Prop :=
  (∀ t p w, shows s.server t p = some w → k.payload w) ∧ ∀ c ∈ s.clients, InvC k c

theorem modify_emb (a : App P V) (cs : List (Replica.Client P V)) (i : Nat)
    (f : Replica.Client P V → Replica.Client P V) (g : Client P V → Client P V)
    (h : ∀ c ∈ cs, g (embC a c) = embC a (f c)) :
    (cs.map (embC a)).modify i g = (cs.modify i f).map (embC a) := by
  induction cs generalizing i with
  | nil => cases i <;> rfl
  | cons c cs ih =>
    cases i with
    | zero => simp [h c (by simp)]
    | succ i => simp [ih i fun c hc => h c (by simp [hc])]

theorem serverPush_emb (a : App P V) (s : Replica.Sys P V) (t : Nat) (m : Msg P V) :
    serverPush a (emb a s) (t, m) = emb a (Replica.serverPush a.setup s t m) := by
  simp only [serverPush, emb, Replica.serverPush, List.map_map]
  congr 1
  apply List.map_congr_left
  intro c _
  simp only [Function.comp, broadcast, Replica.broadcast, embC]
  obtain ⟨st, inb, outb, reg⟩ := c
  cases reg <;> simp

theorem clientPush_emb (a : App P V) (c : Replica.Client P V) (t : Nat) (m : Msg P V) :
    clientPush a (embC a c) (t, m) = embC a (Replica.clientPush a.setup c t m) := by
  simp [clientPush, embC, Replica.clientPush]

theorem clientLook_emb (a : App P V) (c : Replica.Client P V) (t : Nat) (p : P) :
    clientLook a (embC a c) t p = embC a (Replica.clientLook a.setup c t p) := by
  simp [clientLook, embC, Replica.clientLook]

theorem clientRead_emb {a : App P V} {k : Allowed P V} (h : Fits a k) (c : Replica.Client P V) (hi : InvC k c) :
    clientRead a (embC a c) = embC a (Replica.clientRead a.setup c) := by
  obtain ⟨st, inb, outb, reg⟩ := c
  cases inb with
  | nil => rfl
  | cons w rest =>
    obtain ⟨t, m⟩ := w
    have hw := hi.1 (t, m) (by simp)
    have e := down_lossless h (t, m) hw.1 hw.2
    have e2 : clientRead a (embC a ⟨st, (t, m) :: rest, outb, reg⟩)
        = (a.clientReads (writeNative a.downstream (t, m))).foldl (clientPush a) (embC a ⟨st, rest, outb, reg⟩) := rfl
    rw [e2, e, List.foldl_cons, List.foldl_nil, clientPush_emb]
    rfl

theorem serverRead_emb {a : App P V} {k : Allowed P V} (h : Fits a k) (s : Replica.Sys P V) (hi : Inv k s)
    (i : Nat) : serverRead a (emb a s) i = emb a (Replica.step a.setup s (.serve i)) := by
  cases hc : s.clients[i]? with
  | none =>
    have : (emb a s).clients[i]? = none := by simp [emb, hc]
    simp only [serverRead, Replica.step, this, hc]
  | some c =>
    obtain ⟨st, inb, outb, reg⟩ := c
    have hc' : (emb a s).clients[i]? = some (embC a ⟨st, inb, outb, reg⟩) := by simp [emb, hc]
    cases outb with
    | nil => simp only [serverRead, Replica.step, hc', hc, embC, List.map_nil]
    | cons w rest =>
      obtain ⟨t, m⟩ := w
      have hw := (hi.2 _ (List.mem_of_getElem? hc)).2 (t, m) (by simp)
      have e := up_lossless h (t, m) hw.1 hw.2
      simp only [serverRead, Replica.step, hc', hc, embC, List.map_cons, e, List.foldl_cons, List.foldl_nil]
      rw [← serverPush_emb]
      congr 1
      simp only [emb]
      rw [modify_emb a s.clients i (fun c => { c with outbox := rest })]
      intro c _; rfl

theorem allowed_sends {k : Allowed P V} {st : Stores P V} (hs : ∀ t p w, shows st t p = some w → k.payload w)
    (t : Nat) (m : Msg P V) (hm : k.msg (t, m)) :
    ∀ w ∈ sends st t m, w.2.isUpstream = false ∧ k.msg w := by
  intro w hw
  unfold sends at hw
  split at hw
  · rename_i hr
    obtain ⟨p, rfl⟩ : ∃ p, m = .upRead p := by cases m <;> simp_all [Msg.isUpRead]
    simp only [Msg.path] at hw
    cases hq : shows st t p with
    | none => rw [hq] at hw; cases hw
    | some x =>
      rw [hq] at hw
      simp only [List.mem_singleton] at hw
      subst hw
      exact ⟨rfl, hm, hs _ _ _ hq⟩
  · split at hw
    · cases hw
    · rename_i hu
      simp only [List.mem_singleton] at hw
      subst hw
      exact ⟨by simpa using hu, hm⟩

theorem allowed_effect {k : Allowed P V} (t : Nat) (p : P) (x : Option (Payload V)) (w : Wire P V)
    (hx : ∀ y, x = some y → k.payload y) (hw : k.msg w) (y : Payload V) (h : effect t p x w = some y) :
    k.payload y := by
  obtain ⟨t', m⟩ := w
  unfold effect at h
  split at h
  · cases m <;> cases x <;> simp_all [Allowed.msg]
  · exact hx y h

theorem inv_serverPush {u : Setup P V} (hu : Legal u) {k : Allowed P V} {s : Replica.Sys P V} (hi : Inv k s)
    (t : Nat) (m : Msg P V) (hm : k.msg (t, m)) : Inv k (Replica.serverPush u s t m) := by
  refine ⟨fun t' p w h => ?_, fun c hc => ?_⟩
  · simp only [Replica.serverPush] at h
    rw [Replica.shows_push _ hu.serverStores] at h
    exact allowed_effect t' p _ _ (fun y hy => hi.1 _ _ _ hy) hm w h
  · simp only [Replica.serverPush, List.mem_map] at hc
    obtain ⟨c', hc', rfl⟩ := hc
    rw [Replica.downTo_push _ hu.serverStores _ hu.serverIsConsumer]
    have := hi.2 c' hc'
    unfold Replica.broadcast
    split
    · refine ⟨fun w hw => ?_, this.2⟩
      rcases List.mem_append.1 hw with hw | hw
      · exact this.1 w hw
      · exact allowed_sends hi.1 t m hm w hw
    · exact this

theorem inv_clientPush {u : Setup P V} (hu : Legal u) {k : Allowed P V} {c : Replica.Client P V} (hi : InvC k c)
    (t : Nat) (m : Msg P V) (hm : k.msg (t, m)) : InvC k (Replica.clientPush u c t m) := by
  refine ⟨hi.1, fun w hw => ?_⟩
  simp only [Replica.clientPush, List.mem_append] at hw
  rcases hw with hw | hw
  · exact hi.2 w hw
  · rw [Replica.upTo_push_eq _ hu.clientStores] at hw
    split at hw
    · rename_i h
      simp only [List.mem_singleton] at hw
      subst hw
      refine ⟨?_, hm⟩
      have := h.1
      simp only [Replica.isAsk, Bool.and_eq_true] at this
      exact this.1
    · cases hw

theorem inv_modify {k : Allowed P V} {s : Replica.Sys P V} (hi : Inv k s) (i : Nat)
    (f : Replica.Client P V → Replica.Client P V) (hf : ∀ c, InvC k c → InvC k (f c)) :
    Inv k { s with clients := s.clients.modify i f } := by
  refine ⟨hi.1, fun c hc => ?_⟩
  rcases Replica.mem_modify _ _ _ _ hc with h | ⟨y, hy, rfl⟩
  · exact hi.2 c h
  · exact hf y (hi.2 y hy)

theorem inv_step {u : Setup P V} (hu : Legal u) {k : Allowed P V} {s : Replica.Sys P V} (hi : Inv k s)
    (x : Step P V) (hx : k.step x) : Inv k (Replica.step u s x) := by
  cases x with
  | join =>
    refine ⟨hi.1, fun c hc => ?_⟩
    simp only [Replica.step, List.mem_append, List.mem_singleton] at hc
    rcases hc with hc | rfl
    · exact hi.2 c hc
    · exact ⟨fun w hw => (by cases hw), fun w hw => (by cases hw)⟩
  | leave i => exact inv_modify hi i _ fun c h => h
  | produce t m => exact inv_serverPush hu hi t m hx
  | serve i =>
    simp only [Replica.step]
    split
    · rename_i t m rest _ hc
      have hw := (hi.2 _ (List.mem_of_getElem? hc)).2 (t, m) (by simp)
      have h0 := hi.2 _ (List.mem_of_getElem? hc)
      refine inv_serverPush hu (s := ⟨s.server, s.clients.modify i fun c => { c with outbox := rest }⟩) ⟨hi.1, fun c hc' => ?_⟩ t m hw.2
      rcases List.mem_iff_getElem?.1 hc' with ⟨j, hj⟩
      rw [List.getElem?_modify] at hj
      cases hq : s.clients[j]? with
      | none => rw [hq] at hj; cases hj
      | some y =>
        rw [hq] at hj
        have hy := hi.2 y (List.mem_of_getElem? hq)
        by_cases hij : i = j
        · subst hij
          rw [hc] at hq
          cases hq
          simp at hj
          subst hj
          exact ⟨h0.1, fun w hw => h0.2 w (by simp [hw])⟩
        · simp [hij] at hj
          subst hj; exact hy
    · exact hi
  | deliver i =>
    refine inv_modify hi i _ fun c hc => ?_
    obtain ⟨st, inb, outb, reg⟩ := c
    cases inb with
    | nil => exact hc
    | cons w rest =>
      obtain ⟨t, m⟩ := w
      exact inv_clientPush hu (c := ⟨st, rest, outb, reg⟩) ⟨fun w hw => hc.1 w (by simp [hw]), hc.2⟩ t m (hc.1 (t, m) (by simp)).2
  | act i t m => exact inv_modify hi i _ fun c hc => inv_clientPush hu hc t m hx
  | look i t p =>
    refine inv_modify hi i _ fun c hc => ?_
    rw [Replica.look_map u hu.clientStores]; exact hc

theorem step_emb {a : App P V} {k : Allowed P V} (h : Fits a k) (s : Replica.Sys P V) (hi : Inv k s)
    (x : Step P V) : step a (emb a s) x = emb a (Replica.step a.setup s x) := by
  cases x with
  | join => simp [step, emb, Replica.step, embC]
  | leave i =>
    simp only [step, emb, Replica.step]
    rw [modify_emb a s.clients i (fun c => { c with registered := false })]
    intro c _; rfl
  | produce t m => exact serverPush_emb a s t m
  | serve i => exact serverRead_emb h s hi i
  | deliver i =>
    simp only [step, emb, Replica.step]
    rw [modify_emb a s.clients i (Replica.clientRead a.setup) (clientRead a) fun c hc => clientRead_emb h c (hi.2 c hc)]
  | act i t m =>
    simp only [step, emb, Replica.step]
    rw [modify_emb a s.clients i (fun c => Replica.clientPush a.setup c t m)]
    intro c _; exact clientPush_emb a c t m
  | look i t p =>
    simp only [step, emb, Replica.step]
    rw [modify_emb a s.clients i (fun c => Replica.clientLook a.setup c t p)]
    intro c _; exact clientLook_emb a c t p

theorem run_emb {a : App P V} {k : Allowed P V} (h : Fits a k) (hu : Legal a.setup) (hist : List (Step P V)) :
    ∀ (s : Replica.Sys P V), Inv k s → (∀ x ∈ hist, k.step x) →
      run a (emb a s) hist = emb a (Replica.run a.setup s hist) := by
  induction hist with
  | nil => intro s _ _; rfl
  | cons x hist ih =>
    intro s hi hk
    have e : run a (emb a s) (x :: hist) = run a (step a (emb a s) x) hist := rfl
    have e2 : Replica.run a.setup s (x :: hist) = Replica.run a.setup (Replica.step a.setup s x) hist := rfl
    rw [e, e2, step_emb h s hi x]
    exact ih _ (inv_step hu hi x (hk x (by simp))) fun y hy => hk y (by simp [hy])

theorem inv_start (k : Allowed P V) : Inv k (Replica.start : Replica.Sys P V) := by
  refine ⟨fun t p w h => ?_, fun c hc => by cases hc⟩
  simp [shows, Replica.start, fresh, MapStore.view, MapStore.empty] at h

theorem forwarded_emb {a : App P V} {k : Allowed P V} (h : Fits a k) (hu : Legal a.setup) (i : Nat)
    (hist : List (Step P V)) : ∀ (s : Replica.Sys P V), Inv k s → (∀ x ∈ hist, k.step x) →
      Spec.forwarded a i (emb a s) hist = Replica.Spec.forwarded a.setup i s hist := by
  induction hist with
  | nil => intro s _ _; rfl
  | cons x hist ih =>
    intro s hi hk
    have e := ih _ (inv_step hu hi x (hk x (by simp))) fun y hy => hk y (by simp [hy])
    rw [← step_emb h s hi x] at e
    unfold Spec.forwarded Replica.Spec.forwarded
    rw [e]
    congr 1
    cases x with
    | serve j =>
      by_cases hj : j = i
      · subst hj
        simp only [if_pos]
        cases hc : s.clients[j]? with
        | none =>
          have : (emb a s).clients[j]? = none := by simp [emb, hc]
          simp [this]
        | some c =>
          have : (emb a s).clients[j]? = some (embC a c) := by simp [emb, hc]
          rw [this]
          obtain ⟨st, inb, outb, reg⟩ := c
          cases outb with
          | nil => rfl
          | cons w rest =>
            obtain ⟨t, m⟩ := w
            have hw := (hi.2 _ (List.mem_of_getElem? hc)).2 (t, m) (by simp)
            simp only [Option.map_some, Option.getD_some, embC, List.map_cons, up_lossless h (t, m) hw.1 hw.2,
              tells, emb, List.append_nil]
      · simp only [if_neg hj]
    | _ => rfl

end Nbdl.App
