import Verif.Replica.Spec
/-! Lemmas about a server and its clients: what one push does to what is shown, and what it sends. -/
namespace Nbdl.Replica
open MapStore (Msg Map Payload View)
open Context (Config push pushMain matchCtx sentUp sentDown mapOps actorsWith setStore)
open Spec
variable {P V : Type} [DecidableEq P]

/-- What one message does to the value shown at a path. -/
def effect (t : Nat) (p : P) (x : Option (Payload V)) (w : Wire P V) : Option (Payload V) :=
  if w.1 = t ∧ w.2.path = p then
    match w.2, x with
    | .downCreate _ v, _ => some v
    | .downUpdate _ v, _ => some v
    | .downDelete _, _ => none
    | .downRead _ v, none => some v
    | _, x => x
  else x

/-- The messages the server sends when one is applied to its context. -/
def sends (st : Stores P V) (t : Nat) (m : Msg P V) : List (Wire P V) :=
  if m.isUpRead then
    match shows st t m.path with
    | some w => [(t, .downRead m.path w)]
    | none => []
  else if m.isUpstream then [] else [(t, m)]

theorem listeners_map (c : Config (Map P V) P V) (hc : ∀ t, c.ops t = mapOps) (t : Nat) (m : Msg P V)
    (ls : List Nat) (st : Stores P V) : Context.applyListeners c t m ls st = (st, []) := by
  induction ls generalizing st with
  | nil => rfl
  | cons l ls ih =>
    have e : setStore st l (st l) = st := by
      funext k; unfold setStore; split <;> simp_all
    simp only [Context.applyListeners, hc, mapOps, List.flatMap_nil, List.nil_append]
    rw [e, ih]

theorem push_map (c : Config (Map P V) P V) (hc : ∀ t, c.ops t = mapOps) (t : Nat) (m : Msg P V)
    (st : Stores P V) : push c st t m = pushMain c st t m := by
  simp only [push, listeners_map c hc, List.append_nil]

theorem push_stores (c : Config (Map P V) P V) (hc : ∀ t, c.ops t = mapOps) (t : Nat) (m : Msg P V)
    (st : Stores P V) : (push c st t m).1 = setStore st t (MapStore.apply (st t) m).1 := by
  rw [push_map c hc]
  unfold pushMain
  rw [hc]
  cases m <;> simp [Msg.isUpRead, mapOps, Msg.isUpstream, MapStore.apply]

theorem shows_push (c : Config (Map P V) P V) (hc : ∀ t, c.ops t = mapOps) (t' : Nat) (m : Msg P V)
    (st : Stores P V) (t : Nat) (p : P) :
    shows (push c st t' m).1 t p = effect t p (shows st t p) (t', m) := by
  rw [push_stores c hc]
  unfold shows effect setStore
  by_cases ht : t = t'
  · subst ht
    simp only [if_true]
    by_cases hp : m.path = p
    · subst hp
      rw [MapStore.apply_same]
      cases hv : MapStore.view (st t) m.path <;> cases m <;> simp_all
    · rw [MapStore.apply_other _ _ _ hp]; simp [hp]
  · have ht' : ¬ t' = t := fun e => ht e.symm
    simp [ht, ht']

theorem filterMap_const (a : Nat) (w : Wire P V) (l : List Nat) (hn : l.Nodup) (ha : a ∈ l) :
    (l.map fun i => (i, w)).filterMap (fun x => if x.1 = a then some x.2 else none) = [w] := by
  have hno : ∀ l : List Nat, a ∉ l →
      (l.map fun i => (i, w)).filterMap (fun x => if x.1 = a then some x.2 else none) = [] := by
    intro l h
    induction l with
    | nil => rfl
    | cons i l ih =>
      simp only [List.mem_cons, not_or] at h
      simp only [List.map_cons, List.filterMap_cons]
      rw [if_neg (fun e => h.1 e.symm)]
      exact ih h.2
  induction l with
  | nil => simp at ha
  | cons i l ih =>
    simp only [List.map_cons, List.filterMap_cons]
    by_cases e : i = a
    · subst e
      simp only [if_true]
      rw [hno l (List.nodup_cons.1 hn).1]
    · rw [if_neg e]
      exact ih (List.nodup_cons.1 hn).2 (by
        rcases List.mem_cons.1 ha with h | h
        · exact absurd h.symm e
        · exact h)

theorem downTo_propagate (c : Config (Map P V) P V) (a : Nat) (st : Stores P V) (t : Nat) (m : Msg P V)
    (ha : ((c.actors[a]?.map Context.Actor.consumer).getD false) = true) :
    downTo a (Context.propagateDownstream c st t m) = [(t, m)] := by
  unfold downTo
  rw [(Context.down_only c st t t m).2.2]
  apply filterMap_const
  · unfold actorsWith; exact List.Nodup.sublist List.filter_sublist List.nodup_range
  · unfold actorsWith
    rw [List.mem_filter, List.mem_range]
    refine ⟨?_, ha⟩
    by_cases h : a < c.actors.length
    · exact h
    · rw [List.getElem?_eq_none (by omega)] at ha; simp at ha

theorem downTo_append (a : Nat) (x y : List (Context.Event (Map P V) P V)) :
    downTo a (x ++ y) = downTo a x ++ downTo a y := by
  unfold downTo; rw [Context.sentDown_append, List.filterMap_append]

theorem upTo_append (a : Nat) (x y : List (Context.Event (Map P V) P V)) :
    upTo a (x ++ y) = upTo a x ++ upTo a y := by
  unfold upTo; rw [Context.sentUp_append, List.filterMap_append]

theorem downTo_notify (c : Config (Map P V) P V) (a : Nat) (st : Stores P V) (t : Nat) (p : P) :
    downTo a (Context.notifyStateConsumers c st t p) = [] := by
  unfold downTo; rw [(Context.notify_only c st t p).2]; rfl

theorem downTo_up (c : Config (Map P V) P V) (a : Nat) (st : Stores P V) (t : Nat) (m : Msg P V) :
    downTo a (Context.propagateUpstream c st t m) = [] := rfl

theorem downTo_push (c : Config (Map P V) P V) (hc : ∀ t, c.ops t = mapOps) (a : Nat)
    (ha : ((c.actors[a]?.map Context.Actor.consumer).getD false) = true)
    (st : Stores P V) (t : Nat) (m : Msg P V) :
    downTo a (push c st t m).2 = sends st t m := by
  rw [push_map c hc]
  unfold pushMain sends
  rw [hc]
  by_cases hr : m.isUpRead = true
  · obtain ⟨p, rfl⟩ : ∃ p, m = .upRead p := by cases m <;> simp_all [Msg.isUpRead]
    simp only [hr, if_true, Msg.path, mapOps, setStore]
    have hv := MapStore.apply_same (st t) (.upRead p)
    simp only [Msg.path] at hv
    rw [hv]
    unfold shows
    cases h : MapStore.view (st t) p with
    | triggerRead => exact absurd h (Context.map_never_triggers _ _)
    | notInSet => rfl
    | unresolved => rfl
    | value w => exact downTo_propagate c a _ t _ ha
  · simp only [hr, Bool.false_eq_true, if_false]
    rw [downTo_append]
    have h1 : ∀ (b : Bool) st', downTo a (if b then Context.notifyStateConsumers c st' t m.path else []) = [] := by
      intro b st'; cases b
      · rfl
      · exact downTo_notify c a st' t m.path
    rw [h1, List.nil_append]
    split
    · rfl
    · exact downTo_propagate c a _ t _ ha

/-- What a client sends are creates, updates and deletes it asks for. -/
def isAsk (m : Msg P V) : Bool := m.isUpstream && !m.isUpRead

theorem upTo_push (c : Config (Map P V) P V) (hc : ∀ t, c.ops t = mapOps) (a : Nat)
    (st : Stores P V) (t : Nat) (m : Msg P V) :
    ∀ w ∈ upTo a (push c st t m).2, isAsk w.2 = true := by
  rw [push_map c hc]
  have hdn : ∀ st' (m' : Msg P V), upTo a (Context.propagateDownstream c st' t m') = [] := by
    intro st' m'; unfold upTo; rw [(Context.down_only c st' t t m').2.1]; rfl
  unfold pushMain
  rw [hc]
  by_cases hr : m.isUpRead = true
  · obtain ⟨p, rfl⟩ : ∃ p, m = .upRead p := by cases m <;> simp_all [Msg.isUpRead]
    simp only [hr, if_true, Msg.path, mapOps, setStore]
    have hv := MapStore.apply_same (st t) (.upRead p)
    simp only [Msg.path] at hv
    rw [hv]
    cases h : MapStore.view (st t) p with
    | triggerRead => exact absurd h (Context.map_never_triggers _ _)
    | notInSet => intro w hw; cases hw
    | unresolved => intro w hw; cases hw
    | value v => intro w hw; simp only [] at hw; rw [hdn] at hw; cases hw
  · simp only [hr, Bool.false_eq_true, if_false]
    rw [upTo_append]
    have h1 : ∀ (b : Bool) st', upTo a (if b then Context.notifyStateConsumers c st' t m.path else []) = [] := by
      intro b st'; cases b
      · rfl
      · simp only [if_true]; unfold upTo; rw [(Context.notify_only c st' t m.path).1]; rfl
    rw [h1, List.nil_append]
    split
    · rename_i hup
      intro w hw
      simp only [upTo, Context.propagateUpstream, sentUp, List.mem_filterMap, List.mem_singleton] at hw
      obtain ⟨x, rfl, hx⟩ := hw
      split at hx
      · simp only [Option.some.injEq] at hx; subst hx; simp [isAsk, hup, hr]
      · cases hx
    · intro w hw; rw [hdn] at hw; cases hw

theorem look_map (u : Setup P V) (hc : ∀ t, u.client.ops t = mapOps) (c : Client P V) (t : Nat) (p : P) :
    clientLook u c t p = c := by
  unfold clientLook matchCtx
  rw [hc]
  simp only [mapOps]
  cases h : MapStore.view (c.stores t) p with
  | triggerRead => exact absurd h (Context.map_never_triggers _ _)
  | notInSet => simp [upTo, sentUp]
  | unresolved => simp [upTo, sentUp]
  | value w => simp [upTo, sentUp]

/-! ## Reachable outboxes -/

/-- Clients send requests, and the server outcomes. -/
def TidyC (c : Client P V) : Prop :=
  (∀ w ∈ c.outbox, isAsk w.2 = true) ∧ ∀ w ∈ c.inbox, w.2.isUpstream = false

def Tidy (s : Sys P V) : Prop := ∀ c ∈ s.clients, TidyC c

theorem mem_modify {α : Type} (l : List α) (i : Nat) (f : α → α) (x : α) (h : x ∈ l.modify i f) :
    x ∈ l ∨ ∃ y ∈ l, x = f y := by
  induction l generalizing i with
  | nil => cases i <;> simp at h
  | cons a l ih =>
    cases i with
    | zero =>
      simp only [List.modify_zero_cons, List.mem_cons] at h
      rcases h with rfl | h
      · exact Or.inr ⟨a, by simp, rfl⟩
      · exact Or.inl (by simp [h])
    | succ i =>
      simp only [List.modify_succ_cons, List.mem_cons] at h
      rcases h with rfl | h
      · exact Or.inl (by simp)
      · rcases ih i h with h | ⟨y, hy, rfl⟩
        · exact Or.inl (by simp [h])
        · exact Or.inr ⟨y, by simp [hy], rfl⟩

theorem tidy_modify (s : Sys P V) (i : Nat) (f : Client P V → Client P V) (hs : Tidy s)
    (hf : ∀ c, TidyC c → TidyC (f c)) : Tidy { s with clients := s.clients.modify i f } := by
  intro c hc
  rcases mem_modify _ _ _ _ hc with h | ⟨y, hy, rfl⟩
  · exact hs c h
  · exact hf y (hs y hy)

theorem sends_down (st : Stores P V) (t : Nat) (m : Msg P V) :
    ∀ w ∈ sends st t m, w.2.isUpstream = false := by
  intro w hw
  unfold sends at hw
  split at hw
  · split at hw
    · simp only [List.mem_singleton] at hw; subst hw; rfl
    · cases hw
  · split at hw
    · cases hw
    · rename_i h
      simp only [List.mem_singleton] at hw; subst hw; simpa using h

theorem tidy_serverPush (u : Setup P V) (hu : Legal u) (s : Sys P V) (hs : Tidy s) (t : Nat) (m : Msg P V) :
    Tidy (serverPush u s t m) := by
  intro c hc
  simp only [serverPush, List.mem_map] at hc
  obtain ⟨c', hc', rfl⟩ := hc
  have := hs c' hc'
  rw [downTo_push _ hu.serverStores _ hu.serverIsConsumer]
  unfold broadcast
  split
  · refine ⟨this.1, fun w hw => ?_⟩
    rcases List.mem_append.1 hw with hw | hw
    · exact this.2 w hw
    · exact sends_down _ _ _ w hw
  · exact this

theorem tidy_clientPush (u : Setup P V) (hu : Legal u) (c : Client P V) (t : Nat) (m : Msg P V)
    (h : TidyC c) : TidyC (clientPush u c t m) := by
  refine ⟨fun w hw => ?_, h.2⟩
  simp only [clientPush, List.mem_append] at hw
  rcases hw with hw | hw
  · exact h.1 w hw
  · exact upTo_push _ hu.clientStores _ _ _ _ w hw

theorem tidy_step (u : Setup P V) (hu : Legal u) (s : Sys P V) (hs : Tidy s) (x : Step P V) :
    Tidy (step u s x) := by
  cases x with
  | join =>
    intro c hc
    simp only [step, List.mem_append, List.mem_singleton] at hc
    rcases hc with hc | rfl
    · exact hs c hc
    · exact ⟨fun w hw => (by cases hw), fun w hw => (by cases hw)⟩
  | leave i => exact tidy_modify s i _ hs fun c h => h
  | produce t m => exact tidy_serverPush u hu s hs t m
  | serve i =>
    simp only [step]
    split
    · rename_i a b t m rest d he
      apply tidy_serverPush u hu
      have hm : (⟨a, b, (t, m) :: rest, d⟩ : Client P V) ∈ s.clients := List.mem_of_getElem? he
      have hr := (hs _ hm).1
      apply tidy_modify s i _ hs
      intro c hc
      refine ⟨fun w hw => ?_, hc.2⟩
      exact hr w (by simp at hw ⊢; exact Or.inr hw)
    · exact hs
  | deliver i =>
    refine tidy_modify s i _ hs fun c h => ?_
    unfold clientRead
    split
    · exact h
    · rename_i he
      exact tidy_clientPush u hu _ _ _ ⟨h.1, fun w hw => h.2 w (by rw [he]; exact List.mem_cons_of_mem _ hw)⟩
  | act i t m => exact tidy_modify s i _ hs fun c h => tidy_clientPush u hu c t m h
  | look i t p =>
    refine tidy_modify s i _ hs fun c h => ?_
    simp only [look_map u hu.clientStores]
    exact h

theorem tidy_run (u : Setup P V) (hu : Legal u) (s : Sys P V) (hs : Tidy s) (h : List (Step P V)) :
    Tidy (run u s h) := by
  induction h generalizing s with
  | nil => exact hs
  | cons x h ih => exact ih _ (tidy_step u hu s hs x)

theorem tidy_start : Tidy (start : Sys P V) := by intro c hc; cases hc

theorem run_append (u : Setup P V) (s : Sys P V) (a b : List (Step P V)) :
    run u s (a ++ b) = run u (run u s a) b := by
  unfold run; rw [List.foldl_append]

/-! ## One step, seen from one client -/

/-- What one step means for the server and one client. -/
inductive Seen (s s' : Sys P V) (c c' : Client P V) (x : Step P V) : Prop
  | quiet (hs : ∀ t p, shows s'.server t p = shows s.server t p)
      (hc : ∀ t p, shows c'.stores t p = shows c.stores t p) (hi : c'.inbox = c.inbox)
      (hr : c'.registered = true → c.registered = true) (hx : isProduce x = false)
  | pushed (t : Nat) (m : Msg P V) (hx : x = .produce t m ∨ isProduce x = false ∧ isAsk m = true)
      (hs : ∀ t' p, shows s'.server t' p = effect t' p (shows s.server t' p) (t, m))
      (hc : ∀ t p, shows c'.stores t p = shows c.stores t p)
      (hi : c'.inbox = if c.registered then c.inbox ++ sends s.server t m else c.inbox)
      (hr : c'.registered = c.registered)
  | delivered (w : Wire P V) (hw : c.inbox = w :: c'.inbox)
      (hs : ∀ t p, shows s'.server t p = shows s.server t p)
      (hc : ∀ t p, shows c'.stores t p = effect t p (shows c.stores t p) w)
      (hr : c'.registered = c.registered) (hx : isProduce x = false)

theorem effect_upstream (t : Nat) (p : P) (x : Option (Payload V)) (w : Wire P V)
    (h : w.2.isUpstream = true) : effect t p x w = x := by
  obtain ⟨t', m⟩ := w
  unfold effect
  split
  · cases m <;> simp_all [Msg.isUpstream]
  · rfl

theorem getElem?_modify_cases {α : Type} (l : List α) (i j : Nat) (f : α → α) (c : α) (h : l[i]? = some c) :
    (l.modify j f)[i]? = some (if j = i then f c else c) := by
  rw [List.getElem?_modify, h]
  split <;> simp_all

theorem seen_serverPush (u : Setup P V) (hu : Legal u) (s : Sys P V) (i : Nat) (c : Client P V)
    (hc : s.clients[i]? = some c) (t : Nat) (m : Msg P V) :
    ∃ c', (serverPush u s t m).clients[i]? = some c'
      ∧ (∀ t' p, shows (serverPush u s t m).server t' p = effect t' p (shows s.server t' p) (t, m))
      ∧ (∀ t p, shows c'.stores t p = shows c.stores t p)
      ∧ (c'.inbox = if c.registered then c.inbox ++ sends s.server t m else c.inbox)
      ∧ c'.registered = c.registered := by
  refine ⟨broadcast (sends s.server t m) c, ?_, ?_, ?_, ?_, ?_⟩
  · simp only [serverPush, List.getElem?_map, hc, Option.map_some]
    rw [downTo_push _ hu.serverStores _ hu.serverIsConsumer]
  · intro t' p; exact shows_push _ hu.serverStores _ _ _ _ _
  · intro t p; unfold broadcast; split <;> rfl
  · unfold broadcast; split <;> rfl
  · unfold broadcast; split
    · rename_i h; exact h.symm ▸ h
    · rfl

theorem seen_step (u : Setup P V) (hu : Legal u) (s : Sys P V) (hs : Tidy s) (i : Nat) (c : Client P V)
    (hc : s.clients[i]? = some c) (x : Step P V) (hx : asksOnly x = true) :
    ∃ c', (step u s x).clients[i]? = some c' ∧ Seen s (step u s x) c c' x := by
  cases x with
  | join =>
    refine ⟨c, ?_, .quiet (fun _ _ => rfl) (fun _ _ => rfl) rfl id rfl⟩
    simp only [step]
    rw [List.getElem?_append_left (List.getElem?_eq_some_iff.1 hc).1, hc]
  | leave j =>
    refine ⟨_, getElem?_modify_cases _ i j _ c hc, ?_⟩
    split
    · exact .quiet (fun _ _ => rfl) (fun _ _ => rfl) rfl (fun h => by cases h) rfl
    · exact .quiet (fun _ _ => rfl) (fun _ _ => rfl) rfl id rfl
  | produce t m =>
    obtain ⟨c', h1, h2, h3, h4, h5⟩ := seen_serverPush u hu s i c hc t m
    exact ⟨c', h1, .pushed t m (.inl rfl) h2 h3 h4 h5⟩
  | serve j =>
    simp only [step]
    split
    · rename_i a b t m rest d he
      have hask : isAsk m = true := (hs _ (List.mem_of_getElem? he)).1 (t, m) (by simp)
      obtain ⟨c', h1, h2, h3, h4, h5⟩ := seen_serverPush u hu
        { s with clients := s.clients.modify j fun c => { c with outbox := rest } } i _
        (getElem?_modify_cases _ i j _ c hc) t m
      refine ⟨c', h1, .pushed t m (.inr ⟨rfl, hask⟩) h2 ?_ ?_ ?_⟩
      · intro t p; rw [h3]; split <;> rfl
      · rw [h4]; split <;> rfl
      · rw [h5]; split <;> rfl
    · exact ⟨c, hc, .quiet (fun _ _ => rfl) (fun _ _ => rfl) rfl id rfl⟩
  | deliver j =>
    refine ⟨_, getElem?_modify_cases _ i j _ c hc, ?_⟩
    split
    · unfold clientRead
      split
      · exact .quiet (fun _ _ => rfl) (fun _ _ => rfl) rfl id rfl
      · rename_i t m rest he
        exact .delivered (t, m) he (fun _ _ => rfl)
          (fun t' p => shows_push _ hu.clientStores _ _ _ _ _) rfl rfl
    · exact .quiet (fun _ _ => rfl) (fun _ _ => rfl) rfl id rfl
  | act j t m =>
    refine ⟨_, getElem?_modify_cases _ i j _ c hc, ?_⟩
    split
    · refine .quiet (fun _ _ => rfl) (fun t' p => ?_) rfl id rfl
      simp only [clientPush]
      rw [shows_push _ hu.clientStores]
      exact effect_upstream _ _ _ _ hx
    · exact .quiet (fun _ _ => rfl) (fun _ _ => rfl) rfl id rfl
  | look j t p =>
    refine ⟨_, getElem?_modify_cases _ i j _ c hc, ?_⟩
    simp only [look_map u hu.clientStores, ite_self]
    exact .quiet (fun _ _ => rfl) (fun _ _ => rfl) rfl id rfl

/-! ## The relation between a client and the server -/

/-- The client shows what the server shows, or (if it came late) nothing. -/
def Rel (late : Prop) (x y : Option (Payload V)) : Prop := x = y ∨ late ∧ x = none

theorem rel_push {late : Prop} (st : Stores P V) (t' : Nat) (m : Msg P V) (t : Nat) (p : P)
    (x : Option (Payload V)) (h : Rel late x (shows st t p))
    (hl : late → ∀ q w, m = .downRead q w → ∀ w', shows st t' q = some w' → w' = w) :
    Rel late ((sends st t' m).foldl (effect t p) x) (effect t p (shows st t p) (t', m)) := by
  unfold sends
  by_cases hr : m.isUpRead = true
  · obtain ⟨q, rfl⟩ : ∃ q, m = .upRead q := by cases m <;> simp_all [Msg.isUpRead]
    rw [effect_upstream _ _ _ _ rfl]
    simp only [Msg.isUpRead, if_true, Msg.path]
    cases hq : shows st t' q with
    | none => exact h
    | some w =>
      simp only [List.foldl_cons, List.foldl_nil]
      unfold effect
      by_cases he : t' = t ∧ q = p
      · rw [if_pos (show (t', Msg.downRead q w).1 = t ∧ (t', Msg.downRead q w).2.path = p from he)]
        obtain ⟨rfl, rfl⟩ := he
        rw [hq] at h ⊢
        cases x with
        | none => exact Or.inl rfl
        | some y => exact h
      · rw [if_neg (show ¬ ((t', Msg.downRead q w).1 = t ∧ (t', Msg.downRead q w).2.path = p) from he)]; exact h
  · simp only [hr, Bool.false_eq_true, if_false]
    by_cases hup : m.isUpstream = true
    · rw [effect_upstream _ _ _ _ hup]; simp only [hup, if_true]; exact h
    · simp only [hup, Bool.false_eq_true, if_false, List.foldl_cons, List.foldl_nil]
      unfold effect
      split
      · rename_i he
        obtain ⟨he1, he2⟩ := he
        simp only at he1 he2
        subst he1 he2
        cases m with
        | upCreate | upRead | upUpdate | upDelete => simp [Msg.isUpstream] at hup
        | downCreate q w => exact Or.inl rfl
        | downUpdate q w => exact Or.inl rfl
        | downDelete q => exact Or.inl rfl
        | downRead q w =>
          simp only [Msg.path] at h ⊢
          rcases h with rfl | ⟨hlate, rfl⟩
          · exact Or.inl rfl
          · have := hl hlate q w rfl
            cases hq : shows st t' q with
            | none => exact Or.inl rfl
            | some w' => rw [this w' hq]; exact Or.inl rfl
      · exact h

/-- The values a client will show as it reads what is on the way to it are those of later and later
states of the server. -/
def Track (late : Prop) (srv : Nat → Nat → P → Option (Payload V)) (n : Nat) :
    (Nat → P → Option (Payload V)) → Nat → List (Wire P V) → Prop
  | x, j, [] => j ≤ n ∧ ∀ t p, Rel late (x t p) (srv j t p)
  | x, j, w :: ws => j ≤ n ∧ (∀ t p, Rel late (x t p) (srv j t p))
      ∧ ∃ j', j ≤ j' ∧ Track late srv n (fun t p => effect t p (x t p) w) j' ws

theorem track_here {late : Prop} {srv : Nat → Nat → P → Option (Payload V)} {n : Nat}
    {x : Nat → P → Option (Payload V)} {j : Nat} {ws : List (Wire P V)} (h : Track late srv n x j ws) :
    j ≤ n ∧ ∀ t p, Rel late (x t p) (srv j t p) := by
  cases ws with
  | nil => exact h
  | cons w ws => exact ⟨h.1, h.2.1⟩

theorem track_later {late : Prop} {srv : Nat → Nat → P → Option (Payload V)} {n n' : Nat} (hn : n ≤ n')
    (ws : List (Wire P V)) : ∀ {x : Nat → P → Option (Payload V)} {j : Nat},
    Track late srv n x j ws → Track late srv n' x j ws := by
  induction ws with
  | nil => intro x j h; exact ⟨Nat.le_trans h.1 hn, h.2⟩
  | cons w ws ih =>
    intro x j h
    obtain ⟨h1, h2, j', h3, h4⟩ := h
    exact ⟨Nat.le_trans h1 hn, h2, j', h3, ih h4⟩

theorem track_snoc {late : Prop} {srv : Nat → Nat → P → Option (Payload V)} {n : Nat} (w : Wire P V)
    (ws : List (Wire P V)) : ∀ {x : Nat → P → Option (Payload V)} {j : Nat},
    Track late srv n x j ws →
    (∀ t p, Rel late ((ws ++ [w]).foldl (effect t p) (x t p)) (srv (n + 1) t p)) →
    Track late srv (n + 1) x j (ws ++ [w]) := by
  induction ws with
  | nil =>
    intro x j h hr
    exact ⟨Nat.le_succ_of_le h.1, h.2, n + 1, Nat.le_succ_of_le h.1, Nat.le_refl _, hr⟩
  | cons v ws ih =>
    intro x j h hr
    obtain ⟨h1, h2, j', h3, h4⟩ := h
    exact ⟨Nat.le_succ_of_le h1, h2, j', h3, ih h4 hr⟩

theorem track_congr {late : Prop} {srv : Nat → Nat → P → Option (Payload V)} {n : Nat}
    {x y : Nat → P → Option (Payload V)} {j : Nat} {ws : List (Wire P V)}
    (h : Track late srv n x j ws) (hxy : ∀ t p, y t p = x t p) : Track late srv n y j ws := by
  have : y = x := by funext t p; exact hxy t p
  rw [this]; exact h

end Nbdl.Replica
