import Verif.Optimist.Props
/-!
# Exactly when a client's own change stays on its screen (C131)
-/
namespace Nbdl.Optimist.Spec
open Delta Delta.Spec
variable {n : Nat} {T : Fin n → Type} {U : Type} [DecidableEq U] [∀ i, DecidableEq (T i)]

/-- The change in the next message the client reads, unless this is the answer to a request it waits for. -/
def unasked : Option (Client U T) → List (Delta T)
  | some ⟨s, (u, d) :: _, _⟩ => if u ∈ s.uids then [] else [d]
  | _ => []

/-- The changes client `i` reads in a history other than the answers to its requests. -/
def heard (i : Nat) : Sys U T → List (Step U T) → List (Delta T)
  | _, [] => []
  | s, x :: h =>
    (match x with
      | .deliver j => if j = i then unasked s.clients[i]? else []
      | _ => []) ++ heard i (step true s x) h

/-- Client `i` shows `w` for the member. -/
def Shows (i : Nat) (m : Fin n) (w : T m) (s : Sys U T) : Prop :=
  ∃ c, s.clients[i]? = some c ∧ c.store.value m = w

end Nbdl.Optimist.Spec

namespace Nbdl.Optimist
open Delta Delta.Spec Optimist.Spec
variable {n : Nat} {T : Fin n → Type} {U : Type} [DecidableEq U] [∀ i, DecidableEq (T i)]

omit [∀ i, DecidableEq (T i)] in
theorem patches_keep (m : Fin n) (w : T m) : ∀ (ds : List (Delta T)) (a b : Record T), b m = w →
    patches ds a m = w → patches ds b m = w
  | [], _, _, hb, _ => hb
  | d :: ds, a, b, hb, ha => by
    change patches ds (patch d a) m = w at ha
    show patches ds (patch d b) m = w
    cases hd : d m with
    | some x =>
      refine Eq.trans (patches_at _ _ _ _ ?_) ha
      unfold patch
      rw [hd]; rfl
    | none =>
      refine patches_keep m w ds (patch d a) (patch d b) ?_ ha
      unfold patch
      rw [hd]; exact hb

/-- The client shows `w`, and so it will when its requests are answered. -/
def Holds (i : Nat) (m : Fin n) (w : T m) (s : Sys U T) : Prop :=
  ∃ c, s.clients[i]? = some c ∧ c.store.value m = w ∧ Steady m c

theorem hear_holds {v : Record T} {c : Client U T} (hc : CGood v c) (m : Fin n) (w : T m) (hw : c.store.value m = w)
    (h : Steady m c) (hf : ∀ d ∈ unasked (some c), d m = none ∨ d m = some w) :
    (hear true c).store.value m = w ∧ Steady m (hear true c) := by
  cases hin : c.inbox with
  | nil => rw [hear, hin]; exact ⟨hw, h⟩
  | cons x rest =>
    obtain ⟨u, d⟩ := x
    by_cases hu : u ∈ c.store.uids
    · -- as if the rest of the inbox were not there
      have hst : (hear true c).store = (applyConfirmed c.store u d).1 := by rw [hear_eq hin]
      have hga := own_uids (hear_good hc)
      rw [hst] at hga
      rcases hear_own hc hin with ⟨_, ho⟩ | ⟨hn, _⟩
      · have hp : patches ((own (hear true c)).map (·.2)) (patch (applyDelta d c.store.pending) c.store.value) m =
            c.store.value m := by
          refine Eq.trans ?_ h
          rw [ho]
          show _ = patches ((own (hear true c)).map (·.2)) (patch d (patch c.store.pending c.store.value)) m
          apply patches_at
          exact applyDelta_getD d c.store.pending c.store.value m
        rw [Steady, hst]
        rw [applyConfirmed, if_pos hu] at hga ⊢
        by_cases he : c.store.uids.erase u = []
        · rw [if_pos he] at hga ⊢
          have hn : own (hear true c) = [] := by
            rw [he] at hga
            exact List.map_eq_nil_iff.1 hga.symm
          rw [hn] at hp ⊢
          have hv : (apply (applyDelta d c.store.pending) c.store.value).1 m = c.store.value m := by
            rw [apply_fst]; exact hp
          exact ⟨hv.trans hw, rfl⟩
        · rw [if_neg he]
          exact ⟨hw, hp⟩
      · exact absurd hu hn
    · have hd : d m = none ∨ d m = some w := by
        refine hf d ?_
        obtain ⟨s, ib, ob⟩ := c
        simp only at hin
        subst hin
        rw [unasked, if_neg hu]
        exact .head _
      rcases hear_own hc hin with ⟨hn, _⟩ | ⟨_, ho⟩
      · exact absurd hn hu
      · have hst : (hear true c).store = (applyConfirmed c.store u d).1 := by rw [hear_eq hin]
        have hv : (apply d c.store.value).1 m = w := by
          rw [apply_fst]
          unfold patch
          rcases hd with hd | hd <;> rw [hd]
          · exact hw
          · rfl
        rw [Steady, hst, ho, applyConfirmed, if_neg hu]
        refine ⟨hv, ?_⟩
        show patches _ _ m = (apply d c.store.value).1 m
        rw [hv]
        rcases hd with hd | hd
        · refine Eq.trans (patches_at _ _ (patch c.store.pending c.store.value) _ ?_) (h.trans hw)
          show (applyDelta d c.store.pending m).getD ((apply d c.store.value).1 m) = _
          rw [hv]
          unfold applyDelta patch
          rw [hd, hw]
        · refine patches_keep m w _ (patch c.store.pending c.store.value) _ ?_ (h.trans hw)
          show (applyDelta d c.store.pending m).getD ((apply d c.store.value).1 m) = w
          unfold applyDelta
          rw [hd]; rfl

/-- What is heard from others is shown at once. -/
theorem hear_unasked {c : Client U T} (m : Fin n) (x : T m) (d : Delta T) (hd : d ∈ unasked (some c))
    (hx : d m = some x) : (hear true c).store.value m = x := by
  obtain ⟨s, ib, ob⟩ := c
  cases ib with
  | nil => simp [unasked] at hd
  | cons y rest =>
    obtain ⟨u, d'⟩ := y
    rw [unasked] at hd
    split at hd
    · simp at hd
    · rename_i hu
      rw [List.mem_singleton] at hd
      subst hd
      rw [hear_eq rfl, applyConfirmed, if_neg hu]
      show (apply d s.value).1 m = x
      rw [apply_fst]
      unfold patch
      rw [hx]; rfl

/-- One step. -/
theorem holds_step {used : List U} {s : Sys U T} (h : Inv used s) {i : Nat} {m : Fin n} {w : T m}
    (hs : Holds i m w s) (x : Step U T) (hx : ∀ d ∈ asked i [x], d m = none) (hu : ∀ u ∈ uids [x], u ∉ used) :
    ((∀ d ∈ heard i s [x], d m = none ∨ d m = some w) → Holds i m w (step true s x))
    ∧ (Shows i m w (step true s x) → ∀ d ∈ heard i s [x], d m = none ∨ d m = some w) := by
  obtain ⟨c, h1, hw, h2⟩ := hs
  have hg := h.good i c h1
  cases x with
  | join =>
    refine ⟨fun _ => ⟨c, ?_, hw, h2⟩, fun _ => by simp [heard]⟩
    show (s.clients ++ _)[i]? = some c
    rw [List.getElem?_append_left (List.getElem?_eq_some_iff.1 h1).1]; exact h1
  | request j u d =>
    have hun : u ∉ used := hu u (.head _)
    refine ⟨fun _ => ?_, fun _ => by simp [heard]⟩
    by_cases hj : j = i
    · subst hj
      have hnu : u ∉ c.store.uids := fun hm => hun (h.uidsUsed j c h1 u hm)
      have hin : ∀ x ∈ c.inbox, x.1 ≠ u := fun x hx e => hun (e ▸ h.inboxUsed j c h1 x hx)
      obtain ⟨k1, k2⟩ := ask_steady hg m u d hnu hin h2
      refine ⟨ask u d c, get_modify.2 ⟨c, h1, by rw [if_pos rfl]⟩, ?_, k1⟩
      have hd : d m = none := hx d (by simp [asked])
      rw [k2]
      unfold patch
      rw [hd]; exact hw
    · exact ⟨c, get_modify.2 ⟨c, h1, by rw [if_neg hj]⟩, hw, h2⟩
  | change u d =>
    refine ⟨fun _ => ⟨tell (u, d) c, get_map.2 ⟨c, h1, rfl⟩, hw, ?_⟩, fun _ => by simp [heard]⟩
    rw [Steady, tell_foreign c (u, d) (fun hm => hu u (.head _) (h.uidsUsed i c h1 u hm))]; exact h2
  | deliver j =>
    by_cases hj : j = i
    · subst hj
      have he : heard j s [.deliver j] = unasked (some c) := by simp [heard, h1]
      have hget : (step true s (.deliver j)).clients[j]? = some (hear true c) :=
        get_modify.2 ⟨c, h1, by rw [if_pos rfl]⟩
      rw [he]
      constructor
      · intro hf
        obtain ⟨k1, k2⟩ := hear_holds hg m w hw h2 hf
        exact ⟨hear true c, hget, k1, k2⟩
      · rintro ⟨c', hc', hv⟩ d hd
        rw [hget] at hc'
        cases hc'
        cases hdm : d m with
        | none => exact Or.inl rfl
        | some y => exact Or.inr (by rw [← hv, hear_unasked m y d hd hdm])
    · refine ⟨fun _ => ⟨c, get_modify.2 ⟨c, h1, by rw [if_neg hj]⟩, hw, h2⟩, fun _ => by simp [heard, hj]⟩
  | serve j =>
    refine ⟨fun _ => ?_, fun _ => by simp [heard]⟩
    rcases serve_eq true s j with e | ⟨a, x, rest, q1, q2, q3, q4⟩
    · rw [e]; exact ⟨c, h1, hw, h2⟩
    · have hxa : x.1 ∈ a.store.uids := by
        rw [own_uids (h.good j a q1), own, q2]
        simp
      by_cases hj : j = i
      · subst hj
        rw [h1] at q1; cases q1
        refine ⟨tell x { c with outbox := rest }, (q4 j _).2 ⟨c, h1, by rw [if_pos rfl]⟩, hw, ?_⟩
        rw [Steady, tell_own c x rest q2 hxa]; exact h2
      · have hxi : x.1 ∉ c.store.uids := h.apart j i a c q1 h1 hj _ hxa
        refine ⟨tell x c, (q4 i _).2 ⟨c, h1, by rw [if_neg hj]⟩, hw, ?_⟩
        rw [Steady, tell_foreign c x hxi]; exact h2

theorem heard_cons (i : Nat) (s : Sys U T) (x : Step U T) (h : List (Step U T)) :
    heard i s (x :: h) = heard i s [x] ++ heard i (step true s x) h := by
  cases x <;> simp [heard]

/-- From a state in which the client shows `w`, with its requests leading to it. -/
theorem holds_run (h : List (Step U T)) : ∀ {used : List U} {s : Sys U T} {i : Nat} {m : Fin n} {w : T m},
    Inv used s → Holds i m w s → (∀ d ∈ asked i h, d m = none) → (uids h).Nodup → (∀ u ∈ uids h, u ∉ used) →
    ((∀ k, k <+: h → Shows i m w (run true s k)) ↔ ∀ d ∈ heard i s h, d m = none ∨ d m = some w) := by
  induction h with
  | nil =>
    intro used s i m w _ hs _ _ _
    obtain ⟨c, h1, hw, _⟩ := hs
    constructor
    · intro _ d hd; simp [heard] at hd
    · intro _ k hk
      rw [List.prefix_nil] at hk
      subst hk
      exact ⟨c, h1, hw⟩
  | cons x h ih =>
    intro used s i m w hi hs ha hn hu
    rw [asked_cons] at ha
    rw [uids_cons, List.nodup_append] at hn
    rw [uids_cons] at hu
    have hu1 : ∀ u ∈ uids [x], u ∉ used := fun u hm => hu u (List.mem_append_left _ hm)
    obtain ⟨k1, k2⟩ := holds_step hi hs x (fun d hd => ha d (List.mem_append_left _ hd)) hu1
    have hih := fun hh => ih (s := step true s x) (i := i) (m := m) (w := w) (run_inv [x] hi hn.1 hu1) hh
      (fun d hd => ha d (List.mem_append_right _ hd)) hn.2.1 (by
      intro u hm hmem
      rcases List.mem_append.1 hmem with hmem | hmem
      · exact hn.2.2 u (List.mem_reverse.1 hmem) u hm rfl
      · exact hu u (List.mem_append_right _ hm) hmem)
    rw [heard_cons]
    constructor
    · intro hall
      have h1 := k2 (hall [x] (by simp [List.cons_prefix_cons]))
      have h2 := (hih (k1 h1)).1 (fun k hk => hall (x :: k) (List.cons_prefix_cons.2 ⟨rfl, hk⟩))
      intro d hd
      rcases List.mem_append.1 hd with hd | hd
      · exact h1 d hd
      · exact h2 d hd
    · intro hall k hk
      have h1 := k1 (fun d hd => hall d (List.mem_append_left _ hd))
      cases k with
      | nil =>
        obtain ⟨c, hc, hw, _⟩ := hs
        exact ⟨c, hc, hw⟩
      | cons y k =>
        obtain ⟨rfl, hk'⟩ := List.cons_prefix_cons.1 hk
        exact (hih h1).2 (fun d hd => hall d (List.mem_append_right _ hd)) k hk'

/-- C131: from the moment the program of a client asks for a change of a member, and as long as it does not ask for
another change of this member, the client shows this change at every moment exactly if it does not hear of another
value of the member from others.  This is for every history before and after, with any number of clients: neither
answers, nor changes of other members, nor the order in which they arrive make an older value reappear. -/
theorem own_change_exact (v : Record T) (pre post : List (Step U T)) (i : Nat) (u : U) (d : Delta T)
    (hn : (uids (pre ++ .request i u d :: post)).Nodup) (hi : i < (run true (start v) pre : Sys U T).clients.length)
    (m : Fin n) (w : T m) (hd : d m = some w) (ha : ∀ e ∈ asked i post, e m = none) :
    (∀ k, k <+: post → Shows i m w (run true (start v) (pre ++ .request i u d :: k))) ↔
      ∀ e ∈ heard i (run true (start v) (pre ++ [.request i u d])) post, e m = none ∨ e m = some w := by
  have hsplit : ∀ k, run true (start v : Sys U T) (pre ++ .request i u d :: k)
      = run true (run true (start v) (pre ++ [.request i u d])) k := by
    intro k
    rw [← run_append, List.append_assoc]; rfl
  have hiff : (∀ k, k <+: post → Shows i m w (run true (start v : Sys U T) (pre ++ .request i u d :: k))) ↔
      ∀ k, k <+: post → Shows i m w (run true (run true (start v) (pre ++ [.request i u d])) k) :=
    ⟨fun h k hk => by rw [← hsplit k]; exact h k hk, fun h k hk => by rw [hsplit k]; exact h k hk⟩
  rw [hiff]
  have hn1 : (uids (pre ++ [.request i u d])).Nodup ∧ (uids post).Nodup
      ∧ ∀ a ∈ uids (pre ++ [.request i u d]), ∀ b ∈ uids post, a ≠ b := by
    have e : pre ++ Step.request i u d :: post = (pre ++ [.request i u d]) ++ post := by simp
    rw [e, uids_append] at hn
    exact List.nodup_append.1 hn
  have hpre : (uids pre).Nodup := by
    have := hn1.1
    rw [uids_append] at this
    exact (List.nodup_append.1 this).1
  have hinv := run_inv (pre ++ [.request i u d]) (start_inv v) hn1.1 (by simp)
  refine holds_run post hinv ?_ ha hn1.2.1 (by
    intro x hx hm
    rw [List.append_nil] at hm
    exact hn1.2.2 x (List.mem_reverse.1 hm) x hx rfl)
  have hip := run_inv pre (start_inv v : Inv [] (start v : Sys U T)) hpre (by simp)
  rw [run_append]
  obtain ⟨c, hc⟩ : ∃ c, (run true (start v) pre : Sys U T).clients[i]? = some c := ⟨_, List.getElem?_eq_getElem hi⟩
  have hun : u ∉ (uids pre).reverse ++ [] := by
    intro hm
    rw [List.append_nil] at hm
    rw [uids_append] at hn
    exact (List.nodup_append.1 hn).2.2 u (List.mem_reverse.1 hm) u (.head _) rfl
  have hnu : u ∉ c.store.uids := fun hm => hun (hip.uidsUsed i c hc u hm)
  have hin : ∀ x ∈ c.inbox, x.1 ≠ u := fun x hx e => hun (e ▸ hip.inboxUsed i c hc x hx)
  have hval : (ask u d c).store.value m = w := by
    have : (ask u d c).store.value = patch d c.store.value := apply_fst d c.store.value
    rw [this]
    unfold patch
    rw [hd]; rfl
  refine ⟨ask u d c, get_modify.2 ⟨c, hc, by rw [if_pos rfl]⟩, hval, ?_⟩
  rw [Steady, ask_own (hip.good i c hc) u d hnu hin, hval, List.map_append, patches_append]
  show patch d _ m = w
  unfold patch
  rw [hd]; rfl

/-- Both happen: another client changes another member, or the same one. -/
example :
    (heard 0 (run true (start (sample 0 false "a")) [.join, .join, .request 0 1 (sampleDelta (some 1) none none)] : Sys Nat Sample)
      [.request 1 2 (sampleDelta none none (some "b")), .serve 1, .deliver 0, .serve 0, .deliver 0]).map (fun e => e 0)
      = [none]
    ∧ (heard 0 (run true (start (sample 0 false "a")) [.join, .join, .request 0 1 (sampleDelta (some 1) none none)] : Sys Nat Sample)
      [.request 1 2 (sampleDelta (some 2) none none), .serve 1, .deliver 0, .serve 0, .deliver 0]).map (fun e => e 0)
      = [some (2 : Nat)] := by decide +kernel

end Nbdl.Optimist
