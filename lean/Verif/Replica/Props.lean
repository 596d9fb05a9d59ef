import Verif.Replica.Lemmas
/-! C105: clients show what the server showed; C106: the server passes on what they ask for. -/
namespace Nbdl.Replica
open MapStore (Msg Map Payload View)
open Context (Config mapOps)
open Spec
variable {P V : Type} [DecidableEq P]

/-- One step of the invariant. -/
theorem track_step {late : Prop} {srv : Nat → Nat → P → Option (Payload V)} {n j : Nat}
    {s s' : Sys P V} {c c' : Client P V} {x : Step P V} (hseen : Seen s s' c c' x)
    (hsrv : ∀ t p, srv (n + 1) t p = shows s'.server t p)
    (hl : late → ∀ t q w, x = .produce t (.downRead q w) → ∀ w', shows s.server t q = some w' → w' = w)
    (htr : Track late srv n (shows c.stores) j c.inbox)
    (hnow : c.registered = true → ∀ t p, Rel late (c.inbox.foldl (effect t p) (shows c.stores t p)) (shows s.server t p)) :
    (∃ j', j ≤ j' ∧ Track late srv (n + 1) (shows c'.stores) j' c'.inbox)
    ∧ (c'.registered = true → ∀ t p,
        Rel late (c'.inbox.foldl (effect t p) (shows c'.stores t p)) (shows s'.server t p)) := by
  cases hseen with
  | quiet hs hc hi hr hx =>
    refine ⟨⟨j, Nat.le_refl _, ?_⟩, ?_⟩
    · rw [hi]; exact track_later (Nat.le_succ n) _ (track_congr htr hc)
    · intro h t p; rw [hi, hc, hs]; exact hnow (hr h) t p
  | delivered w hw hs hc hr hx =>
    rw [hw] at htr hnow
    obtain ⟨h1, h2, j', h3, h4⟩ := htr
    refine ⟨⟨j', h3, track_later (Nat.le_succ n) _ (track_congr h4 hc)⟩, ?_⟩
    intro h t p
    rw [hs, hc]
    exact hnow (hr ▸ h) t p
  | pushed t m hx hs hc hi hr =>
    by_cases hreg : c.registered = true
    · rw [if_pos hreg] at hi
      have hl' : late → ∀ q w, m = .downRead q w → ∀ w', shows s.server t q = some w' → w' = w := by
        intro hlate q w hm
        rcases hx with hx | ⟨-, hask⟩
        · exact hl hlate t q w (by rw [hx, hm])
        · rw [hm] at hask; simp [isAsk, Msg.isUpstream] at hask
      have hrel : ∀ t' p, Rel late (c'.inbox.foldl (effect t' p) (shows c.stores t' p)) (shows s'.server t' p) := by
        intro t' p
        rw [hi, List.foldl_append, hs]
        exact rel_push s.server t m t' p _ (hnow hreg t' p) hl'
      refine ⟨⟨j, Nat.le_refl _, ?_⟩, ?_⟩
      · refine track_congr ?_ hc
        have hshort : sends s.server t m = [] ∨ ∃ w, sends s.server t m = [w] := by
          unfold sends
          split
          · split
            · exact Or.inr ⟨_, rfl⟩
            · exact Or.inl rfl
          · split
            · exact Or.inl rfl
            · exact Or.inr ⟨_, rfl⟩
        rcases hshort with h0 | ⟨w, h1⟩
        · rw [hi, h0, List.append_nil]; exact track_later (Nat.le_succ n) _ htr
        · rw [h1] at hi
          rw [hi] at hrel ⊢
          exact track_snoc w _ htr (fun t' p => by rw [hsrv]; exact hrel t' p)
      · intro _ t' p; rw [hc]; exact hrel t' p
    · rw [if_neg hreg] at hi
      refine ⟨⟨j, Nat.le_refl _, ?_⟩, ?_⟩
      · rw [hi]; exact track_later (Nat.le_succ n) _ (track_congr htr hc)
      · intro h; rw [hr] at h; exact absurd h hreg

theorem run_succ (u : Setup P V) (pre post : List (Step P V)) (n : Nat) (hn : n < post.length) :
    run u start (Spec.afterJoin pre post (n + 1)) = step u (run u start (Spec.afterJoin pre post n)) post[n] := by
  have e : Spec.afterJoin pre post (n + 1) = Spec.afterJoin pre post n ++ [post[n]] := by
    unfold Spec.afterJoin
    rw [List.take_succ_eq_append_getElem hn, List.append_assoc]; rfl
  rw [e, run_append]; rfl

theorem core (u : Setup P V) (hu : Legal u) (late : Prop) (pre post : List (Step P V))
    (hask : ∀ x ∈ post, asksOnly x = true)
    (h0 : late ∨ ∀ t p, shows (run u start pre).server t p = none)
    (hl : late → NoLateAnswers u (pre ++ .join :: post)) (n : Nat) (hn : n ≤ post.length) :
    ∃ f : Nat → Nat, (∀ k, f k ≤ k) ∧ (∀ k, k < n → f k ≤ f (k + 1))
      ∧ (∀ k, k ≤ n → ∃ c, (run u start (Spec.afterJoin pre post k)).clients[(run u start pre).clients.length]? = some c
          ∧ ∀ t p, Rel late (shows c.stores t p) (shows (run u start (Spec.afterJoin pre post (f k))).server t p))
      ∧ ∃ c, (run u start (Spec.afterJoin pre post n)).clients[(run u start pre).clients.length]? = some c
          ∧ Track late (fun k => shows (run u start (Spec.afterJoin pre post k)).server) n (shows c.stores) (f n) c.inbox
          ∧ (c.registered = true → ∀ t p, Rel late (c.inbox.foldl (effect t p) (shows c.stores t p))
              (shows (run u start (Spec.afterJoin pre post n)).server t p)) := by
  induction n with
  | zero =>
    have e : run u start (Spec.afterJoin pre post 0) = step u (run u start pre) .join := by
      unfold Spec.afterJoin; rw [run_append]; rfl
    have hc : (step u (run u start pre) .join).clients[(run u start pre).clients.length]?
        = some ⟨fresh, [], [], true⟩ := by simp [step]
    have hsv : ∀ t p, shows (step u (run u start pre) .join).server t p = shows (run u start pre).server t p :=
      fun _ _ => rfl
    have hf : ∀ t p, shows (fresh : Stores P V) t p = none := fun _ _ => rfl
    have hrel : ∀ t p, Rel late (shows (fresh : Stores P V) t p)
        (shows (step u (run u start pre) .join).server t p) := by
      intro t p
      rw [hf, hsv]
      rcases h0 with h0 | h0
      · exact Or.inr ⟨h0, rfl⟩
      · exact Or.inl (h0 t p).symm
    refine ⟨fun _ => 0, fun k => Nat.zero_le k, fun k hk => absurd hk (Nat.not_lt_zero k), ?_, ?_⟩
    · intro k hk
      have : k = 0 := by omega
      subst this
      refine ⟨⟨fresh, [], [], true⟩, by rw [e]; exact hc, ?_⟩
      rw [e]; exact hrel
    · refine ⟨⟨fresh, [], [], true⟩, by rw [e]; exact hc, ⟨Nat.le_refl 0, ?_⟩, ?_⟩
      · show ∀ t p, Rel late (shows fresh t p) (shows (run u start (Spec.afterJoin pre post 0)).server t p)
        rw [e]; exact hrel
      · intro _; rw [e]; exact hrel
  | succ n ih =>
    obtain ⟨f, hf1, hf2, hf3, c, hc, htr, hnow⟩ := ih (by omega)
    have hlt : n < post.length := hn
    have hrun := run_succ u pre post n hlt
    have htidy : Tidy (run u start (Spec.afterJoin pre post n)) := tidy_run u hu _ tidy_start _
    obtain ⟨c', hc', hseen⟩ := seen_step u hu _ htidy _ c hc post[n] (hask _ (List.getElem_mem hlt))
    rw [← hrun] at hc' hseen
    have hl' : late → ∀ t q w, post[n] = .produce t (.downRead q w) →
        ∀ w', shows (run u start (Spec.afterJoin pre post n)).server t q = some w' → w' = w := by
      intro hlate t q w hx
      refine hl hlate _ t q w (post.drop (n + 1)) ?_
      unfold Spec.afterJoin
      rw [List.append_assoc]
      congr 1
      rw [List.cons_append]
      congr 1
      rw [← hx]
      conv => lhs; rw [← List.take_append_drop n post]
      congr 1
      exact List.drop_eq_getElem_cons hlt
    obtain ⟨⟨j', hj, htr'⟩, hnow'⟩ := track_step hseen
      (srv := fun k => shows (run u start (Spec.afterJoin pre post k)).server) (n := n) (fun _ _ => rfl) hl' htr hnow
    refine ⟨fun k => if k ≤ n then f k else if k = n + 1 then j' else 0, ?_, ?_, ?_, ?_⟩
    · intro k
      simp only []
      split
      · exact hf1 k
      · split
        · rename_i h; rw [h]; exact (track_here htr').1
        · exact Nat.zero_le k
    · intro k hk
      simp only []
      rw [if_pos (show k ≤ n by omega)]
      by_cases hkn : k + 1 ≤ n
      · rw [if_pos hkn]; exact hf2 k (by omega)
      · have : k = n := by omega
        subst this
        rw [if_neg hkn, if_pos rfl]; exact hj
    · intro k hk
      by_cases hkn : k ≤ n
      · obtain ⟨c1, hc1, hr1⟩ := hf3 k hkn
        refine ⟨c1, hc1, ?_⟩
        simp only []
        rw [if_pos hkn]; exact hr1
      · have : k = n + 1 := by omega
        subst this
        refine ⟨c', hc', ?_⟩
        simp only []
        rw [if_neg hkn, if_pos trivial]
        exact (track_here htr').2
    · refine ⟨c', hc', ?_, hnow'⟩
      simp only []
      rw [if_neg (show ¬ n + 1 ≤ n by omega), if_pos trivial]
      exact htr'

/-- C105, partial: a client which joins while the server shows nothing always shows what the server
showed at some time since, and never goes back; when it has read what was sent to it and is still
connected, it shows what the server shows.  For all programs, schedules and interruptions, and
whatever the answers. -/
theorem founder_follows_partial (u : Setup P V) (hu : Legal u) (pre post : List (Step P V))
    (hask : ∀ x ∈ post, asksOnly x = true)
    (h0 : ∀ t p, shows (run u start pre).server t p = none) :
    ∃ f : Nat → Nat, (∀ k, f k ≤ k) ∧ (∀ k, k < post.length → f k ≤ f (k + 1))
      ∧ ∀ k, k ≤ post.length →
        ∃ c, (run u start (Spec.afterJoin pre post k)).clients[(run u start pre).clients.length]? = some c
          ∧ (∀ t p, shows c.stores t p = shows (run u start (Spec.afterJoin pre post (f k))).server t p)
          ∧ (c.registered = true → c.inbox = [] →
              ∀ t p, shows c.stores t p = shows (run u start (Spec.afterJoin pre post k)).server t p) := by
  have hR : ∀ x y : Option (Payload V), Rel False x y → x = y := by
    intro x y h
    rcases h with h | h
    · exact h
    · exact h.1.elim
  have hcore := fun n => core u hu False pre post hask (Or.inr h0) (fun h => h.elim) n
  obtain ⟨f, hf1, hf2, hf3, -⟩ := hcore post.length (Nat.le_refl _)
  refine ⟨f, hf1, hf2, fun k hk => ?_⟩
  obtain ⟨c, hc, hr⟩ := hf3 k hk
  refine ⟨c, hc, fun t p => hR _ _ (hr t p), fun hreg hin t p => ?_⟩
  obtain ⟨-, -, -, -, c', hc', -, hnow⟩ := hcore k hk
  rw [hc] at hc'
  cases hc'
  have := hR _ _ (hnow hreg t p)
  rw [hin] at this
  exact this

theorem deliver_all (u : Setup P V) (i : Nat) (s : Sys P V) (c : Client P V) (hc : s.clients[i]? = some c) :
    ∃ c', (run u s (List.replicate c.inbox.length (.deliver i))).clients[i]? = some c'
      ∧ c'.inbox = [] ∧ c'.registered = c.registered
      ∧ (run u s (List.replicate c.inbox.length (.deliver i))).server = s.server := by
  generalize hn : c.inbox.length = n
  induction n generalizing s c with
  | zero => exact ⟨c, hc, List.length_eq_zero_iff.1 hn, rfl, rfl⟩
  | succ n ih =>
    obtain ⟨st, inb, outb, reg⟩ := c
    cases inb with
    | nil => cases hn
    | cons w rest =>
      obtain ⟨t, m⟩ := w
      have hc1 : (step u s (.deliver i)).clients[i]?
          = some (clientPush u ⟨st, rest, outb, reg⟩ t m) := by
        simp only [step]
        rw [getElem?_modify_cases _ i i _ _ hc, if_pos rfl]
        rfl
      obtain ⟨c', h1, h2, h3, h4⟩ := ih _ _ hc1 (by simpa [clientPush] using hn)
      exact ⟨c', h1, h2, h3, h4⟩

/-- C105, partial: such a client catches up as soon as it reads what is on the way to it, from every
state it can be in. -/
theorem founder_catches_up_partial (u : Setup P V) (hu : Legal u) (pre post : List (Step P V))
    (hask : ∀ x ∈ post, asksOnly x = true)
    (h0 : ∀ t p, shows (run u start pre).server t p = none) :
    ∃ c, (run u start (pre ++ .join :: post)).clients[(run u start pre).clients.length]? = some c
      ∧ (c.registered = true →
          ∃ c', (run u start (pre ++ .join :: (post ++ List.replicate c.inbox.length
                (.deliver (run u start pre).clients.length)))).clients[(run u start pre).clients.length]? = some c'
            ∧ ∀ t p, shows c'.stores t p = shows (run u start (pre ++ .join :: post)).server t p) := by
  have hall : ∀ post : List (Step P V), (∀ x ∈ post, asksOnly x = true) →
      ∃ c, (run u start (pre ++ .join :: post)).clients[(run u start pre).clients.length]? = some c
        ∧ (c.registered = true → c.inbox = [] →
            ∀ t p, shows c.stores t p = shows (run u start (pre ++ .join :: post)).server t p) := by
    intro post hask
    obtain ⟨f, -, -, h⟩ := founder_follows_partial u hu pre post hask h0
    obtain ⟨c, hc, -, hnow⟩ := h post.length (Nat.le_refl _)
    have e : Spec.afterJoin pre post post.length = pre ++ .join :: post := by simp [Spec.afterJoin]
    rw [e] at hc hnow
    exact ⟨c, hc, hnow⟩
  obtain ⟨c, hc, -⟩ := hall post hask
  refine ⟨c, hc, fun hreg => ?_⟩
  obtain ⟨c1, hc1, hin, hr1, hsv⟩ := deliver_all u _ _ c hc
  have e : run u (run u start (pre ++ .join :: post))
        (List.replicate c.inbox.length (.deliver (run u start pre).clients.length))
      = run u start (pre ++ .join :: (post ++ List.replicate c.inbox.length
          (.deliver (run u start pre).clients.length))) := by
    rw [← run_append]; simp
  rw [e] at hc1 hsv
  obtain ⟨c2, hc2, hnow⟩ := hall (post ++ List.replicate c.inbox.length (.deliver (run u start pre).clients.length)) (by
    intro x hx
    rcases List.mem_append.1 hx with hx | hx
    · exact hask x hx
    · rw [(List.mem_replicate.1 hx).2]; rfl)
  rw [hc1] at hc2
  cases hc2
  refine ⟨c1, hc1, fun t p => ?_⟩
  rw [hnow (hr1.trans hreg) hin t p, hsv]

/-- C105, partial: a client which joins later shows at every path what the server showed at some time
since, or nothing, and never goes back, provided that no answer to a read is late; when it has read
what was sent to it and is still connected, it shows what the server shows now, or nothing. -/
theorem late_follows_partial (u : Setup P V) (hu : Legal u) (pre post : List (Step P V))
    (hask : ∀ x ∈ post, asksOnly x = true) (hl : NoLateAnswers u (pre ++ .join :: post)) :
    ∃ f : Nat → Nat, (∀ k, f k ≤ k) ∧ (∀ k, k < post.length → f k ≤ f (k + 1))
      ∧ ∀ k, k ≤ post.length →
        ∃ c, (run u start (Spec.afterJoin pre post k)).clients[(run u start pre).clients.length]? = some c
          ∧ (∀ t p w, shows c.stores t p = some w →
              shows (run u start (Spec.afterJoin pre post (f k))).server t p = some w)
          ∧ (c.registered = true → c.inbox = [] → ∀ t p w, shows c.stores t p = some w →
              shows (run u start (Spec.afterJoin pre post k)).server t p = some w) := by
  have hR : ∀ x y : Option (Payload V), Rel True x y → ∀ w, x = some w → y = some w := by
    intro x y h w hw
    rcases h with h | h
    · rw [← h]; exact hw
    · rw [h.2] at hw; cases hw
  have hcore := fun n => core u hu True pre post hask (Or.inl trivial) (fun _ => hl) n
  obtain ⟨f, hf1, hf2, hf3, -⟩ := hcore post.length (Nat.le_refl _)
  refine ⟨f, hf1, hf2, fun k hk => ?_⟩
  obtain ⟨c, hc, hr⟩ := hf3 k hk
  refine ⟨c, hc, fun t p => hR _ _ (hr t p), fun hreg hin t p => ?_⟩
  obtain ⟨-, -, -, -, c', hc', -, hnow⟩ := hcore k hk
  rw [hc] at hc'
  cases hc'
  have := hR _ _ (hnow hreg t p)
  rw [hin] at this
  exact this

theorem settled_core (u : Setup P V) (hu : Legal u) (pre post : List (Step P V))
    (hask : ∀ x ∈ post, asksOnly x = true) (t : Nat) (p : P) (n : Nat) (hn : n ≤ post.length) :
    ∃ c, (run u start (Spec.afterJoin pre post n)).clients[(run u start pre).clients.length]? = some c
      ∧ (c.registered = true → (∃ x ∈ post.take n, settles t p x) →
          c.inbox.foldl (effect t p) (shows c.stores t p)
            = shows (run u start (Spec.afterJoin pre post n)).server t p) := by
  induction n with
  | zero =>
    refine ⟨⟨fresh, [], [], true⟩, ?_, ?_⟩
    · have e : run u start (Spec.afterJoin pre post 0) = step u (run u start pre) .join := by
        unfold Spec.afterJoin; rw [run_append]; rfl
      rw [e]; simp [step]
    · rintro - ⟨x, hx, -⟩; simp at hx
  | succ n ih =>
    obtain ⟨c, hc, hset⟩ := ih (by omega)
    have hlt : n < post.length := hn
    have hrun := run_succ u pre post n hlt
    have htidy : Tidy (run u start (Spec.afterJoin pre post n)) := tidy_run u hu _ tidy_start _
    obtain ⟨c', hc', hseen⟩ := seen_step u hu _ htidy _ c hc post[n] (hask _ (List.getElem_mem hlt))
    rw [← hrun] at hc' hseen
    refine ⟨c', hc', ?_⟩
    rintro hreg ⟨x, hx, hxs⟩
    rw [List.take_succ_eq_append_getElem hlt, List.mem_append, List.mem_singleton] at hx
    have hnp : isProduce post[n] = false → ∃ x ∈ post.take n, settles t p x := by
      intro hp
      rcases hx with hx | rfl
      · exact ⟨x, hx, hxs⟩
      · cases hv : post[n] <;> simp_all [isProduce, settles]
    cases hseen with
    | quiet hs hcs hi hr hp =>
      rw [hi, hcs, hs]; exact hset (hr hreg) (hnp hp)
    | delivered w hw hs hcs hr hp =>
      have := hset (hr ▸ hreg) (hnp hp)
      rw [hw] at this
      rw [hs, hcs]; exact this
    | pushed t' m hp hs hcs hi hr =>
      rw [hr] at hreg
      rw [if_pos hreg] at hi
      rw [hi, hcs, hs, List.foldl_append]
      by_cases hold : ∃ x ∈ post.take n, settles t p x
      · have := rel_push (late := False) (run u start (Spec.afterJoin pre post n)).server t' m t p _
          (Or.inl (hset hreg hold)) (fun h => h.elim)
        rcases this with h | h
        · exact h
        · exact h.1.elim
      · rcases hx with hx | rfl
        · exact absurd ⟨x, hx, hxs⟩ hold
        · rcases hp with hp | ⟨hp, -⟩
          · rw [hp] at hxs
            cases m <;> simp only [settles] at hxs <;>
              (obtain ⟨rfl, rfl⟩ := hxs; simp [sends, effect, Msg.isUpRead, Msg.isUpstream, Msg.path])
          · exact absurd (hnp hp) hold

/-- C105, partial: also a client which joins later shows exactly what the server shows, at every path
that has been created, updated or deleted since, once it has read what was sent to it.  This holds
even if answers to reads are late. -/
theorem settled_paths_agree (u : Setup P V) (hu : Legal u) (pre post : List (Step P V))
    (hask : ∀ x ∈ post, asksOnly x = true) (t : Nat) (p : P) (hs : ∃ x ∈ post, settles t p x) :
    ∃ c, (run u start (pre ++ .join :: post)).clients[(run u start pre).clients.length]? = some c
      ∧ (c.registered = true → c.inbox = [] →
          shows c.stores t p = shows (run u start (pre ++ .join :: post)).server t p) := by
  obtain ⟨c, hc, h⟩ := settled_core u hu pre post hask t p post.length (Nat.le_refl _)
  have e : Spec.afterJoin pre post post.length = pre ++ .join :: post := by simp [Spec.afterJoin]
  rw [e] at hc h
  refine ⟨c, hc, fun hr hi => ?_⟩
  have := h hr (by simpa using hs)
  rw [hi] at this
  exact this

/-- C105 fails for what there was before: as long as the server is not told anything new, a client
which joins shows nothing, whatever it and the others ask for, match or wait for, because a map store
does not pass on a request to read (C28). -/
theorem existing_never_shown_violated (u : Setup P V) (hu : Legal u) (pre post : List (Step P V))
    (hask : ∀ x ∈ post, asksOnly x = true) (hq : ∀ x ∈ post, isProduce x = false) :
    ∃ c, (run u start (pre ++ .join :: post)).clients[(run u start pre).clients.length]? = some c
      ∧ c.inbox = [] ∧ ∀ t p, shows c.stores t p = none := by
  suffices h : ∀ n, n ≤ post.length →
      ∃ c, (run u start (Spec.afterJoin pre post n)).clients[(run u start pre).clients.length]? = some c
        ∧ c.inbox = [] ∧ ∀ t p, shows c.stores t p = none by
    have := h post.length (Nat.le_refl _)
    have e : Spec.afterJoin pre post post.length = pre ++ .join :: post := by simp [Spec.afterJoin]
    rw [e] at this
    exact this
  intro n
  induction n with
  | zero =>
    intro _
    refine ⟨⟨fresh, [], [], true⟩, ?_, rfl, fun _ _ => rfl⟩
    have e : run u start (Spec.afterJoin pre post 0) = step u (run u start pre) .join := by
      unfold Spec.afterJoin; rw [run_append]; rfl
    rw [e]; simp [step]
  | succ n ih =>
    intro hn
    obtain ⟨c, hc, hin, hsh⟩ := ih (by omega)
    have hlt : n < post.length := hn
    have hrun := run_succ u pre post n hlt
    have htidy : Tidy (run u start (Spec.afterJoin pre post n)) := tidy_run u hu _ tidy_start _
    obtain ⟨c', hc', hseen⟩ := seen_step u hu _ htidy _ c hc post[n] (hask _ (List.getElem_mem hlt))
    rw [← hrun] at hc' hseen
    have hnp := hq _ (List.getElem_mem hlt)
    refine ⟨c', hc', ?_⟩
    cases hseen with
    | quiet hs hcs hi hr hp => exact ⟨hi.trans hin, fun t p => (hcs t p).trans (hsh t p)⟩
    | delivered w hw hs hcs hr hp => rw [hin] at hw; cases hw
    | pushed t' m hp hs hcs hi hr =>
      have hask' : isAsk m = true := by
        rcases hp with hp | hp
        · rw [hp] at hnp; cases hnp
        · exact hp.2
      have e : sends (run u start (Spec.afterJoin pre post n)).server t' m = [] := by
        unfold sends
        cases m <;> simp_all [isAsk, Msg.isUpRead, Msg.isUpstream]
      refine ⟨?_, fun t p => (hcs t p).trans (hsh t p)⟩
      rw [hi, e, hin]; simp

/-! ## Requests -/

theorem sentUp_write (c : Config (Map P V) P V) (hc : ∀ t, c.ops t = mapOps)
    (st : Stores P V) (t : Nat) (m : Msg P V) (hr : m.isUpRead = false) :
    Context.sentUp (Context.push c st t m).2 = if m.isUpstream then [(c.producerOf t, t, m)] else [] := by
  rw [push_map c hc]
  unfold Context.pushMain
  rw [hr]
  simp only [Bool.false_eq_true, if_false, Context.sentUp_append]
  have h1 : ∀ (b : Bool) st', Context.sentUp (if b then Context.notifyStateConsumers c st' t m.path else []) = [] := by
    intro b st'; cases b
    · rfl
    · exact (Context.notify_only c st' t m.path).1
  rw [h1, List.nil_append]
  split
  · rfl
  · exact (Context.down_only c _ t t m).2.1

theorem sentUp_ask (c : Config (Map P V) P V) (hc : ∀ t, c.ops t = mapOps)
    (st : Stores P V) (t : Nat) (m : Msg P V) (h : isAsk m = true) :
    Context.sentUp (Context.push c st t m).2 = [(c.producerOf t, t, m)] := by
  simp only [isAsk, Bool.and_eq_true, Bool.not_eq_true'] at h
  rw [sentUp_write c hc st t m h.2, if_pos h.1]

theorem upTo_push_eq (c : Config (Map P V) P V) (hc : ∀ t, c.ops t = mapOps) (a : Nat)
    (st : Stores P V) (t : Nat) (m : Msg P V) :
    upTo a (Context.push c st t m).2 = if isAsk m = true ∧ c.producerOf t = a then [(t, m)] else [] := by
  cases hr : m.isUpRead with
  | true =>
    have hno := upTo_push c hc a st t m
    have hn : ¬ isAsk m = true := by simp [isAsk, hr]
    rw [if_neg (fun h => hn h.1)]
    obtain ⟨p, rfl⟩ : ∃ p, m = .upRead p := by cases m <;> simp_all [Msg.isUpRead]
    have h := (Context.push_read c st t p).2.1
    rw [hc] at h
    unfold upTo
    rw [h (Context.map_never_triggers _ _)]; rfl
  | false =>
    have e := sentUp_write c hc st t m hr
    unfold upTo
    rw [e]
    cases hu : m.isUpstream <;> simp [isAsk, hu, hr, List.filterMap_cons]
    split <;> simp_all

theorem requests_core (u : Setup P V) (hu : Legal u) (i : Nat) (h : List (Step P V)) :
    ∀ (s : Sys P V) (c : Client P V), Tidy s → s.clients[i]? = some c →
      ∃ c', (run u s h).clients[i]? = some c' ∧
        forwarded u i s h ++ c'.outbox.map (fun w => (u.server.producerOf w.1, w))
          = (c.outbox ++ asked u i h).map (fun w => (u.server.producerOf w.1, w)) := by
  induction h with
  | nil => intro s c _ hc; exact ⟨c, hc, by simp [forwarded, asked]⟩
  | cons x h ih =>
    intro s c hs hc
    have hstep := tidy_step u hu s hs x
    -- a step after which the outbox is the same but for what is asked
    have same : ∀ c', (step u s x).clients[i]? = some c' →
        forwarded u i s (x :: h) = forwarded u i (step u s x) h →
        c'.outbox ++ asked u i h = c.outbox ++ asked u i (x :: h) →
        ∃ c', (run u s (x :: h)).clients[i]? = some c' ∧
          forwarded u i s (x :: h) ++ c'.outbox.map (fun w => (u.server.producerOf w.1, w))
            = (c.outbox ++ asked u i (x :: h)).map (fun w => (u.server.producerOf w.1, w)) := by
      intro c' hc' hf ha
      obtain ⟨c'', h1, h2⟩ := ih _ c' hstep hc'
      exact ⟨c'', h1, by rw [hf, h2, ha]⟩
    have hbro : ∀ (ws : List (Wire P V)) (c : Client P V), (broadcast ws c).outbox = c.outbox := by
      intro ws c; unfold broadcast; split <;> rfl
    cases x with
    | join =>
      refine same c ?_ rfl rfl
      simp only [step]
      rw [List.getElem?_append_left (List.getElem?_eq_some_iff.1 hc).1, hc]
    | leave j =>
      refine same _ (getElem?_modify_cases _ i j _ c hc) rfl ?_
      split <;> rfl
    | produce t m =>
      refine same (broadcast (downTo u.serverActor (Context.push u.server s.server t m).2) c) ?_ rfl
        (by rw [hbro]; rfl)
      simp only [step, serverPush, List.getElem?_map, hc, Option.map_some]
    | look j t p =>
      refine same _ (getElem?_modify_cases _ i j _ c hc) rfl ?_
      simp only [look_map u hu.clientStores, ite_self]
      rfl
    | deliver j =>
      refine same _ (getElem?_modify_cases _ i j _ c hc) rfl ?_
      split
      · unfold clientRead
        split
        · rfl
        · rename_i t m rest he
          have hm : m.isUpstream = false := (hs c (List.mem_of_getElem? hc)).2 (t, m) (by rw [he]; simp)
          simp only [clientPush, upTo_push_eq _ hu.clientStores, asked]
          simp [isAsk, hm]
      · rfl
    | act j t m =>
      refine same _ (getElem?_modify_cases _ i j _ c hc) rfl ?_
      by_cases hj : j = i
      · subst hj
        rw [if_pos rfl]
        simp only [clientPush, upTo_push_eq _ hu.clientStores, asked]
        cases m <;> by_cases hp : u.client.producerOf t = u.clientActor <;>
          simp [isAsk, Msg.isUpstream, Msg.isUpRead, hp]
      · rw [if_neg hj]
        simp only [asked, hj, false_and, if_false]
    | serve j =>
      by_cases hj : j = i
      · subst hj
        obtain ⟨st, inb, outb, reg⟩ := c
        cases outb with
        | nil =>
          have e : step u s (.serve j) = s := by simp only [step]; rw [hc]
          refine same ⟨st, inb, [], reg⟩ (by rw [e]; exact hc) ?_ rfl
          simp [forwarded, hc]
        | cons w rest =>
          obtain ⟨t, m⟩ := w
          have hm : isAsk m = true := (hs _ (List.mem_of_getElem? hc)).1 (t, m) (by simp)
          have e : step u s (.serve j) = serverPush u
              { s with clients := s.clients.modify j fun c => { c with outbox := rest } } t m := by
            simp only [step]; rw [hc]
          have hc' : (step u s (.serve j)).clients[j]?
              = some (broadcast (downTo u.serverActor (Context.push u.server s.server t m).2) ⟨st, inb, rest, reg⟩) := by
            rw [e]
            simp only [serverPush, List.getElem?_map]
            rw [getElem?_modify_cases _ j j _ _ hc, if_pos rfl]
            rfl
          obtain ⟨c'', h1, h2⟩ := ih _ _ hstep hc'
          refine ⟨c'', h1, ?_⟩
          have hf : forwarded u j s (.serve j :: h)
              = (u.server.producerOf t, t, m) :: forwarded u j (step u s (.serve j)) h := by
            simp only [forwarded, hc, if_true, Option.map_some, Option.getD_some]
            rw [sentUp_ask _ hu.serverStores _ _ _ hm]; rfl
          rw [hf, List.cons_append, h2, hbro]
          rfl
      · have e : (step u s (.serve j)).clients[i]? = some c ∨
            ∃ ws, (step u s (.serve j)).clients[i]? = some (broadcast ws c) := by
          simp only [step]
          split
          · right
            simp only [serverPush, List.getElem?_map]
            rw [getElem?_modify_cases _ i j _ _ hc, if_neg hj]
            exact ⟨_, rfl⟩
          · exact Or.inl hc
        have hf : forwarded u i s (.serve j :: h) = forwarded u i (step u s (.serve j)) h := by
          simp [forwarded, hj]
        rcases e with e | ⟨ws, e⟩
        · exact same c e hf rfl
        · exact same _ e hf (by rw [hbro]; rfl)

/-- C106: what the program of a client asks for reaches the producer of the server's context, once
each and in the order in which it was asked, except for what is still on the way.  For every history,
wherever the others are and whatever they do. -/
theorem requests_forwarded (u : Setup P V) (hu : Legal u) (pre post : List (Step P V)) :
    ∃ c, (run u start (pre ++ .join :: post)).clients[(run u start pre).clients.length]? = some c ∧
      forwarded u (run u start pre).clients.length (run u start (pre ++ [.join])) post
        ++ c.outbox.map (fun w => (u.server.producerOf w.1, w))
      = (asked u (run u start pre).clients.length post).map (fun w => (u.server.producerOf w.1, w)) := by
  have hc : (run u start (pre ++ [.join])).clients[(run u start pre).clients.length]?
      = some ⟨fresh, [], [], true⟩ := by
    rw [run_append]; simp [run, step]
  obtain ⟨c, h1, h2⟩ := requests_core u hu _ post _ _ (tidy_run u hu _ tidy_start _) hc
  refine ⟨c, ?_, h2⟩
  rw [← h1, ← run_append]
  simp

/-! ## A server with a database and two clients -/

/-- The server's context: a database (actor 0) and the server (actor 1); a client's: the connection
(actor 0) and a view (actor 1). -/
def sample : Setup Nat Nat where
  server := ⟨[⟨true, false, false⟩, ⟨false, true, false⟩], fun _ => 0, fun _ => [], fun _ => mapOps⟩
  serverActor := 1
  client := ⟨[⟨true, false, false⟩, ⟨false, false, true⟩], fun _ => 0, fun _ => [], fun _ => mapOps⟩
  clientActor := 0

theorem sample_legal : Legal sample := ⟨fun _ => rfl, fun _ => rfl, rfl⟩

/-- The first client asks for a create; the database carries it out; the client reads of it. -/
def sampleFirst : List (Step Nat Nat) :=
  [.act 0 0 (.upCreate 7 1), .serve 0, .produce 0 (.downCreate 7 (.value 1)), .look 0 0 7, .deliver 0]

/-- The second client joins, and then the value is updated twice. -/
def sampleLater : List (Step Nat Nat) :=
  [.act 1 0 (.upRead 7), .look 1 0 7, .produce 0 (.downUpdate 7 (.value 2)), .produce 1 (.downRead 4 .notFound),
   .deliver 1, .produce 0 (.upRead 7), .produce 0 (.downUpdate 7 (.value 3)), .deliver 1]

example : (∀ x ∈ sampleFirst ++ .join :: sampleLater, asksOnly x = true)
    ∧ shows (run sample start ([] ++ .join :: sampleFirst)).server 0 7 = some (.value 1)
    ∧ ((run sample start ([] ++ .join :: sampleFirst)).clients.map fun c => shows c.stores 0 7) = [some (.value 1)]
    ∧ (∃ x ∈ sampleLater, settles 0 7 x)
    ∧ (let s := run sample start (.join :: sampleFirst ++ .join :: sampleLater)
       shows s.server 0 7 = some (.value 3)
       ∧ (s.clients.map fun c => (shows c.stores 0 7, c.inbox.length)) =
          [(some (.value 1), 4), (some (.value 2), 2)]) := by
  refine ⟨by decide, by decide, by decide, ⟨.produce 0 (.downUpdate 7 (.value 2)), by simp [sampleLater], rfl, rfl⟩, by decide⟩

/-- In that history a request of the first client has reached the database. -/
example : asked sample 0 sampleFirst = [(0, .upCreate 7 1)]
    ∧ forwarded sample 0 (run sample start [.join]) sampleFirst = [(0, 0, .upCreate 7 1)] := by decide

/-- The answers in that history are not late. -/
example : NoLateAnswers sample (.join :: sampleFirst ++ .join :: sampleLater) := by
  intro pre t p w post h w' hw
  have hpre : pre = (.join :: sampleFirst ++ .join :: sampleLater).take pre.length := by rw [h]; simp
  have hx : (.join :: sampleFirst ++ .join :: sampleLater)[pre.length]? = some (.produce t (.downRead p w)) := by
    rw [h]; simp
  have hlen : pre.length < 15 := by
    have := congrArg List.length h
    simp [sampleFirst, sampleLater] at this
    omega
  rw [hpre] at hw
  revert hw hx
  generalize pre.length = k at hlen
  have : k = 0 ∨ k = 1 ∨ k = 2 ∨ k = 3 ∨ k = 4 ∨ k = 5 ∨ k = 6 ∨ k = 7 ∨ k = 8 ∨ k = 9 ∨ k = 10 ∨ k = 11 ∨ k = 12
      ∨ k = 13 ∨ k = 14 := by omega
  rcases this with rfl | rfl | rfl | rfl | rfl | rfl | rfl | rfl | rfl | rfl | rfl | rfl | rfl | rfl | rfl <;>
    intro hw hx <;> simp [sampleFirst, sampleLater] at hx
  obtain ⟨rfl, rfl, rfl⟩ := hx
  exact absurd hw (by
    have : shows (run sample start ((.join :: sampleFirst ++ .join :: sampleLater).take 10)).server 1 4 = none := by
      decide
    rw [this]; simp)

/-- Without it the claim for clients which join later is false: the answer to a read arrives when the
value has been replaced; the server ignores it, and sends it on; the client takes it, and goes on to
show it although the server never showed it while the client was there, and does not now. -/
theorem late_answer_violated :
    ∃ (pre post : List (Step Nat Nat)), (∀ x ∈ post, asksOnly x = true)
      ∧ ∃ c, (run sample start (pre ++ .join :: post)).clients[(run sample start pre).clients.length]? = some c
        ∧ c.registered = true ∧ c.inbox = [] ∧ shows c.stores 0 7 = some (.value 1)
        ∧ ∀ k, shows (run sample start (Spec.afterJoin pre post k)).server 0 7 = some (.value 2) := by
  refine ⟨[.produce 0 (.downCreate 7 (.value 2))], [.produce 0 (.downRead 7 (.value 1)), .deliver 0],
    by decide, _, rfl, rfl, rfl, by decide, ?_⟩
  intro k
  match k with
  | 0 => decide
  | 1 => decide
  | k + 2 => 
    have : Spec.afterJoin [.produce 0 (.downCreate 7 (.value 2))]
        [.produce 0 (.downRead 7 (.value 1)), Step.deliver 0] (k + 2)
        = ([.produce 0 (.downCreate 7 (.value 2)), .join, .produce 0 (.downRead 7 (.value 1)), .deliver 0]
            : List (Step Nat Nat)) := by simp [Spec.afterJoin]
    rw [this]; decide

/-- The violation is not vacuous: the server has a value, the client asks for it in every way there
is, everything is delivered, and the client shows nothing. -/
example : let s := run sample start (.join :: sampleFirst ++ .join ::
      [.look 1 0 7, .act 1 0 (.upRead 7), .serve 1, .deliver 1, .look 1 0 7])
    shows s.server 0 7 = some (.value 1)
    ∧ (s.clients.map fun c => (shows c.stores 0 7, c.registered, c.inbox.length, c.outbox.length)) =
        [(some (.value 1), true, 0, 0), (none, true, 0, 0)] := by decide

end Nbdl.Replica
