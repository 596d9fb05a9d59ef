import Verif.Replica.Props
/-!
# Exactly where a client shows what the server shows
-/
namespace Nbdl.Replica
open MapStore (Msg Map Payload View)
open Spec
variable {P V : Type} [DecidableEq P]

/-- What those who joined are told of a path by one step, other than a create, update or delete: the answer to a
read, or the value `w0` that the server shows when somebody there asks to read it. -/
def Spec.tells (t : Nat) (p : P) (w0 : Payload V) : Step P V → Option (Payload V)
  | .produce t' (.downRead p' w) => if t' = t ∧ p' = p then some w else none
  | .produce t' (.upRead p') => if t' = t ∧ p' = p then some w0 else none
  | _ => none

/-- The first thing they are told. -/
def Spec.told (t : Nat) (p : P) (w0 : Payload V) (h : List (Step P V)) : Option (Payload V) :=
  h.findSome? (Spec.tells t p w0)

theorem told_append (t : Nat) (p : P) (w0 : Payload V) (a b : List (Step P V)) :
    told t p w0 (a ++ b) = (told t p w0 a).or (told t p w0 b) := by
  unfold Spec.told
  rw [List.findSome?_append]

theorem told_quiet (t : Nat) (p : P) (w0 : Payload V) (x : Step P V) (h : isProduce x = false) :
    told t p w0 [x] = none := by
  cases x <;> first | rfl | simp [isProduce] at h

theorem told_core (u : Setup P V) (hu : Legal u) (pre post : List (Step P V))
    (hask : ∀ x ∈ post, asksOnly x = true) (t : Nat) (p : P) (n : Nat) (hn : n ≤ post.length) :
    ∃ c, (run u start (Spec.afterJoin pre post n)).clients[(run u start pre).clients.length]? = some c
      ∧ (c.registered = true →
          (shows (run u start pre).server t p = none →
            c.inbox.foldl (effect t p) (shows c.stores t p)
              = shows (run u start (Spec.afterJoin pre post n)).server t p)
          ∧ ∀ w0, shows (run u start pre).server t p = some w0 → (∀ x ∈ post.take n, ¬ settles t p x) →
            shows (run u start (Spec.afterJoin pre post n)).server t p = some w0
            ∧ c.inbox.foldl (effect t p) (shows c.stores t p) = told t p w0 (post.take n)) := by
  induction n with
  | zero =>
    have e : run u start (Spec.afterJoin pre post 0) = step u (run u start pre) .join := by
      unfold Spec.afterJoin; rw [run_append]; rfl
    refine ⟨⟨fresh, [], [], true⟩, ?_, ?_⟩
    · rw [e]; simp [step]
    · intro _
      rw [e]
      refine ⟨fun h => ?_, fun w0 h _ => ⟨?_, rfl⟩⟩
      · simp only [step]; rw [h]; rfl
      · simp only [step]; exact h
  | succ n ih =>
    obtain ⟨c, hc, hset⟩ := ih (by omega)
    have hlt : n < post.length := hn
    have hrun := run_succ u pre post n hlt
    have htidy : Tidy (run u start (Spec.afterJoin pre post n)) := tidy_run u hu _ tidy_start _
    obtain ⟨c', hc', hseen⟩ := seen_step u hu _ htidy _ c hc post[n] (hask _ (List.getElem_mem hlt))
    rw [← hrun] at hc' hseen
    refine ⟨c', hc', ?_⟩
    intro hreg
    have htake := List.take_succ_eq_append_getElem hlt
    have hpast : (∀ x ∈ post.take (n + 1), ¬ settles t p x) → ∀ x ∈ post.take n, ¬ settles t p x := by
      intro h x hx
      exact h x (by rw [htake]; exact List.mem_append_left _ hx)
    cases hseen with
    | quiet hs hcs hi hr hp =>
      obtain ⟨h1, h2⟩ := hset (hr hreg)
      refine ⟨fun h => by rw [hi, hcs, hs]; exact h1 h, fun w0 h hns => ?_⟩
      obtain ⟨h3, h4⟩ := h2 w0 h (hpast hns)
      rw [hi, hcs, hs, htake, told_append, told_quiet _ _ _ _ hp, Option.or_none]
      exact ⟨h3, h4⟩
    | delivered w hw hs hcs hr hp =>
      obtain ⟨h1, h2⟩ := hset (hr ▸ hreg)
      rw [hw] at h1 h2
      refine ⟨fun h => by rw [hcs, hs]; exact h1 h, fun w0 h hns => ?_⟩
      obtain ⟨h3, h4⟩ := h2 w0 h (hpast hns)
      rw [hcs, hs, htake, told_append, told_quiet _ _ _ _ hp, Option.or_none]
      exact ⟨h3, h4⟩
    | pushed t' m hp hs hcs hi hr =>
      rw [hr] at hreg
      rw [if_pos hreg] at hi
      obtain ⟨h1, h2⟩ := hset hreg
      refine ⟨fun h => ?_, fun w0 h hns => ?_⟩
      · rw [hi, hcs, hs, List.foldl_append]
        have := rel_push (late := False) (run u start (Spec.afterJoin pre post n)).server t' m t p _
          (Or.inl (h1 h)) (fun h => h.elim)
        rcases this with h | h
        · exact h
        · exact h.1.elim
      · obtain ⟨h3, h4⟩ := h2 w0 h (hpast hns)
        have hlast : ¬ settles t p post[n] := hns _ (by rw [htake]; exact List.mem_append_right _ (List.mem_singleton.2 rfl))
        rw [hi, hcs, hs, List.foldl_append, h3, h4, htake, told_append]
        rcases hp with hp | ⟨hp, ha⟩
        · rw [hp] at hlast ⊢
          by_cases he : t' = t ∧ m.path = p
          · obtain ⟨rfl, rfl⟩ := he
            cases m with
            | downCreate q w => exact absurd ⟨rfl, rfl⟩ hlast
            | downUpdate q w => exact absurd ⟨rfl, rfl⟩ hlast
            | downDelete q => exact absurd ⟨rfl, rfl⟩ hlast
            | upCreate q w => simp [sends, effect, Msg.isUpRead, Msg.isUpstream, told, tells]
            | upUpdate q w => simp [sends, effect, Msg.isUpRead, Msg.isUpstream, told, tells]
            | upDelete q => simp [sends, effect, Msg.isUpRead, Msg.isUpstream, told, tells]
            | upRead q =>
              simp only [Msg.path] at h3 h4 ⊢
              refine ⟨by simp [effect], ?_⟩
              simp only [sends, Msg.isUpRead, if_true, Msg.path, h3, List.foldl_cons, List.foldl_nil]
              cases hz : told t' q w0 (post.take n) <;> simp [effect, told, tells, Msg.path]
            | downRead q w =>
              simp only [Msg.path] at h3 h4 ⊢
              refine ⟨by simp [effect], ?_⟩
              simp only [sends, Msg.isUpRead, Msg.isUpstream, Bool.false_eq_true, if_false, List.foldl_cons,
                List.foldl_nil]
              cases hz : told t' q w0 (post.take n) <;> simp [effect, told, tells, Msg.path]
          · have e1 : ∀ (x : Option (Payload V)) (m' : Msg P V), m'.path = m.path → effect t p x (t', m') = x := by
              intro x m' hm
              unfold effect
              rw [if_neg]
              intro h'
              exact he ⟨h'.1, hm ▸ h'.2⟩
            have e2 : told t p w0 [.produce t' m] = none := by
              cases m <;> simp_all [told, tells, Msg.path]
            rw [e1 _ m rfl, e2, Option.or_none]
            refine ⟨rfl, ?_⟩
            unfold sends
            split
            · split
              · rw [List.foldl_cons, List.foldl_nil, e1 _ (.downRead m.path _) rfl]
              · rfl
            · split
              · rfl
              · rw [List.foldl_cons, List.foldl_nil, e1 _ _ rfl]
        · rw [told_quiet _ _ _ _ hp, Option.or_none]
          have hup : m.isUpstream = true := by
            unfold isAsk at ha; simp at ha; exact ha.1
          have hnr : m.isUpRead = false := by
            unfold isAsk at ha; simp at ha; exact ha.2
          rw [effect_upstream _ _ _ _ hup]
          simp [sends, hup, hnr]

/-- C105, exactly: a client that is connected and has read what was sent to it shows at a path what the server shows
just when the server showed nothing there when the client joined, or something has been created, updated or deleted
there since, or the first thing told of it since is what the server shows. -/
theorem agrees_exact (u : Setup P V) (hu : Legal u) (pre post : List (Step P V))
    (hask : ∀ x ∈ post, asksOnly x = true) (t : Nat) (p : P) :
    ∃ c, (run u start (pre ++ .join :: post)).clients[(run u start pre).clients.length]? = some c
      ∧ (c.registered = true → c.inbox = [] →
          (shows c.stores t p = shows (run u start (pre ++ .join :: post)).server t p
            ↔ shows (run u start pre).server t p = none ∨ (∃ x ∈ post, settles t p x)
              ∨ ∃ w0, shows (run u start pre).server t p = some w0 ∧ told t p w0 post = some w0)) := by
  obtain ⟨c, hc, h⟩ := told_core u hu pre post hask t p post.length (Nat.le_refl _)
  have e : Spec.afterJoin pre post post.length = pre ++ .join :: post := by simp [Spec.afterJoin]
  rw [e, List.take_length] at h
  rw [e] at hc
  refine ⟨c, hc, fun hr hi => ?_⟩
  obtain ⟨h1, h2⟩ := h hr
  rw [hi] at h1 h2
  simp only [List.foldl_nil] at h1 h2
  by_cases hs : ∃ x ∈ post, settles t p x
  · obtain ⟨c', hc', h3⟩ := settled_paths_agree u hu pre post hask t p hs
    rw [hc] at hc'
    cases hc'
    exact ⟨fun _ => Or.inr (Or.inl hs), fun _ => h3 hr hi⟩
  · cases h0 : shows (run u start pre).server t p with
    | none => exact ⟨fun _ => Or.inl rfl, fun _ => h1 h0⟩
    | some w0 =>
      obtain ⟨h3, h4⟩ := h2 w0 h0 (fun x hx hx' => hs ⟨x, hx, hx'⟩)
      rw [h3, h4]
      constructor
      · intro he
        exact Or.inr (Or.inr ⟨w0, rfl, he⟩)
      · rintro (h | h | ⟨w, hw, he⟩)
        · cases h
        · exact absurd h hs
        · cases hw; exact he

/-- A value that was there before is shown once somebody at the server has asked to read it, and not before. -/
example :
    let pre : List (Step Nat Nat) := .join :: sampleFirst
    shows (run sample start pre).server 0 7 = some (.value 1)
    ∧ told 0 7 (.value 1) ([.produce 0 (.upRead 7), .deliver 1] : List (Step Nat Nat)) = some (.value 1)
    ∧ ((run sample start (pre ++ .join :: [.produce 0 (.upRead 7), .deliver 1])).clients.map
        fun c => shows c.stores 0 7) = [some (.value 1), some (.value 1)]
    ∧ told 0 7 (.value 1) ([.look 1 0 7, .deliver 1] : List (Step Nat Nat)) = none := by decide

end Nbdl.Replica
