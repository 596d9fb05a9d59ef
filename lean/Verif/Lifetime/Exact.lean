import Verif.Lifetime.Props
/-!
# When an endpoint is used after it was destroyed (C127)
-/
namespace Nbdl.Lifetime
open Endpoint (In Frame Err Note Obs)
open Spec
variable {α : Type}

/-- Something that makes a destroyed endpoint be used: the end of a handshake that was under way, or the
end of a write that was. -/
def touches (s : St α) : Event α → Bool
  | .user _ => false
  | .shaken _ => s.shaking
  | .net i _ => completes i && s.ep.inflight.isSome

theorem step_destroyed (conv : Bool) (s : St α) (hg : s.gone = true) (e : Event α) :
    step conv s e = if touches s e then { s with bad := true } else s := by
  cases e with
  | user a => simp [step, touches, hg]
  | shaken calls => cases h : s.shaking <;> simp [step, touches, hg, h]
  | net i calls =>
    cases i <;> cases h : s.ep.inflight <;> simp [step, touches, hg, h, fromNet, completes]

theorem run_destroyed (conv : Bool) : ∀ (es : List (Event α)) (s : St α), s.gone = true →
    (run conv s es).bad = (s.bad || es.any (touches s))
  | [], s, _ => by simp [run]
  | e :: es, s, hg => by
    rw [run, step_destroyed conv s hg e]
    have ht : ∀ e', touches { s with bad := true } e' = touches s e' := fun e' => by cases e' <;> rfl
    split
    · rename_i h
      have e : (fun e' => touches { s with bad := true } e') = touches s := funext ht
      have := run_destroyed conv es { s with bad := true } hg
      rw [this]
      simp [h]
    · rename_i h
      rw [run_destroyed conv es _ hg, List.any_cons]
      simp [h]

theorem run_append (conv : Bool) : ∀ (es es' : List (Event α)) (s : St α),
    run conv s (es ++ es') = run conv (run conv s es) es'
  | [], es', s => rfl
  | e :: es, es', s => by rw [List.cons_append, run, run_append conv es es', run]

/-- C127: after the endpoint was destroyed it is used exactly if the handshake was under way and comes to
its end, or a close frame was being written and this write comes to its end.  Nothing else uses it. -/
theorem used_after_exact (conv : Bool) (es es' : List (Event α))
    (hg : (run conv ({} : St α) es).gone = true) (hb : (run conv ({} : St α) es).bad = false) :
    (run conv ({} : St α) (es ++ es')).bad = true ↔
      ((run conv ({} : St α) es).shaking = true ∧ ∃ calls, .shaken calls ∈ es')
      ∨ ((run conv ({} : St α) es).ep.inflight = some .close ∧ ∃ i calls, .net i calls ∈ es' ∧ completes i = true) := by
  rw [run_append, run_destroyed conv es' _ hg, hb, Bool.false_or, List.any_eq_true]
  have hd := ((destroyed_iff conv es).mp hg).2.2
  constructor
  · rintro ⟨e, he, ht⟩
    cases e with
    | user a => simp [touches] at ht
    | shaken calls => exact .inl ⟨ht, calls, he⟩
    | net i calls =>
      simp only [touches, Bool.and_eq_true] at ht
      refine .inr ⟨?_, i, calls, he, ht.1⟩
      obtain ⟨f, hf⟩ := Option.isSome_iff_exists.mp ht.2
      cases f with
      | close => exact hf
      | pong =>
        obtain ⟨is, hr⟩ := refines conv es ({} : St α)
        rw [hr] at hf
        exact absurd hf (Endpoint.inv_exec conv is {} [] Endpoint.inv_init).nopong
      | data m => exact absurd hf (hd m)
  · rintro (⟨hs, calls, hc⟩ | ⟨hi, i, calls, hc, hx⟩)
    · exact ⟨_, hc, hs⟩
    · exact ⟨_, hc, by simp [touches, hi, hx]⟩

/-- C127: an endpoint can be destroyed safely exactly if the handshake is over and no close frame is being
written: then nothing that may come uses it, and otherwise something that is due to come does. -/
theorem safe_exact (conv : Bool) (es : List (Event α))
    (hg : (run conv ({} : St α) es).gone = true) (hb : (run conv ({} : St α) es).bad = false) :
    (∀ es', (run conv ({} : St α) (es ++ es')).bad = false) ↔
      (run conv ({} : St α) es).shaking = false ∧ (run conv ({} : St α) es).ep.inflight ≠ some .close := by
  have hx := used_after_exact conv es
  constructor
  · intro h
    constructor
    · cases hs : (run conv ({} : St α) es).shaking with
      | false => rfl
      | true =>
        have := (hx [.shaken []] hg hb).mpr (.inl ⟨hs, [], by simp⟩)
        rw [h] at this; cases this
    · intro hi
      have := (hx [.net .wrote []] hg hb).mpr (.inr ⟨hi, .wrote, [], by simp, rfl⟩)
      rw [h] at this; cases this
  · rintro ⟨hs, hi⟩ es'
    cases h : (run conv ({} : St α) (es ++ es')).bad with
    | false => rfl
    | true =>
      rcases (hx es' hg hb).mp h with ⟨h1, -⟩ | ⟨h1, -⟩
      · rw [hs] at h1; cases h1
      · exact absurd h1 hi

/-- Destroyed after the handshake, with nothing under way; and with a close frame under way. -/
example : (run true ({} : St Nat) [.shaken [], .user .letGo]).gone = true
    ∧ (run true ({} : St Nat) [.shaken [], .user .letGo]).bad = false
    ∧ (run true ({} : St Nat) [.shaken [], .user .letGo]).shaking = false
    ∧ (run true ({} : St Nat) [.shaken [], .user .letGo]).ep.inflight ≠ some .close := by decide
example : (run true ({} : St Nat) [.shaken [.start], .user .close, .net .readClose [.letGo]]).gone = true
    ∧ (run true ({} : St Nat) [.shaken [.start], .user .close, .net .readClose [.letGo]]).bad = false
    ∧ (run true ({} : St Nat) [.shaken [.start], .user .close, .net .readClose [.letGo]]).ep.inflight
        = some .close := by decide

end Nbdl.Lifetime
