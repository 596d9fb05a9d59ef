import Verif.JsPromise.Props
/-!
# When a JavaScript promise settles its pipeline once (C97)
-/
namespace Nbdl.JsPromise

/-- How often the callbacks of a run are called. -/
def callsOf {V} (i : Nat) (os : List (Op V)) : Nat := (calls os).countP fun c => c.1 == i

/-- C97: no run is settled twice exactly if the JavaScript code calls at most one callback of each run,
and at most once: nothing is done against a second call, also of the same callback. -/
theorem settles_once_exact {V} (os : List (Op V)) (h : Given 0 os) :
    ∃ s, run os init = .ok s ∧ (SettlesOnce s.delivered ↔ ∀ i, callsOf i os ≤ 1) := by
  obtain ⟨s, hs, hd⟩ := delivered_partial os h
  refine ⟨s, hs, ?_⟩
  rw [hd, SettlesOnce, List.nodup_iff_count]
  constructor
  · intro hc i
    have := hc i
    rwa [List.count, List.countP_map] at this
  · intro hc i
    have := hc i
    rw [List.count, List.countP_map]
    exact this

/-- C97: what is delivered to the pipeline of one run are the calls of its own callbacks, as often as
they are called and in their order; nothing that the code of other runs calls changes it. -/
theorem own_calls_exact {V} (os : List (Op V)) (h : Given 0 os) (i : Nat) :
    ∃ s, run os init = .ok s
      ∧ s.delivered.filter (fun d => d.1 == i) = (calls os).filter (fun c => c.1 == i)
      ∧ ((s.delivered.filter fun d => d.1 == i).length = callsOf i os) := by
  obtain ⟨s, hs, hd⟩ := delivered_partial os h
  exact ⟨s, hs, by rw [hd], by rw [hd, callsOf, List.countP_eq_length_filter]⟩

/-- Two runs, the second is settled first. -/
example : ∃ os : List (Op Nat), Given 0 os ∧ callsOf 0 os = 1 ∧ callsOf 1 os = 1 ∧ callsOf 2 os = 0 :=
  ⟨[.start, .start, .reject 1 5, .resolve 0 6], by simp [Given], by decide, by decide, by decide⟩
/-- The same callback twice. -/
example : ∃ os : List (Op Nat), Given 0 os ∧ callsOf 0 os = 2 :=
  ⟨[.start, .resolve 0 5, .resolve 0 6], by simp [Given], by decide⟩

end Nbdl.JsPromise
