import Verif.Session.FarewellProps
import Verif.Link.FarewellExact
/-! C144: exactly when the program ends as the project's test expects. -/
namespace Nbdl.Session
open Nbdl.Link (Net Plan Msg handedTo Crossed)
open Nbdl.Endpoint (Note)

/-- C144, exactly: when nothing is left to do, a user was told what the test expects if and only if the other's messages
were all written before its close frame, and the close frames did not cross on the user's side. -/
theorem program_exact (k : Conf) (hk : Polite k) (p : Plan) (hp : p.Proper) (ys : List (Bool × Happen)) (st : St)
    (e : program k p {} ys = .ok st) (hr : AtRest k st) (w : Bool) :
    AsExpected k p st w ↔
      Endpoint.Spec.written ((st.me (!w)).side.seen k.link) = p.messages (!w) ∧ ¬ Crossed k.link (st.me w).side := by
  obtain ⟨t1, t2, -⟩ := program_partial k hk p hp ys st e hr
  obtain ⟨st', e', h⟩ := program_sim hk p ys {} (sim_start k hk p)
  rw [e] at e'
  cases e'
  have hq := rest_ready hk h hr
  obtain ⟨zs, hz⟩ := h.run
  have hres := Link.farewell_exact k.link hk.op p hp zs (net st) hz
    (fun w => by rw [Link.Ready, net_me]; exact h.started w (hq w)) (rest_settled hk h hr) w
  simp only [net_me, Link.AsExpected] at hres
  rw [AsExpected, ← hres]
  refine and_iff_right ?_
  cases w
  · exact t1
  · exact t2

/-- C144, exactly: and the pipeline of a user was released, and not used after that, if and only if the close frames did
not cross on the user's side. -/
theorem program_released_exact (k : Conf) (hk : Polite k) (p : Plan) (hp : p.Proper) (ys : List (Bool × Happen))
    (st : St) (e : program k p {} ys = .ok st) (hr : AtRest k st) (w : Bool) :
    pipeline false (Link.notes ((st.me w).side.seen k.link)) = .ok true ↔ ¬ Crossed k.link (st.me w).side := by
  rw [program_released_partial k hk p hp ys st e hr w]
  obtain ⟨st', e', h⟩ := program_sim hk p ys {} (sim_start k hk p)
  rw [e] at e'
  cases e'
  have hq := rest_ready hk h hr
  obtain ⟨zs, hz⟩ := h.run
  have hres := Link.farewell_once_exact k.link hk.op p hp zs (net st) hz
    (fun w => by rw [Link.Ready, net_me]; exact h.started w (hq w)) (rest_settled hk h hr) w
  simp only [net_me] at hres
  exact hres

/-- There is a schedule in which the frames cross. -/
example : ∃ ys st, program sample Link.plan {} ys = .ok st ∧ AtRest sample st ∧ Polite sample ∧ Link.plan.Proper
    ∧ Crossed sample.link (st.me true).side := by
  obtain ⟨ys, st, e, hr, hk, hp, -, hu, -⟩ := program_twice_violated
  refine ⟨ys, st, e, hr, hk, hp, Classical.byContradiction fun hx => ?_⟩
  have := (program_released_exact sample hk Link.plan hp ys st e hr true).2 hx
  rw [show (st.me true).side = st.client.side from rfl, hu] at this
  cases this

end Nbdl.Session
