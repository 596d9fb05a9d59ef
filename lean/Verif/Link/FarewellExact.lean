import Verif.Link.FarewellProps
import Verif.Endpoint.CloseExact
/-! C136: exactly when a user who takes their leave is told what the project's test expects. -/
namespace Nbdl.Link
open Nbdl.Endpoint (St In Obs Frame Err Note)
open Nbdl.Endpoint.Spec (Before closeNotes)
open Nbdl.Ws (opText opBinary)

theorem count_notes : ∀ t : List (Obs Msg), (notes t).count .close = closeNotes t
  | [] => rfl
  | o :: t => by
    have ih := count_notes t
    unfold closeNotes at ih ⊢
    cases o with
    | note k =>
      rw [notes, List.count_cons, List.count_cons, ih]
      cases k <;> simp
    | _ => rw [notes, ih] <;> simp

/-- The user asked for the close, read the close of the other, and only then its own was written. -/
def Crossed (c : Conf) (s : Side) : Prop :=
  Before .closeRequested (.received .readClose) (s.seen c) ∧ Before (.received .readClose) (.wrote .close) (s.seen c)

/-- C136, exactly: when nothing is left to do, a user was told of the close once, and not twice, if and only if the two
close frames did not cross on the user's side. -/
theorem farewell_once_exact (c : Conf) (hop : c.op = opText ∨ c.op = opBinary) (p : Plan) (hp : p.Proper)
    (ys : List (Bool × Ev)) (n : Net) (h : farewell c p {} ys = .ok n) (hr : ∀ w, Ready (n.me w))
    (hset : Settled c n) (w : Bool) :
    (notes ((n.me w).seen c)).count .close = 1 ↔ ¬ Crossed c (n.me w) := by
  obtain ⟨⟨k, hk, e⟩, -⟩ := (farewell_partial c hop p hp ys n h hr hset).1 w
  have hcn : closeNotes ((n.me w).seen c) = k := by
    rw [← count_notes, e, List.count_append, List.count_replicate_self, List.count_eq_zero.2 (by simp)]
    omega
  obtain ⟨n', e', hc⟩ := farewell_course hop p ys {} (course_start c p)
  rw [h] at e'
  cases e'
  have hstop : In.stop ∉ (n.me w).ins := by
    obtain ⟨is, js, -, -, hst⟩ := (hc.mind w).used (hr w)
    exact hst
  have two := (Endpoint.close_told_exact c.conv (n.me w).ins (hc.pair hop w).2 hstop).1
  rw [show Endpoint.trace c.conv (n.me w).ins = (n.me w).seen c from rfl, hcn] at two
  rw [count_notes, hcn]
  unfold Crossed
  rw [← two]
  omega

/-- C136, exactly: when nothing is left to do, a user was told all the messages of the other and then once of the close if
and only if the other's messages were all written before its close frame, and the two close frames did not cross on the
user's side: it did not ask for the close, then read that of the other, and have its own written after that. -/
theorem farewell_exact (c : Conf) (hop : c.op = opText ∨ c.op = opBinary) (p : Plan) (hp : p.Proper)
    (ys : List (Bool × Ev)) (n : Net) (h : farewell c p {} ys = .ok n) (hr : ∀ w, Ready (n.me w))
    (hset : Settled c n) (w : Bool) :
    AsExpected c p n w ↔ Endpoint.Spec.written ((n.me (!w)).seen c) = p.messages (!w) ∧ ¬ Crossed c (n.me w) := by
  obtain ⟨⟨k, hk, e⟩, -, hw, -⟩ := (farewell_partial c hop p hp ys n h hr hset).1 w
  have hcr := farewell_once_exact c hop p hp ys n h hr hset w
  rw [e, List.count_append, List.count_replicate_self, List.count_eq_zero.2 (by simp), Nat.zero_add] at hcr
  rw [AsExpected, e, hw, ← hcr]
  constructor
  · intro he
    have len := congrArg (List.count Note.close) he
    rw [List.count_append, List.count_append, List.count_replicate_self, List.count_eq_zero.2 (by simp),
      List.count_eq_zero.2 (by simp)] at len
    have k1 : k = 1 := by simpa using len
    refine ⟨?_, k1⟩
    subst k1
    have := List.append_cancel_right (bs := [Note.close]) he
    exact List.map_inj_right (f := Note.message) (fun a b h => by cases h; rfl) |>.1 this
  · rintro ⟨h1, rfl⟩
    rw [h1]
    rfl

/-- In the schedule of `farewell_lost_violated` not everything was written; the other one meets the conditions, too. -/
example : ∃ ys n, farewell cf plan {} ys = .ok n ∧ (∀ w, Ready (n.me w)) ∧ Settled cf n ∧ plan.Proper
    ∧ ¬ (Endpoint.Spec.written ((n.me true).seen cf) = plan.messages true ∧ ¬ Crossed cf (n.me false)) := by
  obtain ⟨ys, n, h, hr, hs, hp, -, -, -, hx⟩ := farewell_lost_violated
  exact ⟨ys, n, h, hr, hs, hp, fun k => hx ((farewell_exact cf (by decide) plan hp ys n h hr hs false).2 k)⟩

end Nbdl.Link
