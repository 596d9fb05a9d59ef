import Verif.App.Model
import Verif.Replica.Spec
import Verif.JsBind.Spec
import Verif.Bind.Spec
/-!
Which messages survive the connection, and which histories consist of such.
-/
namespace Nbdl.App.Spec
open Nbdl.Bind (Ty Tys)
open MapStore (Msg Payload)
open Replica (Wire Step)
variable {P V : Type}

/-- Values that may be sent: paths by their type, and entities. -/
structure Allowed (P V : Type) where
  path : Nat → P → Prop
  value : V → Prop

/-- A payload that may be sent. -/
def Allowed.payload (k : Allowed P V) : Payload V → Prop
  | .value v => k.value v
  | .notFound => True

/-- A message that may be sent. -/
def Allowed.msg (k : Allowed P V) : Wire P V → Prop
  | (t, .upCreate p v) => k.path t p ∧ k.value v
  | (t, .upRead p) => k.path t p
  | (t, .upUpdate p v) => k.path t p ∧ k.value v
  | (t, .upDelete p) => k.path t p
  | (t, .downCreate p w) => k.path t p ∧ k.payload w
  | (t, .downRead p w) => k.path t p ∧ k.payload w
  | (t, .downUpdate p w) => k.path t p ∧ k.payload w
  | (t, .downDelete p) => k.path t p

/-- The programs apply only messages that may be sent. -/
def Allowed.step (k : Allowed P V) : Step P V → Prop
  | .produce t m => k.msg (t, m)
  | .act _ t m => k.msg (t, m)
  | _ => True

/-- The messages that may be sent have a type of their own or share it with messages that differ in
their parts, so that they can be told from each other; and what one side makes of them the other can
read: for browsers what C80 and C81 ask for, for other clients what C39 asks for. -/
structure Fits (a : App P V) (k : Allowed P V) : Prop where
  upstream : ∀ w, w.2.isUpstream = true → k.msg w → a.upstream.dec (a.upstream.enc w) = w
  downstream : ∀ w, w.2.isUpstream = false → k.msg w → a.downstream.dec (a.downstream.enc w) = w
  native : a.platform = .native →
    Bind.Spec.Wf (Deser.varTy a.upstream.sys a.upstream.msgs)
    ∧ Bind.Spec.Wf (Deser.varTy a.downstream.sys a.downstream.msgs)
    ∧ (∀ w, w.2.isUpstream = true → k.msg w →
        Bind.Spec.Kept (Deser.varTy a.upstream.sys a.upstream.msgs) (.inr (.inr (a.upstream.enc w))))
    ∧ (∀ w, w.2.isUpstream = false → k.msg w →
        Bind.Spec.Kept (Deser.varTy a.downstream.sys a.downstream.msgs) (.inr (.inr (a.downstream.enc w))))
  browser : ∀ e, a.platform = .browser e → JsBind.Spec.Sane e
    ∧ JsBind.Spec.Wf (Deser.varTy a.upstream.sys a.upstream.msgs)
    ∧ JsBind.Spec.Wf (Deser.varTy a.downstream.sys a.downstream.msgs)
    ∧ (∀ w, w.2.isUpstream = true → k.msg w →
        JsBind.Spec.Holds JsBind.Spec.texts (Deser.varTy a.upstream.sys a.upstream.msgs) (.inr (.inr (a.upstream.enc w)))
        ∧ JsBind.Spec.Holds JsBind.Spec.up (Deser.varTy a.upstream.sys a.upstream.msgs) (.inr (.inr (a.upstream.enc w))))
    ∧ (∀ w, w.2.isUpstream = false → k.msg w →
        JsBind.Spec.Holds JsBind.Spec.texts (Deser.varTy a.downstream.sys a.downstream.msgs) (.inr (.inr (a.downstream.enc w)))
        ∧ JsBind.Spec.Holds JsBind.Spec.down (Deser.varTy a.downstream.sys a.downstream.msgs) (.inr (.inr (a.downstream.enc w))))

/-- What the server's context tells its producers when these messages are applied one after the other:
the actor, and the message. -/
def tells [DecidableEq P] (a : App P V) : Replica.Stores P V → List (Wire P V) → List (Nat × Wire P V)
  | _, [] => []
  | st, (t, m) :: ws =>
    Context.sentUp (Context.push a.setup.server st t m).2 ++ tells a (Context.push a.setup.server st t m).1 ws

/-- What the server's context tells its producers while the server reads the documents of client `i`. -/
def forwarded [DecidableEq P] (a : App P V) (i : Nat) : Sys P V → List (Step P V) → List (Nat × Wire P V)
  | _, [] => []
  | s, x :: h =>
    (match x with
      | .serve j =>
        if j = i then
          match (s.clients[i]?.map (·.outbox)).getD [] with
          | d :: _ => tells a s.server (readNative a.upstream d)
          | [] => []
        else []
      | _ => []) ++ forwarded a i (step a s x) h

end Nbdl.App.Spec
