import Verif.App.Props
import Verif.Replica.Exact
/-!
# Exactly where a client that is connected by JSON shows what the server shows
-/
namespace Nbdl.App
open Nbdl.Bind (Ty Tys Json)
open MapStore (Msg Map Payload)
open Replica (Wire Stores Setup Step fresh)
open Replica.Spec (shows Legal asksOnly settles asked afterJoin told)
open Spec
variable {P V : Type} [DecidableEq P]

/-- C113, partial, with the exact condition of C105: a client that is connected by JSON and has read what was sent
to it shows at a path what the server shows just when the server showed nothing there when the client joined, or
something has been created, updated or deleted there since, or the first thing told of it since is what the server
shows.  (Missing: messages that do not fit the connections.) -/
theorem json_agrees_partial (a : App P V) (k : Allowed P V) (h : Fits a k) (hu : Legal a.setup)
    (pre post : List (Step P V)) (hk : ∀ x ∈ pre ++ .join :: post, k.step x)
    (hask : ∀ x ∈ post, asksOnly x = true) (t : Nat) (p : P) :
    ∃ c, (run a start (pre ++ .join :: post)).clients[(run a start pre).clients.length]? = some c
      ∧ (c.registered = true → c.inbox = [] →
          (shows c.stores t p = shows (run a start (pre ++ .join :: post)).server t p
            ↔ shows (run a start pre).server t p = none ∨ (∃ x ∈ post, settles t p x)
              ∨ ∃ w0, shows (run a start pre).server t p = some w0 ∧ told t p w0 post = some w0)) := by
  rw [run_eq h hu pre fun x hx => hk x (by simp [hx]), run_eq h hu (pre ++ .join :: post) hk, length_emb]
  obtain ⟨c, hc, h5⟩ := Replica.agrees_exact a.setup hu pre post hask t p
  exact ⟨embC a c, by simp [emb, hc], fun hr hi => h5 hr (by simpa [embC] using hi)⟩

end Nbdl.App
