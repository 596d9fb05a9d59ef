import Verif.WsApi.Props
/-! # Exactly when a destroyed endpoint is used -/
namespace Nbdl.WsApi
open Spec

variable {J : Type}

namespace Spec

/-- What the browser does of its own accord. -/
def ofBrowser : Act J → Prop
  | .opened | .message _ | .closed _ => True
  | _ => False

/-- In the state `r` of the connection the browser tells its listeners of the event. -/
def Told (r : Ready) : Act J → Prop
  | .opened => r = .connecting
  | .message _ => r = .open
  | .closed _ => r ≠ .closed
  | _ => False

/-- Nobody calls the endpoint after destroying it. -/
def Proper (as : List (Act J)) : Prop := ∀ p q, as = p ++ .destroy :: q → ∀ a ∈ q, ofBrowser a

/-- The browser tells of something after the endpoint was destroyed. -/
def Late (r : Ready) (as : List (Act J)) : Prop :=
  ∃ p q e rest, as = p ++ .destroy :: q ++ e :: rest ∧ Told (after r (p ++ .destroy :: q)) e

end Spec

/-- The browser tells of something at all. -/
private def hit (r : Ready) (as : List (Act J)) : Prop :=
  ∃ q e rest, as = q ++ e :: rest ∧ Told (after r q) e

private theorem hit_cons (r : Ready) (a : Act J) (as : List (Act J)) :
    hit r (a :: as) ↔ Told r a ∨ hit (after r [a]) as := by
  constructor
  · rintro ⟨q, e, rest, h, ht⟩
    cases q with
    | nil => cases h; exact .inl ht
    | cons x q =>
      cases h
      exact .inr ⟨q, e, rest, rfl, by simpa only [after] using ht⟩
  · rintro (h | ⟨q, e, rest, rfl, ht⟩)
    · exact ⟨[], a, as, rfl, h⟩
    · exact ⟨a :: q, e, rest, rfl, by simpa only [after] using ht⟩

private theorem late_cons (r : Ready) (a : Act J) (as : List (Act J)) :
    Late r (a :: as) ↔ (a = .destroy ∧ hit r as) ∨ Late (after r [a]) as := by
  have hr : after r [(.destroy : Act J)] = r := by cases r <;> rfl
  constructor
  · rintro ⟨p, q, e, rest, h, ht⟩
    cases p with
    | nil =>
      cases h
      refine .inl ⟨rfl, q, e, rest, rfl, ?_⟩
      have := after_append r [(.destroy : Act J)] q
      rw [hr] at this
      exact this ▸ ht
    | cons x p =>
      cases h
      exact .inr ⟨p, q, e, rest, rfl, by simpa only [after, List.cons_append] using ht⟩
  · rintro (⟨rfl, q, e, rest, rfl, ht⟩ | ⟨p, q, e, rest, rfl, ht⟩)
    · refine ⟨[], q, e, rest, rfl, ?_⟩
      have := after_append r [(.destroy : Act J)] q
      rw [hr] at this
      exact this ▸ ht
    · exact ⟨a :: p, q, e, rest, rfl, by simpa only [after, List.cons_append] using ht⟩

private theorem run_dead (js : Json J) (h as : List (Act J)) (hb : ∀ a ∈ as, ofBrowser a) :
    (hit (after .connecting h) as → run js ⟨after .connecting h, false⟩ as = .ub) ∧
    (¬ hit (after .connecting h) as →
      run js ⟨after .connecting h, false⟩ as = .ok (seen js h as)) := by
  induction as generalizing h with
  | nil => exact ⟨fun h => by obtain ⟨q, _, _, e, _⟩ := h; (cases q <;> cases e), fun _ => rfl⟩
  | cons a as ih =>
    obtain ⟨i1, i2⟩ := ih (h ++ [a]) fun x hx => hb x (by simp [hx])
    rw [after_append] at i1 i2
    rw [hit_cons]
    have ha := hb a (by simp)
    have key : (Told (after .connecting h) a ∧
        step js ⟨after .connecting h, false⟩ a = .ub) ∨
        (¬ Told (after .connecting h) a ∧ step js ⟨after .connecting h, false⟩ a =
          .ok (⟨after (after .connecting h) [a], false⟩, shown js h a)) := by
      generalize hr : after .connecting h = r
      simp only [shown, hr]
      cases a <;> cases r <;> simp_all [ofBrowser, Told, step, after]
    rcases key with ⟨k, e⟩ | ⟨k, e⟩
    · exact ⟨fun _ => by rw [run, e]; rfl, fun hn => absurd (.inl k) hn⟩
    · rw [run, e]
      simp only [Cpp.bind, seen]
      constructor
      · rintro (x | x)
        · exact absurd x k
        · rw [i1 x]; rfl
      · intro x
        rw [i2 fun y => x (.inr y)]; rfl

private theorem run_alive (js : Json J) (h as : List (Act J)) (hp : Proper as) :
    (Late (after .connecting h) as → run js ⟨after .connecting h, true⟩ as = .ub) ∧
    (¬ Late (after .connecting h) as →
      run js ⟨after .connecting h, true⟩ as = .ok (seen js h as)) := by
  induction as generalizing h with
  | nil => exact ⟨fun h => by obtain ⟨p, _, _, _, e, _⟩ := h; (cases p <;> cases e), fun _ => rfl⟩
  | cons a as ih =>
    obtain ⟨i1, i2⟩ := ih (h ++ [a]) fun p q e => hp (a :: p) q (by rw [e]; rfl)
    rw [after_append] at i1 i2
    rw [late_cons]
    by_cases hd : a = .destroy
    · subst hd
      have hb : ∀ a ∈ as, ofBrowser a := hp [] as rfl
      have hr : after (after .connecting h) [(.destroy : Act J)] = after .connecting h := by
        generalize after .connecting h = r
        cases r <;> rfl
      have hno : ¬ Late (after .connecting h) as := by
        rintro ⟨p, q, e, rest, x, _⟩
        exact hb .destroy (by rw [x]; simp)
      obtain ⟨d1, d2⟩ := run_dead js (h ++ [.destroy]) as hb
      rw [after_append, hr] at d1 d2
      have e : step js ⟨after .connecting h, true⟩ (.destroy : Act J) =
          .ok (⟨after .connecting h, false⟩, []) := rfl
      have es : shown js h (.destroy : Act J) = [] := by
        generalize hq : after .connecting h = r
        simp only [shown, hq]
      rw [run, e, hr]
      simp only [Cpp.bind, seen, es]
      constructor
      · rintro (⟨-, x⟩ | x)
        · rw [d1 x]; rfl
        · exact absurd x hno
      · intro x
        rw [d2 fun y => x (.inl ⟨trivial, y⟩)]; rfl
    · have key : step js ⟨after .connecting h, true⟩ a =
          .ok (⟨after (after .connecting h) [a], true⟩, shown js h a) := by
        generalize hr : after .connecting h = r
        simp only [shown, hr]
        cases a with
        | message d =>
          cases r <;> simp_all [step, after] <;> cases d <;> simp [convertJson]
          rename_i t
          cases js.parse t <;> simp
        | destroy => exact absurd rfl hd
        | _ => cases r <;> simp_all [step, after]
      rw [run, key]
      simp only [Cpp.bind, seen]
      constructor
      · rintro (⟨x, -⟩ | x)
        · exact absurd x hd
        · rw [i1 x]; rfl
      · intro x
        rw [i2 fun y => x (.inr y)]; rfl

/-- **C92, exactly.** In every history in which nobody calls the endpoint after destroying it: the
program uses the destroyed endpoint exactly if the browser tells of something after it was destroyed,
that is, of the opening, of a message, or of the closing; and if not, all that happens is reported as
it should be. -/
theorem reported_exact (js : Json J) (as : List (Act J)) (hp : Proper as) :
    (run js St.init as = .ub ↔ Late .connecting as) ∧
    (¬ Late .connecting as → run js St.init as = .ok (seen js [] as)) := by
  obtain ⟨h1, h2⟩ := run_alive js [] as hp
  refine ⟨⟨fun h => ?_, h1⟩, h2⟩
  apply Classical.byContradiction
  intro hn
  have := (h2 hn).symm.trans h
  cases this

/-- The endpoint is destroyed while closing; the browser tells of the closing. -/
example : Late .connecting ([.opened, .close, .destroy, .message (.text []), .closed 1000] : List (Act Nat)) :=
  ⟨[.opened, .close], [.message (.text [])], .closed 1000, [], rfl, by simp [Told, after]⟩

example : Proper ([.opened, .close, .destroy, .message (.text []), .closed 1000] : List (Act Nat)) := by
  intro p q h
  rcases p with _ | ⟨a, p⟩
  · cases h
  rcases p with _ | ⟨b, p⟩
  · cases h
  rcases p with _ | ⟨c, p⟩
  · cases h; simp [ofBrowser]
  rcases p with _ | ⟨d, p⟩
  · cases h
  rcases p with _ | ⟨e, p⟩
  · cases h
  · cases p <;> cases h

/-- Destroyed while closing, with messages still arriving, and then never closed: nothing is used. -/
example (js : Json Nat) : run js St.init [.opened, .close, .destroy, .message (.text [])]
    = .ok [.onReady] := rfl

end Nbdl.WsApi
