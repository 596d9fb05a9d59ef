import Verif.ClientJs.Spec
namespace Nbdl.ClientJs
open Spec

/-- The listeners of `init`. -/
abbrev L0 : List Lis := [⟨.opened, 0⟩, ⟨.error, 0⟩, ⟨.close, 0⟩]
/-- The listeners of one `read_message`. -/
abbrev LR (g : Nat) : List Lis := [⟨.error, g⟩, ⟨.close, g⟩, ⟨.message, g⟩]
/-- The variables of `init` after `close_out`. -/
abbrev quiet : Scope := ⟨true, none, none, none⟩

/-- Where the connection is. -/
inductive Phase | connecting | reading | busy | over
  deriving DecidableEq

/-- What is true in each phase. -/
def Good {J E} : Phase → W J E → Prop
  | .connecting, w => w.listeners = L0 ∧ w.scopes 0 = ⟨true, some w.ready, none, some w.error⟩ ∧
      w.alive = true ∧ w.pending = false ∧ 0 < w.nextScope
  | .reading, w => ∃ g, 0 < g ∧ g < w.nextScope ∧ w.listeners = L0 ++ LR g ∧ w.scopes 0 = quiet ∧
      w.scopes g = ⟨false, none, some w.message, some w.error⟩ ∧
      w.alive = true ∧ w.pending = false
  | .busy, w => w.listeners = L0 ∧ w.scopes 0 = quiet ∧ w.alive = true ∧ w.pending = true ∧
      0 < w.nextScope
  | .over, w => w.listeners = L0 ∧ w.scopes 0 = quiet ∧ w.alive = false ∧ w.pending = false ∧
      0 < w.nextScope

/-- The phase after something was delivered. -/
def after (r : React) : Phase :=
  match r with | .now => .reading | .later => .busy | .stop => .over

/-- The phases, and what is heard. -/
def next {D J E} (parse : D → Option J) (react : Nat → React) (p : Phase) (k : Nat) (i : In D E) :
    Phase × List (Out J E) :=
  match p, i with
  | .connecting, .opened e => (after (react k), [.ready e])
  | .connecting, .error e => (.over, [.err e])
  | .connecting, .close e => (.over, [.err e])
  | .reading, .message d =>
    match parse d with
    | some j => (after (react k), [.msg j])
    | none => (.reading, [])
  | .reading, .error e => (.over, [.err e])
  | .reading, .close e => (.over, [.err e])
  | .busy, .resume ok => (if ok then .reading else .over, [])
  | p, _ => (p, [])

theorem good_start {J E} : Good .connecting (start : W J E) := by
  simp [Good, start]

theorem step_good {D J E} (dom : Bool) (parse : D → Option J) (react : Nat → React) (p : Phase) (w : W J E)
    (i : In D E) (h : Good p w) :
    ∃ w', step dom parse react i w = .ok w' ∧ Good (next parse react p w.count i).1 w' ∧
      w'.log = w.log ++ (next parse react p w.count i).2 ∧
      w'.count = w.count + (next parse react p w.count i).2.length := by
  cases p with
  | connecting =>
    obtain ⟨h1, h2, h3, h4, h5⟩ := h
    have h6 : w.nextScope ≠ 0 := by omega
    have h7 : (0:Nat) ≠ w.nextScope := by omega
    cases i with
    | opened e =>
      cases hr : react w.count <;>
      simp [step, dispatch, h1, Event.kind, fireAll, fire, h2, call, h3, deliver, hr, Cpp.bind,
        closeOut, setScope, next, after, Good, arm, h6, h7, h4, h5]
      refine ⟨w.nextScope, ?_⟩
      simp [h6]; omega
    | error e =>
      simp [step, dispatch, h1, Event.kind, fireAll, fire, h2, call, h3, deliver, Cpp.bind,
        closeOut, setScope, next, after, Good, arm, h4, h5]
    | close e =>
      simp [step, dispatch, h1, Event.kind, fireAll, fire, h2, call, h3, deliver, Cpp.bind,
        closeOut, setScope, next, after, Good, arm, h4, h5]
    | message d =>
      simp [step, dispatch, h1, Event.kind, fireAll, next, Good, h2, h3, h4, h5]
    | resume ok => simp [step, next, Good, h1, h2, h3, h4, h5]
  | reading =>
    obtain ⟨g, hg, hlt, h1, h2, h5, h3, h4⟩ := h
    have hg0 : g ≠ 0 := by omega
    have hg0' : (0:Nat) ≠ g := by omega
    have hgn : g ≠ w.nextScope := by omega
    have hgn' : w.nextScope ≠ g := by omega
    have hn0 : (0:Nat) ≠ w.nextScope := by omega
    have hn0' : w.nextScope ≠ 0 := by omega
    have hn : 0 < w.nextScope := by omega
    cases i with
    | opened e =>
      simp [step, dispatch, h1, Event.kind, fireAll, fire, h2, call, Cpp.bind, closeOut, setScope,
        next]
      refine ⟨g, ?_⟩
      simp [*]
    | error e =>
      simp [step, dispatch, h1, Event.kind, fireAll, fire, h2, h5, call, h3, deliver, Cpp.bind,
        closeOut, cleanUp, setScope, next, Good, h4, hg0, hg0', hn, List.erase_cons]
    | close e =>
      simp [step, dispatch, h1, Event.kind, fireAll, fire, h2, h5, call, h3, deliver, Cpp.bind,
        closeOut, cleanUp, setScope, next, Good, h4, hg0, hg0', hn, List.erase_cons]
    | message d =>
      cases hp : parse d with
      | none =>
        simp [step, dispatch, h1, Event.kind, fireAll, fire, h5, hp, Cpp.bind, next]
        exact ⟨g, hg, hlt, h1, h2, h5, h3, h4⟩
      | some j =>
        cases hr : react w.count <;>
        simp [step, dispatch, h1, Event.kind, fireAll, fire, h2, h5, call, h3, deliver, hr, hp,
          Cpp.bind, cleanUp, setScope, next, Good, h4, hg0, hg0', hn, hn0, hn0', hgn, hgn', after,
          arm, List.erase_cons]
        refine ⟨w.nextScope, ?_⟩
        simp [*]
    | resume ok =>
      simp [step, next, h4]
      exact ⟨g, hg, hlt, h1, h2, h5, h3, h4⟩
  | busy =>
    obtain ⟨h1, h2, h3, h4, h5⟩ := h
    have hn0 : (0:Nat) ≠ w.nextScope := by omega
    have hn0' : w.nextScope ≠ 0 := by omega
    cases i with
    | opened e =>
      simp [step, dispatch, h1, Event.kind, fireAll, fire, h2, call, Cpp.bind, closeOut, setScope,
        next, Good, h3, h4, h5]
    | error e =>
      simp [step, dispatch, h1, Event.kind, fireAll, fire, h2, call, Cpp.bind, closeOut, setScope,
        next, Good, h3, h4, h5]
    | close e =>
      simp [step, dispatch, h1, Event.kind, fireAll, fire, h2, call, Cpp.bind, closeOut, setScope,
        next, Good, h3, h4, h5]
    | message d =>
      simp [step, dispatch, h1, Event.kind, fireAll, next, Good, h2, h3, h4, h5]
    | resume ok =>
      cases ok with
      | false => simp [step, next, Good, h1, h2, h4, h5]
      | true =>
        simp [step, next, h4, Good, arm, setScope, h1, hn0, h2, h3]
        refine ⟨w.nextScope, ?_⟩
        simp [h5]
  | over =>
    obtain ⟨h1, h2, h3, h4, h5⟩ := h
    cases i with
    | opened e =>
      simp [step, dispatch, h1, Event.kind, fireAll, fire, h2, call, Cpp.bind, closeOut, setScope,
        next, Good, h3, h4, h5]
    | error e =>
      simp [step, dispatch, h1, Event.kind, fireAll, fire, h2, call, Cpp.bind, closeOut, setScope,
        next, Good, h3, h4, h5]
    | close e =>
      simp [step, dispatch, h1, Event.kind, fireAll, fire, h2, call, Cpp.bind, closeOut, setScope,
        next, Good, h3, h4, h5]
    | message d =>
      simp [step, dispatch, h1, Event.kind, fireAll, next, Good, h2, h3, h4, h5]
    | resume ok => simp [step, next, Good, h1, h2, h3, h4, h5]

/-- A history, phase by phase. -/
def trace {D J E} (parse : D → Option J) (react : Nat → React) :
    Phase → Nat → List (In D E) → Phase × List (Out J E)
  | p, _, [] => (p, [])
  | p, k, i :: is =>
    ((trace parse react (next (J := J) parse react p k i).1
        (k + (next (J := J) parse react p k i).2.length) is).1,
      (next parse react p k i).2 ++ (trace parse react (next (J := J) parse react p k i).1
        (k + (next (J := J) parse react p k i).2.length) is).2)

theorem run_good {D J E} (dom : Bool) (parse : D → Option J) (react : Nat → React) (is : List (In D E)) :
    ∀ (p : Phase) (w : W J E), Good p w →
    ∃ w', run dom parse react is w = .ok w' ∧ Good (trace (J := J) parse react p w.count is).1 w' ∧
      w'.log = w.log ++ (trace parse react p w.count is).2 := by
  induction is with
  | nil => intro p w h; exact ⟨w, rfl, h, by simp [trace]⟩
  | cons i is ih =>
    intro p w h
    obtain ⟨w1, e1, g1, l1, c1⟩ := step_good dom parse react p w i h
    obtain ⟨w2, e2, g2, l2⟩ := ih _ _ g1
    refine ⟨w2, ?_, ?_, ?_⟩
    · simp [run, e1, Cpp.bind, e2]
    · rw [c1] at g2; exact g2
    · rw [l2, l1, c1]; simp [trace]

end Nbdl.ClientJs
