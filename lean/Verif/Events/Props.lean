import Verif.Events.Spec
/-! # Event handlers of a page: the properties -/
namespace Nbdl.Events
open Spec

variable {Ev : Type}

/-! ## Lemmas -/

/-- A running handler and its frame in the specification. -/
def Match (s : St Ev) : Listener × Ev → Frame Ev → Prop
  | (l, e), f => f.event = e ∧
    match f.target with
    | .fixed i => l = .fixed i ∧ i < s.fixed ∧ s.slot l = some e
    | .item i => ∃ g, l = .item g i ∧
      if f.stale then g < s.gen else g = s.gen ∧ i < s.items ∧ s.slot l = some e

/-- The stacks correspond. -/
def Stacks (s : St Ev) : List (Listener × Ev) → List (Frame Ev) → Prop
  | [], [] => True
  | a :: as, f :: fs => Match s a f ∧ Stacks s as fs
  | _, _ => False

/-- The state and the page correspond. -/
structure Rel (s : St Ev) (p : Page Ev) : Prop where
  fixed : s.fixed = p.fixed
  items : s.items = p.items
  stacks : Stacks s s.stack p.running

theorem stacks_imp {s s' : St Ev} {as : List (Listener × Ev)} {fs fs' : List (Frame Ev)}
    (g : Frame Ev → Frame Ev) (hfs : fs' = fs.map g)
    (hm : ∀ a f, f ∈ fs → Match s a f → Match s' a (g f)) (h : Stacks s as fs) : Stacks s' as fs' := by
  subst hfs
  induction as generalizing fs with
  | nil => cases fs with
    | nil => trivial
    | cons => exact h.elim
  | cons a as ih => cases fs with
    | nil => exact h.elim
    | cons f fs => exact ⟨hm a f (by simp) h.1, ih (fun a f hf => hm a f (by simp [hf])) h.2⟩

theorem exists_target {s : St Ev} {p : Page Ev} (r : Rel s p) (t : Target) :
    s.exists (s.target t) = p.has t := by
  cases t <;> simp [St.exists, St.target, Page.has, r.fixed, r.items]

theorem rel_update {s : St Ev} {p : Page Ev} (r : Rel s p) (n : Nat) : Rel (s.update n) (p.update n) where
  fixed := r.fixed
  items := rfl
  stacks := by
    refine stacks_imp _ rfl ?_ r.stacks
    rintro ⟨l, e⟩ ⟨t, e', st⟩ - h
    cases t with
    | fixed i => exact h
    | item i =>
      obtain ⟨he, g, hl, hg⟩ := h
      refine ⟨he, g, hl, ?_⟩
      simp only [if_true, St.update]
      cases st <;> simp at hg <;> omega

theorem stacks_nil {s : St Ev} {as : List (Listener × Ev)} {fs : List (Frame Ev)} (h : Stacks s as fs) :
    as = [] ↔ fs = [] := by
  cases as <;> cases fs <;> simp_all [Stacks]

theorem step_next (s : St Ev) (p : Page Ev) (r : Rel s p) (a : Act Ev) (as : List (Act Ev))
    (hc : calm p (a :: as)) : ∃ s', step s a = .ok (s', (next p a).2) ∧ Rel s' (next p a).1 := by
  obtain ⟨hc, -⟩ := hc
  cases a with
  | event t e =>
    simp only [step, next, exists_target r]
    cases hh : p.has t with
    | false => exact ⟨s, by simp, by simpa using r⟩
    | true =>
      refine ⟨_, rfl, ?_⟩
      simp only [if_true]
      refine ⟨r.fixed, r.items, ⟨rfl, ?_⟩, ?_⟩
      · have := exists_target r t
        rw [hh] at this
        cases t with
        | fixed i => exact ⟨rfl, by simpa [St.exists, St.target] using this, by simp [St.target]⟩
        | item i =>
          refine ⟨s.gen, rfl, ?_⟩
          simp only [Bool.false_eq_true, if_false, true_and]
          exact ⟨by simpa [St.exists, St.target] using this, by simp [St.target]⟩
      · refine stacks_imp id (by simp) ?_ r.stacks
        rintro ⟨l, e'⟩ ⟨t', e'', st⟩ hf h
        have hcf := hc _ hf
        obtain ⟨he, h⟩ := h
        refine ⟨he, ?_⟩
        cases t' with
        | fixed i =>
          obtain ⟨rfl, hi, hs⟩ := h
          refine ⟨rfl, hi, ?_⟩
          simp only
          rw [if_neg]
          · exact hs
          · intro hl
            cases t with
            | fixed j =>
              obtain rfl : i = j := by simpa [St.target] using hl
              obtain ⟨_, h, _⟩ := hcf rfl
              cases h
            | item j => simp [St.target] at hl
        | item i =>
          obtain ⟨g, rfl, hg⟩ := h
          refine ⟨g, rfl, ?_⟩
          cases st with
          | true => exact hg
          | false =>
            simp only [id, Bool.false_eq_true, if_false] at hg ⊢
            obtain ⟨rfl, hi, hs⟩ := hg
            refine ⟨rfl, hi, ?_⟩
            rw [if_neg]
            · exact hs
            · intro hl
              cases t with
              | fixed j => simp [St.target] at hl
              | item j =>
                obtain rfl : i = j := by simpa [St.target] using hl
                obtain ⟨_, _, h⟩ := hcf rfl
                cases h
  | look =>
    have hst := r.stacks
    simp only [step, next]
    cases h1 : s.stack with
    | nil =>
      have : p.running = [] := (stacks_nil hst).mp h1
      exact ⟨s, by simp [this], r⟩
    | cons x xs =>
      obtain ⟨l, e⟩ := x
      cases h2 : p.running with
      | nil => rw [h1, h2] at hst; exact hst.elim
      | cons f fs =>
        rw [h1, h2] at hst
        obtain ⟨he, hm⟩ := hst.1
        obtain ⟨t, e', st⟩ := f
        have hcf := hc ⟨t, e', st⟩ (by rw [h2]; rfl)
        simp only at he hm
        subst he
        cases t with
        | fixed i =>
          obtain ⟨rfl, hi, hs⟩ := hm
          exact ⟨s, by simp [St.exists, hi, hs], r⟩
        | item i =>
          obtain ⟨g, rfl, hg⟩ := hm
          have := hcf i rfl
          simp only at this
          subst this
          obtain ⟨rfl, hi, hs⟩ := hg
          exact ⟨s, by simp [St.exists, hi, hs], r⟩
  | send n =>
    have hst := r.stacks
    simp only [step, next]
    cases h1 : s.stack with
    | nil =>
      have : p.running = [] := (stacks_nil hst).mp h1
      exact ⟨s, by simp, by simpa [this] using r⟩
    | cons x xs =>
      obtain ⟨l, e⟩ := x
      cases h2 : p.running with
      | nil => rw [h1, h2] at hst; exact hst.elim
      | cons f fs =>
        rw [h1, h2] at hst
        obtain ⟨he, hm⟩ := hst.1
        obtain ⟨t, e', st⟩ := f
        have hcf := hc ⟨t, e', st⟩ (by rw [h2]; rfl)
        simp only at he hm
        subst he
        have hex : s.exists l = true := by
          cases t with
          | fixed i =>
            obtain ⟨rfl, hi, hs⟩ := hm
            simp [St.exists, hi]
          | item i =>
            obtain ⟨g, rfl, hg⟩ := hm
            have := hcf i rfl
            simp only at this
            subst this
            obtain ⟨rfl, hi, hs⟩ := hg
            simp [St.exists, hi]
        exact ⟨s.update n, by simp [hex], by simpa using rel_update r n⟩
  | ret =>
    refine ⟨_, rfl, r.fixed, r.items, ?_⟩
    have hst := r.stacks
    simp only [next]
    have : Stacks s s.stack.tail p.running.tail := by
      revert hst
      cases s.stack <;> cases p.running <;> simp only [Stacks, List.tail]
      · exact id
      · exact False.elim
      · exact False.elim
      · exact And.right
    exact stacks_imp (s := s) id (by simp) (fun _ _ _ h => h) this
  | update n =>
    have hst := stacks_nil r.stacks
    simp only [step, next]
    by_cases h : s.stack = []
    · refine ⟨s.update n, by simp [h], ?_⟩
      simpa [hst.mp h] using rel_update r n
    · refine ⟨s, by simp [h], ?_⟩
      have : p.running ≠ [] := fun h' => h (hst.mpr h')
      simpa [this] using r

theorem run_seen (s : St Ev) (p : Page Ev) (r : Rel s p) (as : List (Act Ev)) (hc : calm p as) :
    run s as = .ok (seen p as) := by
  induction as generalizing s p with
  | nil => rfl
  | cons a as ih =>
    obtain ⟨s', h1, h2⟩ := step_next s p r a as hc
    rw [run, h1]
    simp only [Cpp.bind, ih s' _ h2 hc.2]
    rfl

/-! ## C95 — a handler is called with its event and can send messages -/

/-- **C95 (partial).** In every history of events, nested to any depth, and updates: each handler sees
the event it was called for whenever it looks, and nothing that was destroyed is used, as long as
handlers of elements of the loop do nothing more after they sent a message, and no handler is called
while it is running.  Missing: `loop_send_violated`, `nested_event_violated`. -/
theorem handlers_partial (fixed items : Nat) (as : List (Act Ev)) (hc : calm ⟨fixed, items, []⟩ as) :
    run (St.init fixed items) as = .ok (seen ⟨fixed, items, []⟩ as) :=
  run_seen (St.init fixed items) ⟨fixed, items, []⟩ ⟨rfl, rfl, trivial⟩ as hc

/-- A handler outside of the loop sends twice and looks; a handler of the loop looks, then sends; in
between the page is updated from outside, and another element is clicked from inside a handler. -/
example : run (St.init 2 3) [.event (.fixed 0) 10, .send 4, .look, .send 5, .event (.item 4) 11, .look,
    .send 1, .ret, .look, .ret, .update 2, .event (.item 1) 12, .look, .event (.item 3) 13, .ret]
    = .ok [some 10, some 11, some 10, some 12] := by
  rw [handlers_partial]
  · decide +kernel
  · simp [calm, next, Page.has, Page.update]

/-- **C95 for handlers outside of loops.** They may look and send in any order, any number of times. -/
theorem fixed_handlers (fixed items i : Nat) (hi : i < fixed) (e : Ev) (as : List (Act Ev))
    (ha : ∀ a ∈ as, a = .look ∨ ∃ n, a = .send n) :
    run (St.init fixed items) (.event (.fixed i) e :: as)
      = .ok ((as.filter fun | .look => true | _ => false).map fun _ => some e) := by
  have key : ∀ (n : Nat) (st : Bool) (as : List (Act Ev)), (∀ a ∈ as, a = .look ∨ ∃ n, a = .send n) →
      calm ⟨fixed, n, [⟨.fixed i, e, st⟩]⟩ as ∧
      seen ⟨fixed, n, [⟨.fixed i, e, st⟩]⟩ as
        = (as.filter fun | .look => true | _ => false).map fun _ => some e := by
    intro n st as
    induction as generalizing n st with
    | nil => intro _; exact ⟨trivial, rfl⟩
    | cons a as ih =>
      intro ha
      have ha' : ∀ a ∈ as, a = .look ∨ ∃ n, a = .send n := fun x hx => ha x (by simp [hx])
      rcases ha a (by simp) with rfl | ⟨m, rfl⟩
      · obtain ⟨h1, h2⟩ := ih n st ha'
        exact ⟨⟨by simp, h1⟩, by simp [seen, next, h2]⟩
      · obtain ⟨h1, h2⟩ := ih m true ha'
        exact ⟨⟨by simp, h1⟩, by simpa [seen, next, Page.update] using h2⟩
  obtain ⟨h1, h2⟩ := key items false as ha
  rw [handlers_partial]
  · simpa [seen, next, Page.has, hi] using h2
  · exact ⟨by simp, by simpa [next, Page.has, hi] using h1⟩

example : run (St.init 1 0) [.event (.fixed 0) 7, .send 1, .look, .send 2, .look]
    = .ok [some 7, some 7] := fixed_handlers 1 0 0 (by decide) 7 _ (by simp)

/-- **C95 is violated** inside a loop: a handler that sends a message destroys itself, and sending
another one or looking at its event uses destroyed objects. -/
theorem loop_send_violated (items i : Nat) (hi : i < items) (e : Ev) (n m : Nat) :
    run (St.init 0 items) [.event (.item i) e, .send n, .send m] = .ub ∧
    run (St.init 0 items) [.event (.item i) e, .send n, .look] = .ub := by
  constructor <;> simp [run, step, St.init, St.exists, St.target, hi, Cpp.bind, Cpp.map, St.update]

/-- **C95 is violated** when an event reaches a handler that is still running: afterwards the outer call
sees the event of the inner one. -/
theorem nested_event_violated (e e' : Ev) :
    run (St.init 1 0) [.event (.fixed 0) e, .event (.fixed 0) e', .ret, .look] = .ok [some e'] := by
  simp [run, step, St.init, St.exists, St.target, Cpp.bind, Cpp.map]

end Nbdl.Events
