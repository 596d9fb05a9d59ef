import Verif.Events.Props
/-! # Event handlers of a page: exactly what happens -/
namespace Nbdl.Events
open Spec

variable {Ev : Type}

namespace Spec

/-- The last event so far at the element. -/
def latest (t : Target) (h : List (Act Ev)) : Option Ev :=
  h.reverse.findSome? fun
    | .event t' e => if t' = t then some e else none
    | _ => none

/-- The innermost handler belongs to an element of the loop that was replaced since, and looks at its
event or sends. -/
def UsesReplaced (p : Page Ev) : Act Ev → Prop
  | .look | .send _ => ∃ f i, p.running.head? = some f ∧ f.target = .item i ∧ f.stale = true
  | _ => False

/-- So does some handler in the history. -/
def Dangles (p : Page Ev) : List (Act Ev) → Prop
  | [] => False
  | a :: as => UsesReplaced p a ∨ Dangles (next p a).1 as

/-- Each handler that looks sees the last event so far at its element; `h` is the past. -/
def seenLatest (h : List (Act Ev)) (p : Page Ev) : List (Act Ev) → List (Option Ev)
  | [] => []
  | a :: as =>
    (match a, p.running.head? with
      | .look, some f => [latest f.target h]
      | _, _ => []) ++ seenLatest (h ++ [a]) (next p a).1 as

end Spec

/-- A running handler and its frame. -/
private def Same (s : St Ev) (h : List (Act Ev)) : Listener × Ev → Frame Ev → Prop
  | (l, _), f =>
    match f.target with
    | .fixed i => l = .fixed i ∧ i < s.fixed ∧ s.slot l = latest (.fixed i) h
    | .item i => ∃ g, l = .item g i ∧
      if f.stale then g < s.gen else g = s.gen ∧ i < s.items ∧ s.slot l = latest (.item i) h

private inductive All (P : Listener × Ev → Frame Ev → Prop) : List (Listener × Ev) → List (Frame Ev) → Prop
  | nil : All P [] []
  | cons {a f as fs} : P a f → All P as fs → All P (a :: as) (f :: fs)

private theorem All.imp {P Q : Listener × Ev → Frame Ev → Prop} (g : Frame Ev → Frame Ev)
    (hm : ∀ a f, P a f → Q a (g f)) {as : List (Listener × Ev)} {fs : List (Frame Ev)} (h : All P as fs) :
    All Q as (fs.map g) := by
  induction h with
  | nil => exact .nil
  | cons h _ ih => exact .cons (hm _ _ h) ih

private structure Related (s : St Ev) (p : Page Ev) (h : List (Act Ev)) : Prop where
  fixed : s.fixed = p.fixed
  items : s.items = p.items
  stacks : All (Same s h) s.stack p.running

private theorem latest_snoc (t : Target) (h : List (Act Ev)) (a : Act Ev) :
    latest t (h ++ [a]) = match a with
      | .event t' e => if t' = t then some e else latest t h
      | _ => latest t h := by
  simp only [latest, List.reverse_append, List.reverse_cons, List.reverse_nil, List.nil_append,
    List.cons_append, List.findSome?_cons]
  cases a with
  | event t' e => by_cases ht : t' = t <;> simp [ht]
  | _ => rfl

private theorem latest_event (t t' : Target) (h : List (Act Ev)) (e : Ev) :
    latest t (h ++ [.event t' e]) = if t' = t then some e else latest t h := latest_snoc t h _

private theorem has_target {s : St Ev} {p : Page Ev} {h : List (Act Ev)} (r : Related s p h) (t : Target) :
    s.exists (s.target t) = p.has t := by
  cases t <;> simp [St.exists, St.target, Page.has, r.fixed, r.items]

private theorem related_update {s : St Ev} {p : Page Ev} {h : List (Act Ev)} (r : Related s p h) (n : Nat)
    (a : Act Ev) (ha : ∀ t e, a ≠ .event t e) : Related (s.update n) (p.update n) (h ++ [a]) where
  fixed := r.fixed
  items := rfl
  stacks := by
    have hl : ∀ t, latest t (h ++ [a]) = latest t h := by
      intro t; rw [latest_snoc]
      cases a with
      | event t e => exact absurd rfl (ha t e)
      | _ => rfl
    refine r.stacks.imp _ ?_
    rintro ⟨l, e⟩ ⟨t, e', st⟩ hm
    cases t with
    | fixed i =>
      obtain ⟨h1, h2, h3⟩ := hm
      exact ⟨h1, h2, by rw [hl]; exact h3⟩
    | item i =>
      obtain ⟨g, h1, hg⟩ := hm
      refine ⟨g, h1, ?_⟩
      simp only [if_true, St.update]
      cases st <;> simp at hg <;> omega

private theorem related_same {s s' : St Ev} {p' : Page Ev} {h : List (Act Ev)}
    (h1 : s'.fixed = s.fixed) (h2 : s'.items = s.items) (h3 : s'.gen = s.gen) (h4 : s'.slot = s.slot)
    (f1 : s.fixed = p'.fixed) (f2 : s.items = p'.items)
    (a : Act Ev) (ha : ∀ t e, a ≠ .event t e) (r : All (Same s h) s'.stack p'.running) :
    Related s' p' (h ++ [a]) where
  fixed := h1.trans f1
  items := h2.trans f2
  stacks := by
    have hl : ∀ t, latest t (h ++ [a]) = latest t h := by
      intro t; rw [latest_snoc]
      cases a with
      | event t e => exact absurd rfl (ha t e)
      | _ => rfl
    have := r.imp (Q := Same s' (h ++ [a])) id ?_
    · simpa using this
    · rintro ⟨l, e⟩ ⟨t, e', st⟩ hm
      cases t with
      | fixed i =>
        obtain ⟨e1, e2, e3⟩ := hm
        exact ⟨e1, by rw [h1]; exact e2, by rw [hl, h4]; exact e3⟩
      | item i =>
        obtain ⟨g, e1, hg⟩ := hm
        refine ⟨g, e1, ?_⟩
        simp only [id]
        rw [h3, h2, h4, hl]
        exact hg

/-- The listener of the innermost handler exists exactly if it was not replaced. -/
private theorem head_exists {s : St Ev} {p : Page Ev} {h : List (Act Ev)} (r : Related s p h)
    (l : Listener) (e : Ev) (xs : List (Listener × Ev)) (hs : s.stack = (l, e) :: xs) :
    ∃ f fs, p.running = f :: fs ∧
      ((s.exists l = false ∧ ∃ i, f.target = .item i ∧ f.stale = true) ∨
       (s.exists l = true ∧ (∀ i, f.target = .item i → f.stale = false) ∧
         s.slot l = latest f.target h)) := by
  have hst := r.stacks
  rw [hs] at hst
  generalize hr : p.running = fs at hst
  cases hst with
  | @cons _ f _ fs hm _ =>
    refine ⟨f, fs, rfl, ?_⟩
    obtain ⟨t, e', st⟩ := f
    cases t with
    | fixed i =>
      obtain ⟨rfl, h2, h3⟩ := hm
      exact .inr ⟨by simp [St.exists, h2], by simp, h3⟩
    | item i =>
      obtain ⟨g, rfl, hg⟩ := hm
      cases st with
      | true =>
        left
        simp only [if_true] at hg
        exact ⟨by simp [St.exists]; omega, i, rfl, rfl⟩
      | false =>
        right
        simp only [Bool.false_eq_true, if_false] at hg
        obtain ⟨rfl, h2, h3⟩ := hg
        exact ⟨by simp [St.exists, h2], by simp, h3⟩

private theorem stack_nil {s : St Ev} {p : Page Ev} {h : List (Act Ev)} (r : Related s p h) :
    s.stack = [] ↔ p.running = [] := by
  have := r.stacks
  revert this
  cases s.stack <;> cases p.running <;> intro x <;> first | (cases x; done) | simp

private theorem step_exact (s : St Ev) (p : Page Ev) (h : List (Act Ev)) (r : Related s p h) (a : Act Ev) :
    (UsesReplaced p a ∧ step s a = .ub) ∨
    (¬ UsesReplaced p a ∧ ∃ s', step s a = .ok (s', match a, p.running.head? with
      | .look, some f => [latest f.target h]
      | _, _ => []) ∧ Related s' (next p a).1 (h ++ [a])) := by
  cases a with
  | event t e =>
    right
    refine ⟨id, ?_⟩
    simp only [step, next, has_target r]
    cases hh : p.has t with
    | false =>
      refine ⟨s, by simp, ?_⟩
      simp only [Bool.false_eq_true, if_false]
      refine ⟨r.fixed, r.items, ?_⟩
      have := r.stacks.imp (Q := Same s (h ++ [.event t e])) id ?_
      · simpa using this
      · have hex := has_target r t
        rw [hh] at hex
        rintro ⟨l, e1⟩ ⟨t', e', st⟩ hm
        cases t' with
        | fixed i =>
          obtain ⟨rfl, h2, h3⟩ := hm
          refine ⟨rfl, h2, ?_⟩
          rw [latest_event, if_neg]
          · exact h3
          · rintro rfl
            simp [St.exists, St.target] at hex; omega
        | item i =>
          obtain ⟨g, rfl, hg⟩ := hm
          refine ⟨g, rfl, ?_⟩
          simp only [id]
          cases st with
          | true => exact hg
          | false =>
            simp only [Bool.false_eq_true, if_false] at hg ⊢
            obtain ⟨rfl, h2, h3⟩ := hg
            refine ⟨rfl, h2, ?_⟩
            rw [latest_event, if_neg]
            · exact h3
            · rintro rfl
              simp [St.exists, St.target] at hex; omega
    | true =>
      refine ⟨_, rfl, ?_⟩
      simp only [if_true]
      have hex := has_target r t
      rw [hh] at hex
      refine ⟨r.fixed, r.items, .cons ?_ ?_⟩
      · cases t with
        | fixed i =>
          exact ⟨rfl, by simpa [St.exists, St.target] using hex, by rw [latest_event]; simp [St.target]⟩
        | item i =>
          refine ⟨s.gen, rfl, ?_⟩
          simp only [Bool.false_eq_true, if_false]
          exact ⟨trivial, by simpa [St.exists, St.target] using hex, by rw [latest_event]; simp [St.target]⟩
      · have := r.stacks.imp (Q := Same { s with
            slot := fun l => if l = s.target t then some e else s.slot l
            stack := (s.target t, e) :: s.stack } (h ++ [.event t e])) id ?_
        · simpa using this
        · rintro ⟨l, e1⟩ ⟨t', e', st⟩ hm
          cases t' with
          | fixed i =>
            obtain ⟨rfl, h2, h3⟩ := hm
            refine ⟨rfl, h2, ?_⟩
            rw [latest_event]
            by_cases ht : t = .fixed i
            · subst ht; simp [St.target]
            · rw [if_neg ht]
              have : Listener.fixed i ≠ s.target t := by
                cases t with
                | fixed j => intro x; exact ht (by simpa [St.target, eq_comm] using x)
                | item j => simp [St.target]
              show (if Listener.fixed i = s.target t then some e else s.slot (.fixed i)) = _
              rw [if_neg this]; exact h3
          | item i =>
            obtain ⟨g, rfl, hg⟩ := hm
            refine ⟨g, rfl, ?_⟩
            simp only [id]
            cases st with
            | true => exact hg
            | false =>
              simp only [Bool.false_eq_true, if_false] at hg ⊢
              obtain ⟨rfl, h2, h3⟩ := hg
              refine ⟨rfl, h2, ?_⟩
              rw [latest_event]
              by_cases ht : t = .item i
              · subst ht; simp [St.target]
              · rw [if_neg ht]
                have : Listener.item s.gen i ≠ s.target t := by
                  cases t with
                  | fixed j => simp [St.target]
                  | item j => intro x; exact ht (by simpa [St.target, eq_comm] using x)
                rw [if_neg this]; exact h3
  | look =>
    cases h1 : s.stack with
    | nil =>
      right
      have h2 := (stack_nil r).mp h1
      refine ⟨by simp [UsesReplaced, h2], s, by simp [step, h1, h2], ?_⟩
      exact related_same rfl rfl rfl rfl r.fixed r.items _ (by simp) r.stacks
    | cons x xs =>
      obtain ⟨l, e⟩ := x
      obtain ⟨f, fs, hr, ⟨hx, i, ht, hs⟩ | ⟨hx, hi, hs⟩⟩ := head_exists r l e xs h1
      · exact .inl ⟨⟨f, i, by rw [hr]; rfl, ht, hs⟩, by simp [step, h1, hx]⟩
      · right
        refine ⟨?_, s, by simp [step, h1, hx, hr, hs], ?_⟩
        · rintro ⟨f', i, hf', ht, hst⟩
          rw [hr] at hf'
          cases hf'
          rw [hi i ht] at hst
          cases hst
        · exact related_same rfl rfl rfl rfl r.fixed r.items _ (by simp) r.stacks
  | send n =>
    cases h1 : s.stack with
    | nil =>
      right
      have h2 := (stack_nil r).mp h1
      refine ⟨by simp [UsesReplaced, h2], s, by simp [step, h1], ?_⟩
      simp only [next, h2, List.isEmpty_nil, if_true]
      exact related_same rfl rfl rfl rfl r.fixed r.items _ (by simp) r.stacks
    | cons x xs =>
      obtain ⟨l, e⟩ := x
      obtain ⟨f, fs, hr, ⟨hx, i, ht, hs⟩ | ⟨hx, hi, hs⟩⟩ := head_exists r l e xs h1
      · exact .inl ⟨⟨f, i, by rw [hr]; rfl, ht, hs⟩, by simp [step, h1, hx]⟩
      · right
        refine ⟨?_, s.update n, by simp [step, h1, hx], ?_⟩
        · rintro ⟨f', i, hf', ht, hst⟩
          rw [hr] at hf'
          cases hf'
          rw [hi i ht] at hst
          cases hst
        · simp only [next, hr, List.isEmpty_cons, Bool.false_eq_true, if_false]
          exact related_update r n _ (by simp)
  | ret =>
    right
    refine ⟨id, _, rfl, ?_⟩
    refine related_same (s := s) (s' := { s with stack := s.stack.tail }) (p' := { p with running := p.running.tail })
      rfl rfl rfl rfl r.fixed r.items .ret (by simp) ?_
    show All (Same s h) s.stack.tail p.running.tail
    have := r.stacks
    revert this
    cases s.stack <;> cases p.running <;> intro x <;> cases x
    · exact .nil
    · assumption
  | update n =>
    right
    refine ⟨id, ?_⟩
    simp only [step, next]
    by_cases h1 : s.stack = []
    · have h2 := (stack_nil r).mp h1
      refine ⟨s.update n, by simp [h1], ?_⟩
      simp only [h2, List.isEmpty_nil, if_true]
      exact related_update r n _ (by simp)
    · have h2 : p.running ≠ [] := fun x => h1 ((stack_nil r).mpr x)
      refine ⟨s, by simp [h1], ?_⟩
      have h3 : p.running.isEmpty = false := by cases h : p.running <;> simp_all
      simp only [h3, Bool.false_eq_true, if_false]
      exact related_same rfl rfl rfl rfl r.fixed r.items _ (by simp) r.stacks

private theorem run_exact (s : St Ev) (p : Page Ev) (h : List (Act Ev)) (r : Related s p h)
    (as : List (Act Ev)) :
    (Dangles p as ∧ run s as = .ub) ∨ (¬ Dangles p as ∧ run s as = .ok (seenLatest h p as)) := by
  induction as generalizing s p h with
  | nil => exact .inr ⟨id, rfl⟩
  | cons a as ih =>
    rcases step_exact s p h r a with ⟨k, e⟩ | ⟨k, s', e, r'⟩
    · exact .inl ⟨.inl k, by rw [run, e]; rfl⟩
    · rcases ih s' _ _ r' with ⟨k', e'⟩ | ⟨k', e'⟩
      · exact .inl ⟨.inr k', by rw [run, e]; simp only [Cpp.bind]; rw [e']; rfl⟩
      · refine .inr ⟨fun x => x.elim k k', ?_⟩
        rw [run, e]; simp only [Cpp.bind]; rw [e']; rfl

/-- **C95, exactly.** In every history whatever: something destroyed is used if and only if a handler of
an element of the loop looks at its event or sends a message after the page was updated; and if not, each
handler that looks sees the last event at its element, which is not its own if another one came while it
was running. -/
theorem handlers_exact (fixed items : Nat) (as : List (Act Ev)) :
    (run (St.init fixed items) as = .ub ↔ Dangles ⟨fixed, items, []⟩ as) ∧
    (¬ Dangles ⟨fixed, items, []⟩ as →
      run (St.init fixed items) as = .ok (seenLatest [] ⟨fixed, items, []⟩ as)) := by
  rcases run_exact (St.init fixed items) ⟨fixed, items, []⟩ [] ⟨rfl, rfl, .nil⟩ as with ⟨k, e⟩ | ⟨k, e⟩
  · exact ⟨⟨fun _ => k, fun _ => e⟩, fun x => absurd k x⟩
  · exact ⟨⟨fun x => by (rw [e] at x; cases x), fun x => absurd x k⟩, fun _ => e⟩

/-- A handler of the loop sends and then looks, in a handler of another element. -/
example : Dangles ⟨1, 2, []⟩ [.event (.fixed 0) 1, .event (.item 1) 2, .send 2, .look] := by
  simp [Dangles, UsesReplaced, next, Page.has, Page.update]

/-- After the inner handler returned the outer one goes on, and sees the event of a third call. -/
example : run (St.init 1 2) [.event (.fixed 0) 1, .event (.item 1) 2, .send 2, .ret, .look,
    .event (.fixed 0) 3, .ret, .look] = .ok [some 1, some 3] := by
  rw [(handlers_exact 1 2 _).2 (by simp [Dangles, UsesReplaced, next, Page.has, Page.update])]
  decide +kernel

end Nbdl.Events
