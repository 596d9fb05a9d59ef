import Verif.Nested.Spec
/-! Invariants of the machine. -/
namespace Nbdl.Nested
open MapStore (Msg View Payload)
open Context (Config Actor StoreOps Event setStore pushMain Lawful actorsWith towardsProducer)
open Spec
variable {A S P V : Type}

theorem run_add (c : Config S P V) (code : Code A P V) (m n : Nat) (s : State A S P V) :
    run c code (m + n) s = run c code n (run c code m s) := by
  induction m generalizing s with
  | zero => rw [Nat.zero_add]; rfl
  | succ m ih =>
    rw [Nat.add_right_comm]
    exact ih (step c code s)

/-- What every step keeps holds after any number of steps. -/
theorem run_inv (c : Config S P V) (code : Code A P V) (I : State A S P V → Prop)
    (h : ∀ w x r, I ⟨w, x :: r⟩ → I ⟨(exec c code w x).1, (exec c code w x).2 ++ r⟩)
    (n : Nat) (s : State A S P V) (hs : I s) : I (run c code n s) := by
  induction n generalizing s with
  | zero => exact hs
  | succ n ih =>
    apply ih
    obtain ⟨w, ts⟩ := s
    cases ts with
    | nil => exact hs
    | cons x r => exact h w x r hs

theorem exec_look_trigger (c : Config S P V) (code : Code A P V) (w : World A S P V) (t : Nat) (p : P)
    (k : View V → Prog A P V) (hv : (c.ops t).view (w.stores t) p = .triggerRead) :
    exec c code w (.prog (.look t p k)) = (w, [.push t (.upRead p), .prog (k .unresolved)]) := by
  simp only [exec, hv]

theorem exec_look_other (c : Config S P V) (code : Code A P V) (w : World A S P V) (t : Nat) (p : P)
    (k : View V → Prog A P V) (hv : (c.ops t).view (w.stores t) p ≠ .triggerRead) :
    exec c code w (.prog (.look t p k)) = (w, [.prog (k ((c.ops t).view (w.stores t) p))]) := by
  simp only [exec]

/-! ## The calls of a push -/

theorem mainCalls_write (c : Config S P V) (st : Nat → S) (t : Nat) (m : Msg P V) (hr : m.isUpRead = false)
    (hl : Lawful (c.ops t)) :
    pushMain c st t m = (setStore st t ((c.ops t).apply (st t) m).1, (pushMain c st t m).2)
    ∧ mainCalls c st t m = writeCalls c ((c.ops t).apply (st t) m).2 t m := by
  have hr' : (if (c.ops t).never m then (st t, false) else (c.ops t).apply (st t) m) = (c.ops t).apply (st t) m := by
    split
    · rename_i h; exact (hl _ _ hr h).symm
    · rfl
  constructor
  · unfold pushMain
    rw [hr]
    simp only [Bool.false_eq_true, if_false, hr']
  · unfold mainCalls pushMain
    rw [hr]
    simp only [Bool.false_eq_true, if_false, hr', writeCalls, List.map_append]
    congr 1
    · split
      · simp only [Context.notifyStateConsumers, Context.indices_eq, List.map_map, actorsWith]; rfl
      · rfl
    · rw [Context.isUpstream_eq]
      split
      · rfl
      · simp only [Context.propagateDownstream, Context.indices_eq, List.map_map, actorsWith]; rfl

theorem mainCalls_read (c : Config S P V) (st : Nat → S) (t : Nat) (p : P) :
    pushMain c st t (.upRead p) = (setStore st t ((c.ops t).apply (st t) (.upRead p)).1, (pushMain c st t (.upRead p)).2)
    ∧ mainCalls c st t (.upRead p) = readCalls c t p ((c.ops t).view ((c.ops t).apply (st t) (.upRead p)).1 p) := by
  constructor
  · rfl
  · have e : setStore st t ((c.ops t).apply (st t) (.upRead p)).1 t = ((c.ops t).apply (st t) (.upRead p)).1 := by
      simp [setStore]
    unfold mainCalls pushMain
    simp only [Msg.isUpRead, if_true, e, Msg.path]
    cases (c.ops t).view ((c.ops t).apply (st t) (.upRead p)).1 p <;>
      simp only [readCalls, Context.propagateUpstream, Context.propagateDownstream, Context.indices_eq,
        List.map_map, actorsWith, List.map_cons, List.map_nil, callOf]
    all_goals rfl

theorem pushMain_stores (c : Config S P V) (hl : ∀ t, Lawful (c.ops t)) (st : Nat → S) (t : Nat) (m : Msg P V) :
    (pushMain c st t m).1 = setStore st t ((c.ops t).apply (st t) m).1 := by
  cases hm : m.isUpRead
  · rw [(mainCalls_write c st t m hm (hl t)).1]
  · cases m <;> first | (simp only [Msg.isUpRead, Bool.false_eq_true] at hm; done) | rfl

/-! ## Each push is carried out -/

/-- The calls of push `i` that are still to be made. -/
def pend (i : Nat) (ts : List (Task A P V)) : List (Call P V) :=
  ts.filterMap fun x => match x with
    | .call j none a => if j = i then some a else none
    | _ => none

/-- The numbers in a task are numbers of pushes that have been begun. -/
def Old (n : Nat) : Task A P V → Prop
  | .call i _ _ => i < n
  | .listen i _ _ _ => i < n
  | _ => True

theorem Old.mono {n n' : Nat} (h : n ≤ n') {x : Task A P V} (hx : Old n x) : Old n' x := by
  cases x <;> simp only [Old] at * <;> omega

/-- The number of a push, at its beginning. -/
def begun : Entry S P V → Option Nat
  | .pushed i _ _ _ => some i
  | .submitted i _ _ => some i
  | _ => none

theorem callsFor_append (i : Nat) (a b : List (Entry S P V)) :
    callsFor i (a ++ b) = callsFor i a ++ callsFor i b := List.filterMap_append

theorem pend_append (i : Nat) (a b : List (Task A P V)) : pend i (a ++ b) = pend i a ++ pend i b :=
  List.filterMap_append

theorem pend_call_other (i j : Nat) (h : j ≠ i) (l : List (Call P V)) :
    pend i (l.map (Task.call (A := A) j none)) = [] := by
  induction l with
  | nil => rfl
  | cons a l ih =>
    have : pend i (Task.call (A := A) j none a :: l.map (Task.call j none)) = pend i (l.map (Task.call (A := A) j none)) := by
      simp only [pend, List.filterMap_cons, if_neg h]
    rw [List.map_cons, this, ih]

theorem pend_call_same (i : Nat) (l : List (Call P V)) : pend i (l.map (Task.call (A := A) i none)) = l := by
  induction l with
  | nil => rfl
  | cons a l ih =>
    have : pend i (Task.call (A := A) i none a :: l.map (Task.call i none)) = a :: pend i (l.map (Task.call (A := A) i none)) := by
      simp only [pend, List.filterMap_cons, if_true]
    rw [List.map_cons, this, ih]

theorem pend_src (i j l : Nat) (cs : List (Call P V)) : pend i (cs.map (Task.call (A := A) j (some l))) = [] := by
  induction cs with
  | nil => rfl
  | cons a cs ih => exact ih

theorem pend_listen (i j t : Nat) (m : Msg P V) (ls : List Nat) :
    pend i (ls.map (fun l => Task.listen (A := A) j l t m)) = [] := by
  induction ls with
  | nil => rfl
  | cons a cs ih => exact ih

theorem pend_old (n : Nat) (ts : List (Task A P V)) (h : ∀ x ∈ ts, Old n x) : pend n ts = [] := by
  induction ts with
  | nil => rfl
  | cons x ts ih =>
    have ht := ih fun y hy => h y (List.mem_cons_of_mem _ hy)
    have hx := h x List.mem_cons_self
    match x, hx with
    | .prog _, _ => exact ht
    | .push _ _, _ => exact ht
    | .submit _ _, _ => exact ht
    | .listen _ _ _ _, _ => exact ht
    | .call _ (some _) _, _ => exact ht
    | .call j none a, hx =>
      have hj : j ≠ n := Nat.ne_of_lt hx
      have : pend n (Task.call (A := A) j none a :: ts) = pend n ts := by
        simp only [pend, List.filterMap_cons, if_neg hj]
      rw [this, ht]

/-- The invariant. -/
structure Inv (c : Config S P V) (s : State A S P V) : Prop where
  ids : s.world.log.filterMap begun = List.range s.world.next
  old : ∀ x ∈ s.tasks, Old s.world.next x
  oldCalls : ∀ i src a st, Entry.called i src a st ∈ s.world.log → i < s.world.next
  main : ∀ i t m st, Entry.pushed i t m st ∈ s.world.log →
    callsFor i s.world.log ++ pend i s.tasks = mainCalls c st t m
  sub : ∀ i t m, Entry.submitted i t m ∈ s.world.log →
    callsFor i s.world.log ++ pend i s.tasks = [.up (c.producerOf t) t m]

theorem callsFor_new (n : Nat) (log : List (Entry S P V))
    (h : ∀ i src a st, Entry.called i src a st ∈ log → i < n) : callsFor n log = [] := by
  induction log with
  | nil => rfl
  | cons e log ih =>
    have ht := ih fun i src a st hm => h i src a st (List.mem_cons_of_mem _ hm)
    match e, h with
    | .pushed _ _ _ _, _ => exact ht
    | .submitted _ _ _, _ => exact ht
    | .heard _ _ _ _ _, _ => exact ht
    | .called _ (some _) _ _, _ => exact ht
    | .called j none a st, h =>
      have hj : j ≠ n := Nat.ne_of_lt (h j none a st List.mem_cons_self)
      have : callsFor n (Entry.called j none a st :: log) = callsFor n log := by
        simp only [callsFor, List.filterMap_cons, if_neg hj]
      rw [this, ht]

theorem begun_lt {s : State A S P V} {c : Config S P V} (h : Inv c s) {e : Entry S P V} {i : Nat}
    (he : e ∈ s.world.log) (hi : begun e = some i) : i < s.world.next := by
  have : i ∈ s.world.log.filterMap begun := List.mem_filterMap.2 ⟨e, he, hi⟩
  rw [h.ids] at this
  exact List.mem_range.1 this

/-- A step that neither begins a push nor makes a call of one. -/
theorem inv_plain {c : Config S P V} {w : World A S P V} {x : Task A P V} {r ts : List (Task A P V)}
    {w' : World A S P V} (h : Inv c ⟨w, x :: r⟩)
    (hx : ∀ i, pend i [x] = []) (hts : ∀ i, pend i ts = []) (hold : ∀ y ∈ ts, Old w.next y)
    (hn : w'.next = w.next) (es : List (Entry S P V)) (hlog : w'.log = w.log ++ es)
    (hes : ∀ e ∈ es, ∃ i l t m st, e = .heard i l t m st) : Inv c ⟨w', ts ++ r⟩ := by
  have hp : ∀ i, pend i (ts ++ r) = pend i (x :: r) := by
    intro i
    rw [pend_append, hts, show x :: r = [x] ++ r from rfl, pend_append, hx]
  have hb : es.filterMap begun = [] := by
    rw [List.filterMap_eq_nil_iff]
    intro e he
    obtain ⟨i, l, t, m, st, rfl⟩ := hes e he
    rfl
  have hc : ∀ i, callsFor i (w.log ++ es) = callsFor i w.log := by
    intro i
    have : callsFor i es = [] := by
      unfold callsFor
      rw [List.filterMap_eq_nil_iff]
      intro e he
      obtain ⟨i, l, t, m, st, rfl⟩ := hes e he
      rfl
    rw [callsFor_append, this, List.append_nil]
  refine ⟨?_, ?_, ?_, ?_, ?_⟩
  · show w'.log.filterMap begun = List.range w'.next
    rw [hlog, hn, List.filterMap_append, hb, List.append_nil]
    exact h.ids
  · intro y hy
    show Old w'.next y
    rw [hn]
    rcases List.mem_append.1 hy with hy | hy
    · exact hold y hy
    · exact h.old y (List.mem_cons_of_mem _ hy)
  · intro i src a st hm
    show i < w'.next
    rw [hn]
    have hm' : Entry.called i src a st ∈ w.log ++ es := hlog ▸ hm
    rcases List.mem_append.1 hm' with hm' | hm'
    · exact h.oldCalls i src a st hm'
    · obtain ⟨_, _, _, _, _, he⟩ := hes _ hm'
      cases he
  · intro i t m st hm
    have hm' : Entry.pushed i t m st ∈ w.log ++ es := hlog ▸ hm
    show callsFor i w'.log ++ pend i (ts ++ r) = _
    rw [hlog, hc, hp]
    rcases List.mem_append.1 hm' with hm' | hm'
    · exact h.main i t m st hm'
    · obtain ⟨_, _, _, _, _, he⟩ := hes _ hm'
      cases he
  · intro i t m hm
    have hm' : Entry.submitted i t m ∈ w.log ++ es := hlog ▸ hm
    show callsFor i w'.log ++ pend i (ts ++ r) = _
    rw [hlog, hc, hp]
    rcases List.mem_append.1 hm' with hm' | hm'
    · exact h.sub i t m hm'
    · obtain ⟨_, _, _, _, _, he⟩ := hes _ hm'
      cases he

/-- A step that begins a push. -/
theorem inv_begin {c : Config S P V} {w : World A S P V} {x : Task A P V} {r ts : List (Task A P V)}
    {w' : World A S P V} (h : Inv c ⟨w, x :: r⟩) (e : Entry S P V) (cs : List (Call P V))
    (hx : ∀ i, pend i [x] = []) (hts : ∀ i, pend i ts = if i = w.next then cs else [])
    (hold : ∀ y ∈ ts, Old (w.next + 1) y) (hn : w'.next = w.next + 1) (hlog : w'.log = w.log ++ [e])
    (he : (∃ t m st, e = .pushed w.next t m st ∧ cs = mainCalls c st t m)
      ∨ (∃ t m, e = .submitted w.next t m ∧ cs = [.up (c.producerOf t) t m])) : Inv c ⟨w', ts ++ r⟩ := by
  have hb : begun e = some w.next := by
    rcases he with ⟨t, m, st, rfl, -⟩ | ⟨t, m, rfl, -⟩ <;> rfl
  have hce : ∀ i, callsFor i [e] = [] := by
    intro i
    rcases he with ⟨t, m, st, rfl, -⟩ | ⟨t, m, rfl, -⟩ <;> rfl
  have hold' : ∀ y ∈ r, Old w.next y := fun y hy => h.old y (List.mem_cons_of_mem _ hy)
  have hkeep : ∀ i, i < w.next → ∀ z, callsFor i w.log ++ pend i (x :: r) = z →
      callsFor i w'.log ++ pend i (ts ++ r) = z := by
    intro i hi z hz
    rw [hlog, callsFor_append, hce, List.append_nil, pend_append, hts, if_neg (Nat.ne_of_lt hi), List.nil_append,
      ← hz, show x :: r = [x] ++ r from rfl, pend_append, hx, List.nil_append]
  have hnew : callsFor w.next w'.log ++ pend w.next (ts ++ r) = cs := by
    rw [hlog, callsFor_append, hce, List.append_nil, callsFor_new _ _ h.oldCalls, List.nil_append, pend_append,
      pend_old _ _ hold', hts, if_pos rfl, List.append_nil]
  refine ⟨?_, ?_, ?_, ?_, ?_⟩
  · show w'.log.filterMap begun = List.range w'.next
    rw [hlog, hn, List.filterMap_append, List.range_succ]
    have hids : w.log.filterMap begun = List.range w.next := h.ids
    rw [hids]
    simp [hb]
  · intro y hy
    show Old w'.next y
    rw [hn]
    rcases List.mem_append.1 hy with hy | hy
    · exact hold y hy
    · exact (hold' y hy).mono (Nat.le_succ _)
  · intro i src a st hm
    show i < w'.next
    rw [hn]
    have hm' : Entry.called i src a st ∈ w.log ++ [e] := hlog ▸ hm
    rcases List.mem_append.1 hm' with hm' | hm'
    · exact Nat.lt_succ_of_lt (h.oldCalls i src a st hm')
    · have hee := List.mem_singleton.1 hm'
      subst hee
      rcases he with ⟨t, m, st, he, -⟩ | ⟨t, m, he, -⟩ <;> cases he
  · intro i t m st hm
    have hm' : Entry.pushed i t m st ∈ w.log ++ [e] := hlog ▸ hm
    rcases List.mem_append.1 hm' with hm' | hm'
    · exact hkeep i (begun_lt h hm' rfl) _ (h.main i t m st hm')
    · have hee := List.mem_singleton.1 hm'
      subst hee
      rcases he with ⟨t', m', st', he, hcs⟩ | ⟨t', m', he, -⟩
      · injection he with h1 h2 h3 h4
        subst h1 h2 h3 h4
        rw [← hcs]
        exact hnew
      · cases he
  · intro i t m hm
    have hm' : Entry.submitted i t m ∈ w.log ++ [e] := hlog ▸ hm
    rcases List.mem_append.1 hm' with hm' | hm'
    · exact hkeep i (begun_lt h hm' rfl) _ (h.sub i t m hm')
    · have hee := List.mem_singleton.1 hm'
      subst hee
      rcases he with ⟨t', m', st', he, -⟩ | ⟨t', m', he, hcs⟩
      · cases he
      · injection he with h1 h2 h3
        subst h1 h2 h3
        rw [← hcs]
        exact hnew

/-- A call. -/
theorem inv_call {c : Config S P V} {w : World A S P V} {j : Nat} {src : Option Nat} {b : Call P V}
    {q : Prog A P V} {r : List (Task A P V)} (h : Inv c ⟨w, .call j src b :: r⟩) :
    Inv c ⟨{ w with log := w.log ++ [.called j src b w.stores] }, .prog q :: r⟩ := by
  have hj : j < w.next := h.old _ List.mem_cons_self
  have hmove : ∀ i z, callsFor i w.log ++ pend i (.call j src b :: r) = z →
      callsFor i (w.log ++ [.called j src b w.stores]) ++ pend i (.prog q :: r) = z := by
    intro i z hz
    rw [← hz, callsFor_append]
    cases src with
    | some l =>
      have e1 : callsFor i [Entry.called j (some l) b w.stores] = [] := rfl
      have e2 : pend i (Task.call (A := A) j (some l) b :: r) = pend i r := rfl
      have e3 : pend i (Task.prog q :: r) = pend i r := rfl
      rw [e1, e2, e3, List.append_nil]
    | none =>
      have e3 : pend i (Task.prog q :: r) = pend i r := rfl
      by_cases hji : j = i
      · have e1 : callsFor i [Entry.called j none b w.stores] = [b] := by simp [callsFor, hji]
        have e2 : pend i (Task.call (A := A) j none b :: r) = b :: pend i r := by simp [pend, hji]
        rw [e1, e2, e3, List.append_assoc]; rfl
      · have e1 : callsFor i [Entry.called j none b w.stores] = [] := by simp [callsFor, hji]
        have e2 : pend i (Task.call (A := A) j none b :: r) = pend i r := by simp [pend, hji]
        rw [e1, e2, e3, List.append_nil]
  refine ⟨?_, ?_, ?_, ?_, ?_⟩
  · show (w.log ++ [Entry.called j src b w.stores]).filterMap begun = List.range w.next
    rw [List.filterMap_append]
    have : [Entry.called j src b w.stores].filterMap begun = [] := rfl
    rw [this, List.append_nil]
    exact h.ids
  · intro y hy
    rcases List.mem_cons.1 hy with rfl | hy
    · trivial
    · exact h.old y (List.mem_cons_of_mem _ hy)
  · intro i src' a st hm
    rcases List.mem_append.1 hm with hm | hm
    · exact h.oldCalls i src' a st hm
    · have hee := List.mem_singleton.1 hm
      injection hee with h1
      subst h1
      exact hj
  · intro i t m st hm
    rcases List.mem_append.1 hm with hm | hm
    · exact hmove i _ (h.main i t m st hm)
    · cases List.mem_singleton.1 hm
  · intro i t m hm
    rcases List.mem_append.1 hm with hm | hm
    · exact hmove i _ (h.sub i t m hm)
    · cases List.mem_singleton.1 hm

theorem inv_exec (c : Config S P V) (code : Code A P V) (w : World A S P V) (x : Task A P V)
    (r : List (Task A P V)) (h : Inv c ⟨w, x :: r⟩) : Inv c ⟨(exec c code w x).1, (exec c code w x).2 ++ r⟩ := by
  have hlog0 : w.log = w.log ++ [] := (List.append_nil _).symm
  have none0 : ∀ e ∈ ([] : List (Entry S P V)), ∃ i l t m st, e = .heard i l t m st := fun e he => nomatch he
  match x, h with
  | .prog .done, h => exact inv_plain h (fun _ => rfl) (fun _ => rfl) (fun y hy => nomatch hy) rfl [] hlog0 none0
  | .prog (.get k), h =>
    exact inv_plain h (fun _ => rfl) (fun _ => rfl)
      (fun y hy => by rw [List.mem_singleton.1 hy]; trivial) rfl [] hlog0 none0
  | .prog (.put a k), h =>
    exact inv_plain h (fun _ => rfl) (fun _ => rfl)
      (fun y hy => by rw [List.mem_singleton.1 hy]; trivial) rfl [] hlog0 none0
  | .prog (.push t m k), h =>
    exact inv_plain h (fun _ => rfl) (fun _ => rfl)
      (fun y hy => by rcases List.mem_cons.1 hy with rfl | hy; trivial; rw [List.mem_singleton.1 hy]; trivial)
      rfl [] hlog0 none0
  | .prog (.submit t m k), h =>
    exact inv_plain h (fun _ => rfl) (fun _ => rfl)
      (fun y hy => by rcases List.mem_cons.1 hy with rfl | hy; trivial; rw [List.mem_singleton.1 hy]; trivial)
      rfl [] hlog0 none0
  | .prog (.look t p k), h =>
    by_cases hv : (c.ops t).view (w.stores t) p = .triggerRead
    · rw [exec_look_trigger c code w t p k hv]
      exact inv_plain h (fun _ => rfl) (fun _ => rfl)
        (fun y hy => by rcases List.mem_cons.1 hy with rfl | hy; trivial; rw [List.mem_singleton.1 hy]; trivial)
        rfl [] hlog0 none0
    · rw [exec_look_other c code w t p k hv]
      exact inv_plain h (fun _ => rfl) (fun _ => rfl)
        (fun y hy => by rw [List.mem_singleton.1 hy]; trivial) rfl [] hlog0 none0
  | .push t m, h =>
    refine inv_begin (w' := (exec c code w (.push t m)).1) (ts := (exec c code w (.push t m)).2) h (.pushed w.next t m w.stores) (mainCalls c w.stores t m) (fun _ => rfl) ?_ ?_ rfl rfl
      (.inl ⟨t, m, w.stores, rfl, rfl⟩)
    · intro i
      simp only [exec]
      rw [pend_append, pend_listen, List.append_nil]
      by_cases hi : i = w.next
      · subst hi; rw [if_pos rfl, pend_call_same]
      · rw [if_neg hi, pend_call_other _ _ (Ne.symm hi)]
    · intro y hy
      simp only [exec] at hy
      rcases List.mem_append.1 hy with hy | hy
      · obtain ⟨a, -, rfl⟩ := List.mem_map.1 hy
        exact Nat.lt_succ_self _
      · obtain ⟨a, -, rfl⟩ := List.mem_map.1 hy
        exact Nat.lt_succ_self _
  | .submit t m, h =>
    refine inv_begin (w' := (exec c code w (.submit t m)).1) (ts := (exec c code w (.submit t m)).2) h (.submitted w.next t m) [.up (c.producerOf t) t m] (fun _ => rfl) ?_ ?_ rfl rfl
      (.inr ⟨t, m, rfl, rfl⟩)
    · intro i
      by_cases hi : i = w.next
      · subst hi; rw [if_pos rfl]; exact pend_call_same _ [_]
      · rw [if_neg hi]; exact pend_call_other _ _ (Ne.symm hi) [_]
    · intro y hy
      rw [List.mem_singleton.1 hy]
      exact Nat.lt_succ_self _
  | .call i src a, h => exact inv_call h
  | .listen i l t m, h =>
    refine inv_plain (w' := (exec c code w (.listen i l t m)).1) (ts := (exec c code w (.listen i l t m)).2) h (fun _ => rfl) ?_ ?_ rfl [.heard i l t m w.stores] rfl
      (fun e he => ⟨_, _, _, _, _, List.mem_singleton.1 he⟩)
    · intro j; exact pend_src _ _ _ _
    · intro y hy
      obtain ⟨a, -, rfl⟩ := List.mem_map.1 hy
      exact h.old (.listen i l t m) List.mem_cons_self

theorem inv_start (c : Config S P V) (st : Nat → S) (a : A) (q : Prog A P V) : Inv c (start st a q) :=
  ⟨rfl, fun x hx => by rw [List.mem_singleton.1 hx]; trivial, (fun _ _ _ _ h => nomatch h), (fun _ _ _ _ h => nomatch h), (fun _ _ _ h => nomatch h)⟩

theorem inv_run (c : Config S P V) (code : Code A P V) (st : Nat → S) (a : A) (q : Prog A P V) (n : Nat) :
    Inv c (run c code n (start st a q)) :=
  run_inv c code (Inv c) (fun w x r h => inv_exec c code w x r h) n _ (inv_start c st a q)

end Nbdl.Nested
