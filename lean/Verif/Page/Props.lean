import Verif.Page.Lemmas
import Verif.Nested.Props
/-! A page that is kept by a context: properties C124 and C125. -/
namespace Nbdl.Page
open MapStore (Msg View Payload Map)
open Context (Config Actor StoreOps actorsWith Lawful mapOps)
open Nested Nested.Spec Spec
variable {A S P V : Type}

/-! ## C124: the page shows what the stores show -/

/-- C124: however messages are pushed, by programs, event handlers or actors that are being called: when
everything has returned, the page is the one its specification stands for with the stores as they are now.

Partial: the specification is one for which updates work (C48), what it shows depends on the values in the
stores only, and the paths that are shown match. -/
theorem page_follows_partial [DecidableEq P] (c : Config S P V) (hl : ∀ t, Lawful (c.ops t)) (hh : ∀ t, Honest (c.ops t))
    (code : Code A P V) (b : Nat) (hb : b ∈ actorsWith Actor.stateConsumer c)
    (x : Dom.Item (Nat → S)) (hx : Dom.Spec.Shape x) (hv : Respects (SameValues c) x) (doc : Dom.Dom) (el : Nat)
    (hroom : Dom.Room doc el x) (st : Nat → S) (a : A) (q : Prog A P V) (n : Nat)
    (hrest : (run c code n (start st a q)).tasks = [])
    (hr : ∀ s ∈ st :: seenBy b (run c code n (start st a q)).world.log, Dom.Spec.InRange s x)
    (hm : Dom.Spec.Matched (run c code n (start st a q)).world.stores x) :
    ∃ doc' ms, page b x el doc st (run c code n (start st a q)).world.log = .ok (doc', ms)
      ∧ IsPage doc el x (run c code n (start st a q)).world.stores doc' := by
  have hcur : SameValues c (lastSeen b st (run c code n (start st a q)).world.log)
      (run c code n (start st a q)).world.stores := by
    rcases current_run c hl hh code b hb st a q n with ⟨i, src, t, p, h⟩ | h
    · rw [hrest] at h; cases h
    · exact fun t p => (same_shows c t p _ _ (h t p)).symm
  have hcur' : SameValues c (run c code n (start st a q)).world.stores
      (lastSeen b st (run c code n (start st a q)).world.log) := fun t p => (hcur t p).symm
  have hm' := matched_congr hcur' x hv hm
  generalize (run c code n (start st a q)).world.stores = now at *
  unfold page
  unfold lastSeen at hcur hm'
  generalize seenBy b (run c code n (start st a q)).world.log = seen at *
  rcases List.eq_nil_or_concat seen with rfl | ⟨ss, s, rfl⟩
  · obtain ⟨h', ms, ids, e, hch, hsh, -, hot, -, -, hset⟩ := Dom.render_correct_partial x st doc el hx
      (hr st List.mem_cons_self) hroom
    refine ⟨h', ms, by simp only [Dom.render, e, Except.map, Except.bind, Dom.updates], ⟨ids, hch, ?_⟩, hot, ?_⟩
    · rw [← trees_congr hcur x hv]; exact hsh
    · exact setsOnly_congr hcur x hv hset
  · rw [List.concat_eq_append] at hcur hm' hr ⊢
    have hg : (ss ++ [s]).getLast?.getD st = s := by simp
    rw [hg] at hcur hm'
    obtain ⟨h1, m1, h2, m2, ids, e1, e2, hch, hsh, -, hot, -, -, hset⟩ :=
      Dom.update_correct_partial x st ss s doc el hx hr hm' hroom
    refine ⟨h2, m2, by rw [e1]; exact e2, ⟨ids, hch, ?_⟩, hot, ?_⟩
    · rw [← trees_congr hcur x hv]; exact hsh
    · exact setsOnly_congr hcur x hv hset

/-- A page for the examples: the number at path 5 of type 0, or that there is none. -/
def counter : Dom.Item (Nat → Map Nat Nat) :=
  .elem "p".toList [.branch (fun s => some (if (shows sample s 0 5).isSome then 1 else 0))
    [.text (.const "none".toList),
     .text (.path fun s => some (match shows sample s 0 5 with
      | some (.value v) => Dom.digits v
      | _ => []))]]

theorem counter_shape : Dom.Spec.Shape counter := by
  simp only [counter, Dom.Spec.Shape, Dom.Spec.ShapeAll, Dom.Spec.OneNode, Dom.Spec.attrNames, Dom.Spec.classNames]
  simp

theorem counter_respects : Respects (SameValues sample) counter := by
  simp only [counter, Respects, RespectsAll, RespectsText]
  refine ⟨⟨?_, trivial, ?_, trivial⟩, trivial⟩
  · intro s s' h; rw [h 0 5]
  · intro s s' h; rw [h 0 5]

theorem counter_inRange (s : Nat → Map Nat Nat) : Dom.Spec.InRange s counter := by
  simp only [counter, Dom.Spec.InRange, Dom.Spec.InRangeAll]
  refine ⟨⟨⟨_, rfl, ?_⟩, trivial, trivial, trivial⟩, trivial⟩
  split <;> decide

theorem counter_matched (s : Nat → Map Nat Nat) : Dom.Spec.Matched s counter := by
  simp only [counter, Dom.Spec.Matched, Dom.Spec.MatchedAll]
  refine ⟨?_, trivial⟩
  split
  · rw [Dom.Spec.MatchedAt, Dom.Spec.MatchedAt, Dom.Spec.Matched, Dom.Spec.MatchedText]; simp
  · rw [Dom.Spec.MatchedAt, Dom.Spec.Matched, Dom.Spec.MatchedText]; trivial

theorem counter_room : Dom.Room Dom.doc0 0 counter where
  node := by decide
  children := by simp [Dom.doc0]
  filler h := h.elim
  attrs := by simp [counter, Dom.Spec.attrNames]
  classes := by simp [counter, Dom.Spec.classNames]

/-- Actor 1 of the sample, which is a state consumer, is the renderer: a create is answered by another
consumer, and the page shows the answer. -/
def answer : Code Nat Nat Nat
  | .down 2 t (.downCreate p _) => .push t (.downUpdate p (.value 7)) .done
  | _ => .done

example : Dom.lookAt 0 (page 1 counter 0 Dom.doc0 (fun _ => MapStore.empty)
      (run sample answer 0 (start (fun _ => MapStore.empty) 0 (.push 0 (.downCreate 5 (.value 1)) .done))).world.log)
    = .seen [(8, .elem ['p']), (7, .text ['n', 'o', 'n', 'e'])] := by decide +kernel

example : (run sample answer 40 (start (fun _ => MapStore.empty) 0 (.push 0 (.downCreate 5 (.value 1)) .done))).tasks.length = 0
    ∧ 1 ∈ actorsWith Actor.stateConsumer sample
    ∧ Dom.lookAt 0 (page 1 counter 0 Dom.doc0 (fun _ => MapStore.empty)
      (run sample answer 40 (start (fun _ => MapStore.empty) 0 (.push 0 (.downCreate 5 (.value 1)) .done))).world.log)
    = .seen [(8, .elem ['p']), (7, .text ['7'])] := by decide +kernel

/-- A page that tells what is missing from what is being fetched. -/
def status : Dom.Item (Nat → Map Nat Nat) :=
  .elem "p".toList [.branch (fun s => some (match (sample.ops 0).view (s 0) 5 with
      | .unresolved => 1
      | .value _ => 2
      | _ => 0))
    [.text (.const "none".toList), .text (.const "wait".toList), .text (.const "here".toList)]]

/-- C124 does not hold for pages that tell apart what is not there and what has been requested: the
placeholder that a request leaves in the store is not made known.  The page goes on to show that there is
nothing; rendered anew it would show that the value is awaited. -/
theorem page_awaited_violated :
    (run sample (fun _ => .done : Code Nat Nat Nat) 9 (start (fun _ => MapStore.empty) 0 (.push 0 (.upRead 5) .done))).tasks.length = 0
    ∧ Dom.lookAt 0 (page 1 status 0 Dom.doc0 (fun _ => MapStore.empty) (run sample (fun _ => .done : Code Nat Nat Nat) 9
        (start (fun _ => MapStore.empty) 0 (.push 0 (.upRead 5) .done))).world.log)
      = .seen [(8, .elem ['p']), (7, .text ['n', 'o', 'n', 'e'])]
    ∧ Dom.lookAt 0 (Dom.render (run sample (fun _ => .done : Code Nat Nat Nat) 9
        (start (fun _ => MapStore.empty) 0 (.push 0 (.upRead 5) .done))).world.stores Dom.doc0 0 status)
      = .seen [(8, .elem ['p']), (7, .text ['w', 'a', 'i', 't'])] := by decide +kernel

/-! ## C125: making a context -/

theorem early_silent (q : Prog A P V) (h : Silent q) (a : A) : ∃ a', earlyProg q a = .ok a' := by
  induction h generalizing a with
  | done => exact ⟨a, rfl⟩
  | get _ ih => exact ih a a
  | put _ ih => exact ih _

/-- An action that does the same whatever the stores. -/
def Fixed (i : Dom.Instr S) : Prop := ∀ s s' h p, Dom.run s h p i = Dom.run s' h p i

mutual
theorem fixed_text : ∀ t : Dom.TextSpec S, looksText t = false → ∀ i ∈ Dom.flattenText t, Fixed i
  | .const v, _, i, hi => by
    rw [Dom.flattenText, List.mem_singleton] at hi
    subst hi; intro s s' h p; rw [Dom.run, Dom.run]
  | .path f, ht, _, _ => by rw [looksText] at ht; cases ht
  | .concat ts, ht, i, hi => by
    rw [looksText] at ht; rw [Dom.flattenText] at hi
    exact fixed_texts ts ht i hi
theorem fixed_texts : ∀ ts : List (Dom.TextSpec S), looksTexts ts = false → ∀ i ∈ Dom.flattenTexts ts, Fixed i
  | [], _, i, hi => by rw [Dom.flattenTexts] at hi; cases hi
  | t :: ts, ht, i, hi => by
    rw [looksTexts, Bool.or_eq_false_iff] at ht
    rw [Dom.flattenTexts] at hi
    rcases List.mem_append.mp hi with hi | hi
    · exact fixed_text t ht.1 i hi
    · exact fixed_texts ts ht.2 i hi
end

mutual
theorem fixed_item : ∀ x : Dom.Item S, looks x = false → ∀ i ∈ Dom.flatten x, Fixed i
  | .elem tag items, hx, i, hi => by
    rw [looks] at hx; rw [Dom.flatten] at hi
    rcases List.mem_cons.mp hi with rfl | hi
    · intro s s' h p; rw [Dom.run, Dom.run]
    · rcases List.mem_append.mp hi with hi | hi
      · exact fixed_items items hx i hi
      · rw [List.mem_singleton] at hi
        subst hi; intro s s' h p; rw [Dom.run, Dom.run]
  | .text t, hx, i, hi => by
    rw [looks] at hx; rw [Dom.flatten] at hi
    exact fixed_text t hx i hi
  | .attr n v, _, i, hi => by
    rw [Dom.flatten, List.mem_singleton] at hi
    subst hi; intro s s' h p; rw [Dom.run, Dom.run]
  | .html v, _, i, hi => by
    rw [Dom.flatten, List.mem_singleton] at hi
    subst hi; intro s s' h p; rw [Dom.run, Dom.run]
  | .noop, _, i, hi => by rw [Dom.flatten] at hi; cases hi
  | .attrDyn _ _, hx, _, _ => by rw [looks] at hx; cases hx
  | .attrIf _ _, hx, _, _ => by rw [looks] at hx; cases hx
  | .classIf _ _, hx, _, _ => by rw [looks] at hx; cases hx
  | .classWhen _ _, hx, _, _ => by rw [looks] at hx; cases hx
  | .branch _ _, hx, _, _ => by rw [looks] at hx; cases hx
  | .forEach _ _, hx, _, _ => by rw [looks] at hx; cases hx
theorem fixed_items : ∀ xs : List (Dom.Item S), looksAll xs = false → ∀ i ∈ Dom.flattenAll xs, Fixed i
  | [], _, i, hi => by rw [Dom.flattenAll] at hi; cases hi
  | x :: xs, hx, i, hi => by
    rw [looksAll, Bool.or_eq_false_iff] at hx
    rw [Dom.flattenAll] at hi
    rcases List.mem_append.mp hi with hi | hi
    · exact fixed_item x hx.1 i hi
    · exact fixed_items xs hx.2 i hi
end

theorem fixed_all (is : List (Dom.Instr S)) (hf : ∀ i ∈ is, Fixed i) (s s' : S) :
    ∀ h p, Dom.runAll s h p is = Dom.runAll s' h p is := by
  induction is with
  | nil => intro h p; rw [Dom.runAll, Dom.runAll]
  | cons i is ih =>
    intro h p
    cases p with
    | none => rw [Dom.runAll.eq_def, Dom.runAll.eq_def s']
    | some p =>
      rw [Dom.runAll, Dom.runAll]
      rw [hf i List.mem_cons_self s s' h p]
      congr 1
      funext ⟨h1, p1, m1⟩
      dsimp only
      rw [ih (fun j hj => hf j (List.mem_cons_of_mem _ hj))]

/-- C125: a page that does not look at the stores really does not: rendering it does the same whatever they
hold. -/
theorem looks_not (x : Dom.Item S) (hx : looks x = false) (s s' : S) (doc : Dom.Dom) (el : Nat) :
    Dom.render s doc el x = Dom.render s' doc el x := by
  rw [Dom.render, Dom.render, fixed_all _ (fixed_item x hx) s s']

/-- An action with a path: it looks at the stores when it is run. -/
def Spec.Looks : Dom.Instr S → Prop
  | .textPath _ | .attrDyn _ _ | .attrIf _ _ | .classIf _ _ | .classWhen _ _ | .branch _ _ | .forEach _ _ => True
  | _ => False

mutual
theorem looks_text : ∀ t : Dom.TextSpec S, looksText t = true ↔ ∃ i ∈ Dom.flattenText t, Spec.Looks i
  | .const v => by simp [looksText, Dom.flattenText, Spec.Looks]
  | .path f => by simp [looksText, Dom.flattenText, Spec.Looks]
  | .concat ts => by rw [looksText, Dom.flattenText]; exact looks_texts ts
theorem looks_texts : ∀ ts : List (Dom.TextSpec S), looksTexts ts = true ↔ ∃ i ∈ Dom.flattenTexts ts, Spec.Looks i
  | [] => by simp [looksTexts, Dom.flattenTexts]
  | t :: ts => by
    rw [looksTexts, Dom.flattenTexts, Bool.or_eq_true, looks_text t, looks_texts ts]
    simp [or_and_right, exists_or]
end

mutual
/-- C125: the pages that look at the stores are exactly those among whose actions there is one with a path. -/
theorem looks_exact : ∀ x : Dom.Item S, looks x = true ↔ ∃ i ∈ Dom.flatten x, Spec.Looks i
  | .elem tag items => by
    rw [looks, Dom.flatten, looks_all items]
    simp [or_and_right, exists_or, Spec.Looks]
  | .text t => by rw [looks, Dom.flatten]; exact looks_text t
  | .attr n v => by simp [looks, Dom.flatten, Spec.Looks]
  | .html v => by simp [looks, Dom.flatten, Spec.Looks]
  | .noop => by simp [looks, Dom.flatten]
  | .attrDyn _ _ => by simp [looks, Dom.flatten, Spec.Looks]
  | .attrIf _ _ => by simp [looks, Dom.flatten, Spec.Looks]
  | .classIf _ _ => by simp [looks, Dom.flatten, Spec.Looks]
  | .classWhen _ _ => by simp [looks, Dom.flatten, Spec.Looks]
  | .branch _ _ => by simp [looks, Dom.flatten, Spec.Looks]
  | .forEach _ _ => by simp [looks, Dom.flatten, Spec.Looks]
theorem looks_all : ∀ xs : List (Dom.Item S), looksAll xs = true ↔ ∃ i ∈ Dom.flattenAll xs, Spec.Looks i
  | [] => by simp [looksAll, Dom.flattenAll]
  | x :: xs => by
    rw [looksAll, Dom.flattenAll, Bool.or_eq_true, looks_exact x, looks_all xs]
    simp [or_and_right, exists_or]
end

/-- C125: if no constructor of an actor uses the handle it is given, and no renderer among the actors has a
page that looks at the stores, the context is made, and then producers and consumers are initialised, in
this order, with all stores in place. -/
theorem make_partial (c : Config S P V) (ctors : List (Ctor A S P V)) (init : Context.Init → Prog A P V)
    (st : Nat → S) (a : A)
    (h : ∀ q ∈ ctors, (∃ p, q = .program p ∧ Silent p) ∨ ∃ x, q = .renderer x ∧ looks x = false) :
    ∃ a', make c ctors init st a = .ok (start st a' (initProg init (Context.initActors c.actors))) := by
  have : ∀ (qs : List (Ctor A S P V)) (a : A), (∀ q ∈ qs, q ∈ ctors) → ∃ a', earlyAll qs a = .ok a' := by
    intro qs
    induction qs with
    | nil => exact fun a _ => ⟨a, rfl⟩
    | cons q qs ih =>
      intro a hq
      have h1 : ∃ a1, early q a = .ok a1 := by
        rcases h q (hq q List.mem_cons_self) with ⟨p, rfl, hp⟩ | ⟨x, rfl, hp⟩
        · exact early_silent p hp a
        · exact ⟨a, by rw [early, hp]; rfl⟩
      obtain ⟨a1, h1⟩ := h1
      obtain ⟨a2, h2⟩ := ih a1 fun y hy => hq y (List.mem_cons_of_mem _ hy)
      exact ⟨a2, by rw [earlyAll, h1]; exact h2⟩
  obtain ⟨a', ha⟩ := this ctors a fun _ h => h
  exact ⟨a', by rw [make, ha]; rfl⟩

/-- A constructor that uses the handle. -/
inductive Uses : Prog A P V → A → Prop where
  | push {t m k a} : Uses (.push t m k) a
  | submit {t m k a} : Uses (.submit t m k) a
  | look {t p k a} : Uses (.look t p k) a
  | get {k a} (h : Uses (k a) a) : Uses (.get k) a
  | put {a' k a} (h : Uses k a') : Uses (.put a' k) a

theorem early_uses (q : Prog A P V) (a : A) (h : Uses q a) : earlyProg q a = .ub := by
  induction h with
  | push => rfl
  | submit => rfl
  | look => rfl
  | get _ ih => exact ih
  | put _ ih => exact ih

/-- C125 does not hold for other actors: a context with a renderer whose page looks at the stores, or with an
actor whose constructor uses the handle, looks at stores that have not been made yet. -/
theorem make_violated (c : Config S P V) (init : Context.Init → Prog A P V) (st : Nat → S) (a : A) :
    (∀ x : Dom.Item (Nat → S), looks x = true → ∀ rest, make c (.renderer x :: rest) init st a = .ub)
    ∧ ∀ q : Prog A P V, Uses q a → ∀ rest, make c (.program q :: rest) init st a = .ub := by
  constructor
  · intro x hx rest
    simp only [make, earlyAll, early, hx, if_true, Cpp.bind, Cpp.map]
  · intro q hq rest
    simp only [make, earlyAll, early, early_uses q a hq, Cpp.bind, Cpp.map]

example : looks counter = true := by decide +kernel
example : make sample [.renderer counter] (fun _ => .done) (fun _ => MapStore.empty) (0 : Nat) = .ub :=
  (make_violated sample _ _ 0).1 counter (by decide +kernel) []
/-- A producer that remembers something, and a page that is always the same. -/
example : ∃ s, make sample [.program (.put 3 .done), .renderer (.elem "p".toList [.text (.const "hello".toList)])]
    (fun i => match i with | .consumer i => .push 0 (.upRead i) .done | .producer i => .push 0 (.upRead (10 + i)) .done) (fun _ => MapStore.empty) (0 : Nat) = .ok s
    ∧ (run sample (fun _ => .done) 30 s).tasks.length = 0
    ∧ pushes (run sample (fun _ => .done) 30 s).world.log = [(0, .upRead 10), (0, .upRead 1), (0, .upRead 2)] :=
  ⟨_, rfl, by decide +kernel⟩

end Nbdl.Page
