import Verif.TupleLike.Props
/-! C150: `bind_sequence`. -/
namespace Nbdl.TupleLike
open Spec

theorem assigned_types (emp : Ty → Bool) {vs as new vs' : List Val} (h : Handed emp vs as) (a : Assigned emp vs new vs')
    (ht : new.map Val.ty = as.map Val.ty) : vs'.map Val.ty = vs.map Val.ty := by
  induction h generalizing new vs' with
  | nil => cases a; rfl
  | empty e hr _ ih =>
    cases a with
    | empty _ _ a => simp [ih a ht]
    | emptyRef => exact absurd rfl (hr _)
    | arg e' => rw [e] at e'; cases e'
    | argRef => exact absurd rfl (hr _)
  | emptyRef e _ ih =>
    cases a with
    | empty _ hr => exact absurd rfl (hr _)
    | emptyRef _ a => simp [ih a ht]
    | arg _ hr => exact absurd rfl (hr _)
    | argRef e' => rw [e] at e'; cases e'
  | arg e hr _ ih =>
    cases a with
    | empty e' => rw [e] at e'; cases e'
    | emptyRef => exact absurd rfl (hr _)
    | arg _ _ a =>
      simp only [List.map_cons, List.cons.injEq] at ht
      simp [ih a ht.2, ht.1]
    | argRef => exact absurd rfl (hr _)
  | argRef e _ ih =>
    cases a with
    | empty _ hr => exact absurd rfl (hr _)
    | emptyRef e' => rw [e] at e'; cases e'
    | arg _ hr => exact absurd rfl (hr _)
    | argRef _ a =>
      simp only [List.map_cons, List.cons.injEq] at ht
      simp [ih a ht.2, ht.1, Val.ty]

/-- C150: the function is called once, with the elements that are not empty, in order (for reference wrappers, what they refer
to); what it returns is returned, and what it assigns to its arguments is then in the elements, of which no other changes. -/
theorem bound_exact {R : Type} (h : Headers) (emp : Ty → Bool) (v : Val) (f : List Val → List Val × R) (hc : Compound v)
    (ha : (∃ t vs, v = .array t vs) → h.array = false) :
    ∃ as, Handed emp (elements v) as ∧ (∀ as', Handed emp (elements v) as' → as' = as) ∧
      ((f as).1.map Val.ty = as.map Val.ty →
        ∃ v', bindSequence h emp v f = some (v', (f as).2) ∧ Assigned emp (elements v) (f as).1 (elements v') ∧ v'.ty = v.ty) := by
  have hh := args_handed emp (elements v)
  refine ⟨args emp (elements v), hh, fun as' h' => h'.unique hh, fun ht => ?_⟩
  have hl : (f (args emp (elements v))).1.length = (args emp (elements v)).length := by
    simpa using congrArg List.length ht
  have hs := assigned_spec emp (elements v) _ hl
  have hn := assigned_length emp (elements v) (f (args emp (elements v))).1
  refine ⟨withElements v (assigned emp (elements v) (f (args emp (elements v))).1), ?_, ?_, ?_⟩
  · rw [bindSequence, if_pos ((bindable_iff h v).2 ⟨hc, ha⟩)]
  · rw [elements_with v _ hc hn]; exact hs
  · have hty := assigned_types emp hh hs ht
    generalize assigned emp (elements v) (f (args emp (elements v))).1 = l at hn hty
    cases v <;> simp only [Compound] at hc
    case tuple => simpa [withElements, Val.ty, elements] using hty
    case seq => simpa [withElements, Val.ty, elements] using hty
    case array => simp only [withElements, Val.ty, Ty.array.injEq, true_and]; exact hn
    case pair =>
      match l, hn with
      | [a, b], _ => simpa [withElements, Val.ty, elements] using hty
    case prod =>
      match l, hn with
      | [a, b], _ => simpa [withElements, Val.ty, elements] using hty

/-- C150, exactly: it compiles for tuples, pairs, arrays and sequences, but not for an array if Hana's adapter for arrays is
included. -/
theorem bindable_exact {R : Type} (h : Headers) (emp : Ty → Bool) (v : Val) (f : List Val → List Val × R) :
    (bindSequence h emp v f).isSome ↔ Compound v ∧ ((∃ t vs, v = .array t vs) → h.array = false) := by
  rw [← bindable_iff, bindSequence]
  split <;> simp_all

theorem handed_same {emp : Ty → Bool} {vs as vs' : List Val} (h : Handed emp vs as) (a : Assigned emp vs as vs') : vs' = vs := by
  induction h generalizing vs' with
  | nil => cases a; rfl
  | empty e hr _ ih =>
    cases a with
    | empty _ _ a => rw [ih a]
    | emptyRef => exact absurd rfl (hr _)
    | arg e' => rw [e] at e'; cases e'
    | argRef => exact absurd rfl (hr _)
  | emptyRef e _ ih =>
    cases a with
    | empty _ hr => exact absurd rfl (hr _)
    | emptyRef _ a => rw [ih a]
    | arg _ hr => exact absurd rfl (hr _)
    | argRef e' => rw [e] at e'; cases e'
  | arg e hr _ ih =>
    cases a with
    | empty e' => rw [e] at e'; cases e'
    | emptyRef => exact absurd rfl (hr _)
    | arg _ _ a => rw [ih a]
    | argRef => exact absurd rfl (hr _)
  | argRef e _ ih =>
    cases a with
    | empty _ hr => exact absurd rfl (hr _)
    | emptyRef e' => rw [e] at e'; cases e'
    | arg _ hr => exact absurd rfl (hr _)
    | argRef _ a => rw [ih a]

/-- C150: a function that assigns nothing leaves the object as it was. -/
theorem bind_reads {R : Type} (h : Headers) (emp : Ty → Bool) (v : Val) (g : List Val → R) (v' : Val) (r : R)
    (hb : bindSequence h emp v (fun as => (as, g as)) = some (v', r)) : v' = v := by
  obtain ⟨hc, ha⟩ := (bindable_exact h emp v _).1 (by rw [hb]; rfl)
  have hh := args_handed emp (elements v)
  have hs := handed_same hh (assigned_spec emp (elements v) _ rfl)
  rw [bindSequence, if_pos ((bindable_iff h v).2 ⟨hc, ha⟩)] at hb
  simp only [hs, Option.some.injEq, Prod.mk.injEq] at hb
  rw [← hb.1]
  cases v <;> rfl

/-- C149, C150: what was assigned is then read: if no element of a tuple is empty, or refers to another object, then the
element of each number is what the function assigned to the argument of that number. -/
theorem bind_get {R : Type} (h : Headers) (emp : Ty → Bool) (v : Val) (f : List Val → List Val × R)
    (hp : Plain h v) (he : ∀ e ∈ elements v, emp e.ty = false ∧ ∀ w, e ≠ .ref w)
    (hf : (f (elements v)).1.length = (elements v).length)
    (hn : ∀ e ∈ (f (elements v)).1, ¬ Plain h e ∧ ∀ w, e ≠ .ref w) :
    ∃ v', bindSequence h emp v f = some (v', (f (elements v)).2) ∧
      ∀ i, get h v' (.indexV i) = (f (elements v)).1[i]? := by
  have hc : Compound v := by cases v <;> simp_all [Plain, Compound]
  have ha : (∃ t vs, v = .array t vs) → h.array = false := by rintro ⟨t, vs, rfl⟩; exact hp
  have hargs : ∀ vs : List Val, (∀ e ∈ vs, emp e.ty = false ∧ ∀ w, e ≠ .ref w) → args emp vs = vs := by
    intro vs
    induction vs with
    | nil => intro _; rfl
    | cons a vs ih =>
      intro h
      have h1 := h a List.mem_cons_self
      have h2 := ih fun e he => h e (List.mem_cons_of_mem _ he)
      rw [args] at h2
      rw [args, List.map_cons, List.filter_cons, unref_not_ref h1.2, h1.1]
      simp [h2]
  have hass : ∀ (vs new : List Val), (∀ e ∈ vs, emp e.ty = false ∧ ∀ w, e ≠ .ref w) → new.length = vs.length →
      assigned emp vs new = new := by
    intro vs
    induction vs with
    | nil => intro new _ hl; rw [assigned]; exact (List.length_eq_zero_iff.1 hl).symm
    | cons a vs ih =>
      intro new h hl
      match new, hl with
      | x :: new, hl =>
        have h1 := h a List.mem_cons_self
        have h2 := ih new (fun e he => h e (List.mem_cons_of_mem _ he)) (by simpa using hl)
        have h3 : assignTo a x = x := by cases a <;> first | rfl | exact absurd rfl (h1.2 _)
        rw [assigned, unref_not_ref h1.2, h1.1, h2, h3]
        simp
  refine ⟨withElements v (f (elements v)).1, ?_, fun i => ?_⟩
  · rw [bindSequence, if_pos ((bindable_iff h v).2 ⟨hc, ha⟩), hargs _ he]
    simp only []
    rw [hass _ _ he hf]
  · have hpl : Plain h (withElements v (f (elements v)).1) := by
      generalize (f (elements v)).1 = l at hf
      cases v <;> simp only [Plain] at hp
      case tuple => exact hp
      case array => exact hp
      case pair =>
        match l, hf with
        | [a, b], _ => exact hp
    have hel := elements_with v _ hc hf
    have hak : applyKey h (withElements v (f (elements v)).1) (.indexV i) = (f (elements v)).1[i]? := by
      generalize withElements v (f (elements v)).1 = u at hpl hel
      rw [← hel]
      cases u <;> simp only [Plain] at hpl <;> simp [applyKey, Val.ty, getImpl, hpl]
    rw [get, hak]
    cases hx : (f (elements v)).1[i]? with
    | none => rfl
    | some e =>
      have := hn e (List.mem_of_getElem? hx)
      exact (open1_iff h e e).2 ⟨this.1, .element _ this.2⟩

/-- C150 violated: an element that is a reference wrapper is not handed on, but what it refers to; an empty one not at all. -/
theorem wrapper_violated : ∃ (v : Val) (emp : Ty → Bool), elements v = [.ref (.leaf tInt 5), .leaf tTag 0]
    ∧ ∀ h, bindSequence h emp v (fun as => (as, as)) = some (v, [.leaf tInt 5]) := by
  refine ⟨.tuple [.ref (.leaf tInt 5), .leaf tTag 0], fun t => t.same (.leaf tTag), rfl, fun h => ?_⟩
  simp [bindSequence, bindable, Val.ty, args, elements, unref, unwrap, Ty.same, tTag, tInt, withElements, assigned, assignTo]

/-- C150 violated: with uid.hpp an array is no sequence any more. -/
theorem array_violated {R : Type} (h : Headers) (emp : Ty → Bool) (t : Ty) (vs : List Val) (f : List Val → List Val × R) :
    bindSequence { h with array := true } emp (.array t vs) f = none := by
  simp [bindSequence, bindable, Val.ty]

/-- The test, test/nbdl/core/tuple_like.cpp:37-48: the function gets the number and the string, and not the empty object. -/
example : bindSequence exHeaders (fun t => t.same (.leaf tTag)) exState (fun as => (as, as))
    = some (exState, [.leaf tInt 5, .leaf tString 7]) := by
  simp [exState, exHeaders, bindSequence, bindable, Val.ty, args, elements, unref, unwrap, Ty.same, tTag, tInt, tString,
    withElements, assigned, assignTo]

/-- Assigning 6 to the number. -/
example : bindSequence exHeaders (fun t => t.same (.leaf tTag)) exState (fun as => (.leaf tInt 6 :: as.tail, ()))
    = some (.tuple [.leaf tInt 6, .leaf tString 7, .leaf tTag 0], ()) := by
  simp [exState, exHeaders, bindSequence, bindable, Val.ty, args, elements, unref, unwrap, Ty.same, tTag, tInt, tString,
    withElements, assigned, assignTo]

end Nbdl.TupleLike
