import Verif.Holder.Model
/-!
# What a variant holder shows

C148.
-/
namespace Nbdl.Holder
open Nbdl.Variant
variable {W : World}

namespace Spec

/-- One assignment: the value and where an exception is thrown. -/
structure Step (W : World) where
  ty : W.Ty
  val : W.Val ty
  fault : Fault

/-- The state after some assignments. -/
def run (rank : W.Ty → W.Ty → Option Nat) {alts : List W.Ty} (s : Held W alts) : List (Step W) → Option (Held W alts)
  | [] => some s
  | a :: r => match assign rank a.ty a.val a.fault s with
    | none => none
    | some s' => run rank s' r

end Spec
open Spec

/-! ## The types of the examples: two kinds of numbers -/

/-- Two types of numbers, no conversions. -/
def demo : World where
  Ty := Bool
  Val _ := Nat
  empty _ := false
  equal _ a b := a == b
  conv a b := if a = b then some id else none

/-- Only a value of the very type is taken. -/
def exactRank : Bool → Bool → Option Nat := fun a b => if a = b then some 0 else none

/-- A holder of the number 3 as its first alternative. -/
def three : Held demo [false, true] := .holds ⟨⟨0, by decide⟩, (3 : Nat)⟩

/-- C148: a holder with a value gives the place of its alternative, and calls the function once with the value, provided
that the function can be called with every alternative. -/
theorem shows_exact {R : Type} {alts : List W.Ty} (f : Handler W R) (v : Var W alts) :
    matchIndex (.holds v) = v.idx.val ∧
      (∀ r, matchValue f (.holds v) = some r ↔
        (∀ t ∈ alts, f t ≠ none) ∧ ∃ g : W.Val alts[v.idx] → R, f alts[v.idx] = some g ∧ r = .returned (g v.val)) := by
  refine ⟨rfl, fun r => ?_⟩
  rw [matchValue]
  by_cases h : (alts.all fun t => (f t).isSome) = true
  · rw [if_pos h]
    have h' : ∀ t ∈ alts, f t ≠ none := by
      intro t ht
      have := List.all_eq_true.mp h t ht
      exact fun e => by rw [e] at this; simp at this
    simp only [Option.map_eq_some_iff]
    constructor
    · rintro ⟨g, hg, rfl⟩; exact ⟨h', g, hg, rfl⟩
    · rintro ⟨_, g, hg, rfl⟩; exact ⟨g, hg, rfl⟩
  · rw [if_neg h]
    constructor
    · intro e; cases e
    · rintro ⟨h', _⟩
      refine absurd (List.all_eq_true.mpr fun t ht => ?_) h
      cases e : f t with
      | none => exact absurd e (h' t ht)
      | some _ => rfl

/-- C148: a new holder holds its first alternative, as newly made. -/
theorem default_exact (init : (t : W.Ty) → W.Val t) (t : W.Ty) (alts : List W.Ty) :
    default init (t :: alts) = some (.holds ⟨⟨0, by simp⟩, init t⟩) := by
  rw [default, dif_pos (by simp)]; rfl

/-- C148: what a holder holds after an assignment that throws nothing is what was assigned. -/
theorem assigned {alts : List W.Ty} (rank : W.Ty → W.Ty → Option Nat) (t : W.Ty) (x : W.Val t) (s : Held W alts) :
    assign rank t x .none s = (Variant.make rank alts t x).map .holds := by
  rw [assign]
  cases Variant.make rank alts t x <;> rfl

/-- C148: a holder is left without a value by an assignment if and only if an exception is thrown while a value of another
alternative is moved in, or it had none before and an exception is thrown. -/
theorem valueless_exact {alts : List W.Ty} (rank : W.Ty → W.Ty → Option Nat) (t : W.Ty) (x : W.Val t) (fault : Fault)
    (s s' : Held W alts) (h : assign rank t x fault s = some s') :
    s' = .valueless ↔ ∃ new, Variant.make rank alts t x = some new ∧
      ((fault = .moving ∧ ∀ old, s = .holds old → old.idx ≠ new.idx) ∨ (fault = .making ∧ s = .valueless)) := by
  rw [assign] at h
  cases hm : Variant.make rank alts t x with
  | none => rw [hm] at h; cases h
  | some new =>
    rw [hm] at h
    simp only at h
    cases fault with
    | none =>
      cases h
      constructor
      · intro e; cases e
      · rintro ⟨_, _, h⟩; rcases h with h | h <;> cases h.1
    | making =>
      cases h
      constructor
      · intro e; exact ⟨new, rfl, .inr ⟨rfl, e⟩⟩
      · rintro ⟨_, _, h⟩
        rcases h with h | h
        · cases h.1
        · exact h.2
    | moving =>
      cases s with
      | valueless =>
        cases h
        exact ⟨fun _ => ⟨new, rfl, .inl ⟨rfl, fun _ e => by cases e⟩⟩, fun _ => rfl⟩
      | holds old =>
        simp only at h
        by_cases hi : old.idx = new.idx
        · rw [if_pos hi] at h
          cases h
          constructor
          · intro e; cases e
          · rintro ⟨n, hn, h⟩
            cases hn
            rcases h with h | h
            · exact absurd hi (h.2 old rfl)
            · cases h.1
        · rw [if_neg hi] at h
          cases h
          refine ⟨fun _ => ⟨new, rfl, .inl ⟨rfl, fun o e => ?_⟩⟩, fun _ => rfl⟩
          cases e; exact hi

/-- C148: after any assignments, the index is that of one of the alternatives if and only if the holder has a value. (There
are fewer than 2^64 - 1 alternatives.) -/
theorem index_exact {alts : List W.Ty} (hl : alts.length < 2 ^ 64) (s : Held W alts) :
    matchIndex s < alts.length ↔ ∃ v, s = .holds v := by
  cases s with
  | holds v => exact ⟨fun _ => ⟨v, rfl⟩, fun _ => v.idx.isLt⟩
  | valueless =>
    constructor
    · intro h; rw [matchIndex] at h; omega
    · rintro ⟨_, h⟩; cases h

/-- C148: after a value was put in and then any assignments that all threw an exception, the holder has lost its value if
and only if one of these was thrown while a value of another alternative was moved in; otherwise it holds the value still. -/
theorem history_exact {alts : List W.Ty} (rank : W.Ty → W.Ty → Option Nat) (v : Var W alts) (trail : List (Step W))
    (h : ∀ a ∈ trail, a.fault ≠ .none) (s : Held W alts) (hs : run rank (.holds v) trail = some s) :
    (s = .valueless ↔ ∃ a ∈ trail, a.fault = .moving ∧ ∀ new, Variant.make rank alts a.ty a.val = some new →
      new.idx ≠ v.idx) ∧ (s ≠ .valueless → s = .holds v) := by
  induction trail with
  | nil =>
    cases hs
    refine ⟨⟨fun e => ?_, fun ⟨_, e, _⟩ => ?_⟩, fun _ => rfl⟩
    · cases e
    · cases e
  | cons a r ih =>
    rw [run, assign] at hs
    have hr : ∀ b ∈ r, b.fault ≠ .none := fun b hb => h b (List.mem_cons_of_mem _ hb)
    cases hm : Variant.make rank alts a.ty a.val with
    | none => rw [hm] at hs; cases hs
    | some new =>
      rw [hm] at hs
      -- the first one changes nothing
      have keep : run rank (.holds v) r = some s → ¬ (a.fault = .moving ∧ new.idx ≠ v.idx) →
          (s = .valueless ↔ ∃ b ∈ a :: r, b.fault = .moving ∧ ∀ new, Variant.make rank alts b.ty b.val = some new →
            new.idx ≠ v.idx) ∧ (s ≠ .valueless → s = .holds v) := by
        intro hs hn
        have := ih hr hs
        refine ⟨this.1.trans ⟨fun ⟨b, hb, hx⟩ => ⟨b, List.mem_cons_of_mem _ hb, hx⟩, fun ⟨b, hb, hx⟩ => ?_⟩, this.2⟩
        rcases List.mem_cons.mp hb with rfl | hb
        · exact absurd ⟨hx.1, hx.2 new hm⟩ hn
        · exact ⟨b, hb, hx⟩
      cases hf : a.fault with
      | none => exact absurd hf (h a (List.mem_cons_self ..))
      | making =>
        rw [hf] at hs
        exact keep hs (fun e => by rw [hf] at e; cases e.1)
      | moving =>
        rw [hf] at hs
        simp only at hs
        by_cases hi : v.idx = new.idx
        · rw [if_pos hi] at hs
          exact keep hs (fun e => e.2 hi.symm)
        · rw [if_neg hi] at hs
          simp only at hs
          -- without a value it stays so
          have gone : ∀ (l : List (Step W)), (∀ b ∈ l, b.fault ≠ .none) → ∀ s, run rank (.valueless : Held W alts) l = some s →
              s = .valueless := by
            intro l
            induction l with
            | nil => intro _ s e; cases e; rfl
            | cons b l ihl =>
              intro hb s e
              rw [run, assign] at e
              cases hm' : Variant.make rank alts b.ty b.val with
              | none => rw [hm'] at e; cases e
              | some n =>
                rw [hm'] at e
                have hl := ihl (fun c hc => hb c (List.mem_cons_of_mem _ hc))
                cases hf' : b.fault with
                | none => exact absurd hf' (hb b (List.mem_cons_self ..))
                | making => rw [hf'] at e; exact hl s e
                | moving => rw [hf'] at e; exact hl s e
          have e := gone r hr s hs
          refine ⟨⟨fun _ => ⟨a, List.mem_cons_self .., hf, fun n hn => ?_⟩, fun _ => e⟩, fun h => absurd e h⟩
          rw [hm] at hn
          cases hn
          exact fun x => hi x.symm

/-- C148: the assignments up to and including one that threw nothing: the value of that one is held. -/
theorem last_assigned {alts : List W.Ty} (rank : W.Ty → W.Ty → Option Nat) (steps : List (Step W)) (a : Step W)
    (ha : a.fault = .none) (s s' : Held W alts) (hs : run rank s (steps ++ [a]) = some s') :
    ∃ new, Variant.make rank alts a.ty a.val = some new ∧ s' = .holds new := by
  induction steps generalizing s with
  | nil =>
    rw [List.nil_append, run, ha, assigned] at hs
    cases hm : Variant.make rank alts a.ty a.val with
    | none => rw [hm] at hs; cases hs
    | some new => rw [hm] at hs; cases hs; exact ⟨new, rfl, rfl⟩
  | cons b r ih =>
    rw [List.cons_append, run] at hs
    cases e : assign rank b.ty b.val b.fault s with
    | none => rw [e] at hs; cases hs
    | some t => rw [e] at hs; exact ih t hs

/-- C148: a holder whose value is gone: it gives an index that is none of its alternatives, and looking at it throws. -/
theorem index_violated : ∃ (s : Held demo [false, true]),
    run exactRank three [⟨true, (5 : Nat), .moving⟩] = some s ∧
      matchIndex s = 2 ^ 64 - 1 ∧ matchValue (Variant.any fun _ x => x) s = some (Visited.threw (R := Nat)) :=
  ⟨.valueless, rfl, rfl, rfl⟩

example : ∃ s : Held demo [false, true],
    run exactRank three [⟨true, (5 : Nat), .none⟩, ⟨false, (6 : Nat), .making⟩] = some s ∧
      matchIndex s = 1 ∧ matchValue (Variant.any fun _ x => x) s = some (Visited.returned (5 : Nat)) :=
  ⟨.holds ⟨⟨1, by decide⟩, (5 : Nat)⟩, rfl, rfl, rfl⟩

private theorem mapM_none {α β : Type} (f : α → Option β) : ∀ (l : List α), (∃ x ∈ l, f x = none) → l.mapM f = none
  | [], h => by obtain ⟨_, h, _⟩ := h; cases h
  | a :: l, h => by
    rw [List.mapM_cons]
    cases e : f a with
    | none => rfl
    | some b =>
      obtain ⟨x, hx, hn⟩ := h
      rcases List.mem_cons.mp hx with rfl | hx
      · rw [e] at hn; cases hn
      · rw [mapM_none f l ⟨x, hx, hn⟩]; rfl

/-- C148: a holder can be neither read into nor written out by a serializer: neither function compiles, not for the holder,
and not for any of the variants it could have been meant for. -/
theorem bind_violated (k : Template) (alts : List W.Ty) : bindIn k alts = none ∧ bindOut k = false := by
  refine ⟨?_, by cases k <;> decide +kernel⟩
  rw [bindIn]
  cases k with
  | stdVariant =>
    refine mapM_none _ _ ⟨alts.length, by simp, ?_⟩
    rw [alternative]; simp
  | detailVariant => rfl
  | holder => rfl

end Nbdl.Holder
