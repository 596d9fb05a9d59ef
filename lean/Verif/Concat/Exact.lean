import Verif.Concat.Props
/-!
# Exactly which comparisons are defined
-/
namespace Nbdl.Concat
open Spec

/-- The parts of a concatenation are looked at in order, up to the first one which differs from the
text, and that one is within the text. -/
def Spec.DiffersWithin (vs : List View) (t : List Byte) : Prop :=
  ∃ pre p post, vs = pre ++ p :: post ∧ texts pre <+: t ∧ ¬ texts pre ++ text p <+: t ∧
    (texts pre).length + (text p).length ≤ t.length

theorem equals_false (t : List Byte) : ∀ (vs : List View) (pos : Nat),
    equals vs t pos false = .ok false := by
  intro vs
  induction vs with
  | nil => intro pos; simp [equals]
  | cons v vs ih => intro pos; simp [equals, ih]

theorem prefix_drop (a b t : List Byte) (h : a <+: t) :
    a ++ b <+: t ↔ (t.drop a.length).take b.length = b := by
  obtain ⟨r, rfl⟩ := h
  rw [List.drop_left, List.prefix_append_right_inj]
  constructor
  · rintro ⟨r', rfl⟩; simp
  · intro h; exact ⟨r.drop b.length, by
      have := List.take_append_drop b.length r
      rwa [h] at this⟩

theorem equals_exact (t : List Byte) : ∀ (vs pre : List View), texts pre <+: t →
    (equals vs t (texts pre).length true = .ok true ↔ texts pre ++ texts vs <+: t) ∧
    (equals vs t (texts pre).length true = .ok false ↔
      ∃ mid p post, vs = mid ++ p :: post ∧ texts (pre ++ mid) <+: t ∧
        ¬ texts (pre ++ mid) ++ text p <+: t ∧
        (texts (pre ++ mid)).length + (text p).length ≤ t.length) := by
  intro vs
  induction vs with
  | nil => intro pre h; simp [equals, texts, h]
  | cons v vs ih =>
    intro pre h
    have hpl := h.length_le
    by_cases hfit : (texts pre).length + (text v).length ≤ t.length
    · have hv := equal_text v t (texts pre).length hfit
      have e : equals (v :: vs) t (texts pre).length true
          = equals vs t ((texts pre).length + v.length)
              (decide ((t.drop (texts pre).length).take (text v).length = text v)) := by
        rw [equals, if_pos rfl, hv]
        simp only [Cpp.bind]
        rw [if_pos (by rw [length_text]; exact hfit)]
      by_cases hm : texts pre ++ text v <+: t
      · have hd : (t.drop (texts pre).length).take (text v).length = text v :=
          (prefix_drop _ _ _ h).1 hm
        rw [e, decide_eq_true hd]
        have hp' : texts (pre ++ [v]) = texts pre ++ text v := by simp [texts_append, texts]
        have hl : (texts pre).length + v.length = (texts (pre ++ [v])).length := by
          rw [hp', length_text]; simp
        rw [hl]
        obtain ⟨i1, i2⟩ := ih (pre ++ [v]) (by rw [hp']; exact hm)
        refine ⟨i1.trans ?_, i2.trans ⟨?_, ?_⟩⟩
        · rw [hp', texts, List.append_assoc]
        · rintro ⟨mid, p, post, rfl, h1, h2, h3⟩
          exact ⟨v :: mid, p, post, rfl, by simpa using h1, by simpa using h2, by simpa using h3⟩
        · rintro ⟨mid, p, post, hvs, h1, h2, h3⟩
          cases mid with
          | nil =>
            simp only [List.nil_append, List.cons.injEq] at hvs
            obtain ⟨rfl, rfl⟩ := hvs
            exact absurd hm (by simpa using h2)
          | cons x mid =>
            simp only [List.cons_append, List.cons.injEq] at hvs
            obtain ⟨rfl, rfl⟩ := hvs
            exact ⟨mid, p, post, rfl, by simpa using h1, by simpa using h2, by simpa using h3⟩
      · have hd : ¬ (t.drop (texts pre).length).take (text v).length = text v :=
          fun hd => hm ((prefix_drop _ _ _ h).2 hd)
        rw [e, decide_eq_false hd, equals_false]
        constructor
        · simp only [Cpp.ok.injEq, Bool.false_eq_true, false_iff]
          rw [texts, ← List.append_assoc]
          exact fun hx => hm ((List.prefix_append _ _).trans hx)
        · simp only [true_iff]
          exact ⟨[], v, vs, rfl, by simpa using h, by simpa using hm, by simpa using hfit⟩
    · have e : equals (v :: vs) t (texts pre).length true = .ub := by
        rw [equals, if_pos rfl]
        cases v.equal t (texts pre).length with
        | ub => rfl
        | ok r =>
          simp only [Cpp.bind]
          rw [if_neg (by rw [length_text]; exact hfit)]
      rw [e]
      simp only [reduceCtorEq, false_iff]
      constructor
      · intro hx
        have := hx.length_le
        simp [texts] at this
        omega
      · rintro ⟨mid, p, post, hvs, h1, h2, h3⟩
        cases mid with
        | nil =>
          simp only [List.nil_append, List.cons.injEq] at hvs
          obtain ⟨rfl, rfl⟩ := hvs
          exact hfit (by simpa using h3)
        | cons x mid =>
          simp only [List.cons_append, List.cons.injEq] at hvs
          obtain ⟨rfl, rfl⟩ := hvs
          have := h1.length_le
          simp [texts_append, texts] at this
          omega

/-- C42, exactly, for concatenations: comparing says "equal" just when the text begins with the
concatenation, "different" just when a part differs and the text is long enough to hold the first
part which does; in all other cases, which are those of shorter texts, it is undefined. -/
theorem compare_exact (vs : List View) (t : List Byte) :
    ((View.node vs).equal t 0 = .ok true ↔ text (.node vs) <+: t) ∧
    ((View.node vs).equal t 0 = .ok false ↔ Spec.DiffersWithin vs t) := by
  have h := equals_exact t vs [] (by simp [texts])
  rw [View.equal, text]
  exact ⟨h.1, h.2⟩

/-- C42, exactly, for a string by itself: it is compared up to the first difference, and the
comparison is undefined just for the texts which end before there is one. -/
theorem compare_leaf_exact (s t : List Byte) :
    ((View.leaf s).equal t 0 = .ok true ↔ s <+: t) ∧
    ((View.leaf s).equal t 0 = .ub ↔ t <+: s ∧ t ≠ s) := by
  rw [View.equal, List.drop_zero]
  induction s generalizing t with
  | nil => cases t <;> simp [equalFrom]
  | cons a s ih =>
    cases t with
    | nil => simp [equalFrom]
    | cons b t =>
      unfold equalFrom
      by_cases hab : a = b
      · subst hab
        simp only [if_pos rfl, List.cons_prefix_cons, true_and]
        refine ⟨(ih t).1, (ih t).2.trans ?_⟩
        simp
      · have hba : ¬ b = a := fun h => hab h.symm
        simp [hab, hba]

/-- C42 fails: how an expression is nested does make a difference.  Of "a", "b" and "c", and a text
"x": if the first two are joined first the comparison is undefined, if the last two are it says that
the texts differ. -/
theorem nesting_violated :
    let a := View.leaf (ascii "a"); let b := View.leaf (ascii "b"); let c := View.leaf (ascii "c")
    text (.node [.node [a, b], c]) = text (.node [a, .node [b, c]]) ∧
    (View.node [.node [a, b], c]).equal (ascii "x") 0 = .ub ∧
    (View.node [a, .node [b, c]]).equal (ascii "x") 0 = .ok false := by
  refine ⟨by decide, by decide, by decide⟩

example : Spec.DiffersWithin [.leaf (ascii "/a"), .leaf (ascii "/b"), .leaf (ascii "/c")]
    (ascii "/a/x") :=
  ⟨[.leaf (ascii "/a")], .leaf (ascii "/b"), [.leaf (ascii "/c")], rfl, by decide, by decide,
    by decide⟩

end Nbdl.Concat
