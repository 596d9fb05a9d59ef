import Verif.Concat.Model
/-!
C42: concatenation expressions denote the flat text.
-/
namespace Nbdl.Concat
namespace Spec

mutual
/-- The text an expression denotes: its strings, one after the other. -/
def text : View → List Byte
  | .leaf s => s
  | .node vs => texts vs
def texts : List View → List Byte
  | [] => []
  | v :: vs => text v ++ texts vs
end

end Spec
open Spec

/-- Replace `s.length` characters from `pos` on. -/
def splice (buf : List Byte) (pos : Nat) (s : List Byte) : List Byte :=
  buf.take pos ++ s ++ buf.drop (pos + s.length)

theorem splice_length (buf s : List Byte) (pos : Nat) (h : pos + s.length ≤ buf.length) :
    (splice buf pos s).length = buf.length := by
  simp [splice]; omega

theorem splice_splice (buf s s' : List Byte) (pos : Nat) (h : pos + s.length + s'.length ≤ buf.length) :
    splice (splice buf pos s) (pos + s.length) s' = splice buf pos (s ++ s') := by
  unfold splice
  have h1 : (buf.take pos ++ s).length = pos + s.length := by simp; omega
  rw [List.take_append_of_le_length (by omega), List.take_of_length_le (by omega)]
  have h2 : (buf.take pos ++ s ++ buf.drop (pos + s.length)).drop (pos + s.length + s'.length)
      = buf.drop (pos + (s ++ s').length) := by
    rw [List.drop_append, List.drop_of_length_le (by omega), h1, List.nil_append, List.drop_drop]
    congr 1
    simp; omega
  rw [h2]
  simp

theorem splice_nil (buf : List Byte) (pos : Nat) : splice buf pos [] = buf := by simp [splice]

mutual
/-- C42: the length is that of the text. -/
theorem length_text : (v : View) → v.length = (text v).length
  | .leaf s => by simp [View.length, text]
  | .node vs => by simp only [View.length, text]; exact lengths_texts vs
theorem lengths_texts : (vs : List View) → lengths vs = (texts vs).length
  | [] => rfl
  | v :: vs => by simp [lengths, texts, length_text v, lengths_texts vs]
end

mutual
/-- C42: copying writes the text, and nothing else, where it is told to. -/
theorem copy_text : (v : View) → (buf : List Byte) → (pos : Nat) → pos + (text v).length ≤ buf.length →
    v.copy buf pos = .ok (splice buf pos (text v))
  | .leaf s, buf, pos, h => by
    simp only [text] at h ⊢
    simp only [View.copy, copyTo, if_pos h]; rfl
  | .node vs, buf, pos, h => by
    simp only [View.copy, text] at h ⊢
    exact copies_texts vs buf pos h
theorem copies_texts : (vs : List View) → (buf : List Byte) → (pos : Nat) → pos + (texts vs).length ≤ buf.length →
    copies vs buf pos = .ok (splice buf pos (texts vs))
  | [], buf, pos, _ => by simp [copies, texts, splice_nil]
  | v :: vs, buf, pos, h => by
    simp only [texts, List.length_append] at h
    have h1 := copy_text v buf pos (by omega)
    simp only [copies, h1, Cpp.bind]
    rw [length_text v, copies_texts vs _ _ (by rw [splice_length _ _ _ (by omega)]; omega)]
    rw [splice_splice _ _ _ _ (by omega)]; rfl
end

/-- C42: `to_string` gives the text, for every expression. -/
theorem toString_text (v : View) : v.toString = .ok (text v) := by
  unfold View.toString
  rw [copy_text v _ 0 (by simp [length_text v])]
  congr 1
  unfold splice
  simp [length_text v]

theorem equalFrom_spec (s t : List Byte) (h : s.length ≤ t.length) :
    equalFrom s t = .ok (decide (t.take s.length = s)) := by
  induction s generalizing t with
  | nil => simp [equalFrom]
  | cons a s ih =>
    cases t with
    | nil => simp at h
    | cons b t =>
      simp only [List.length_cons, Nat.add_le_add_iff_right] at h
      unfold equalFrom
      split
      · rename_i hab
        subst hab
        rw [ih t h]
        simp
      · rename_i hab
        simp [Ne.symm hab]

theorem take_append_iff (a b t : List Byte) (h : a.length + b.length ≤ t.length) :
    t.take (a ++ b).length = a ++ b ↔ t.take a.length = a ∧ (t.drop a.length).take b.length = b := by
  rw [List.length_append, List.take_add]
  constructor
  · intro he
    exact List.append_inj he (by simp; omega)
  · rintro ⟨h1, h2⟩; rw [h1, h2]

mutual
/-- C42: comparing with a text that is long enough compares with the text denoted. -/
theorem equal_text : (v : View) → (t : List Byte) → (pos : Nat) → pos + (text v).length ≤ t.length →
    v.equal t pos = .ok (decide ((t.drop pos).take (text v).length = text v))
  | .leaf s, t, pos, h => by
    simp only [View.equal, text] at h ⊢
    exact equalFrom_spec s _ (by simp; omega)
  | .node vs, t, pos, h => by
    simp only [View.equal, text] at h ⊢
    exact equals_texts vs t pos h
theorem equals_texts : (vs : List View) → (t : List Byte) → (pos : Nat) → pos + (texts vs).length ≤ t.length →
    equals vs t pos true = .ok (decide ((t.drop pos).take (texts vs).length = texts vs))
  | [], t, pos, _ => by simp [equals, texts]
  | v :: vs, t, pos, h => by
    simp only [texts, List.length_append] at h
    have h1 := equal_text v t pos (by omega)
    have h2 := equals_texts vs t (pos + (text v).length) (by omega)
    simp only [equals, if_true, h1, Cpp.bind]
    rw [length_text v, if_pos (by omega)]
    have hiff := take_append_iff (text v) (texts vs) (t.drop pos) (by simp; omega)
    rw [List.drop_drop] at hiff
    by_cases hv : (t.drop pos).take (text v).length = text v
    · rw [decide_eq_true hv, h2]
      congr 1
      rw [decide_eq_decide]
      exact ⟨fun h => hiff.2 ⟨hv, h⟩, fun h => (hiff.1 h).2⟩
    · have hf : ∀ (vs : List View) (pos : Nat), equals vs t pos false = .ok false := by
        intro vs
        induction vs with
        | nil => intro pos; simp [equals]
        | cons v vs ih => intro pos; simp [equals, ih]
      rw [decide_eq_false hv, hf]
      congr 1
      symm
      rw [decide_eq_false_iff_not]
      exact fun h => hv (hiff.1 h).1
end

/-- Comparing a whole text of the same length. -/
theorem equal_whole (v : View) (t : List Byte) (h : t.length = v.length) : v.equal t 0 = .ok (decide (t = text v)) := by
  rw [length_text v] at h
  rw [equal_text v t 0 (by omega)]
  simp [← h]

/-- C42: how an expression is nested makes no difference. -/
theorem text_assoc (a b c : View) :
    text (.node [.node [a, b], c]) = text (.node [a, .node [b, c]])
      ∧ text (.node [.node [a, b], c]) = text a ++ text b ++ text c := by
  simp [text, texts]

theorem texts_append (xs ys : List View) : texts (xs ++ ys) = texts xs ++ texts ys := by
  induction xs with
  | nil => rfl
  | cons a xs ih => simp [texts, ih]

/-- C42: flattening any sub-expression keeps the text. -/
theorem text_flatten (pre vs post : List View) :
    text (.node (pre ++ .node vs :: post)) = text (.node (pre ++ vs ++ post)) := by
  simp [text, texts_append, texts]

/-- C42: what `make_string_concat_view` makes denotes its arguments one after the other. -/
theorem makeView_text (as : List Arg) : text (makeView as) = (as.map fun a => text a.toView).flatten := by
  have : ∀ as : List Arg, texts (as.map Arg.toView) = (as.map fun a => text a.toView).flatten := by
    intro as
    induction as with
    | nil => rfl
    | cons a as ih => simp [texts, ih]
  match as with
  | [] => simp [makeView, text, texts]
  | [a] => simp [makeView]
  | a :: b :: as => simp only [makeView, text]; exact this _

theorem copyAll_spec : (ss : List (List Byte)) → (buf : List Byte) → (pos : Nat) →
    pos + ss.flatten.length ≤ buf.length → copyAll ss buf pos = .ok (splice buf pos ss.flatten)
  | [], buf, pos, _ => by simp [copyAll, splice_nil]
  | s :: ss, buf, pos, h => by
    simp only [List.flatten_cons, List.length_append] at h
    simp only [copyAll, copyTo]
    rw [if_pos (by omega)]
    simp only [Cpp.bind]
    have := copyAll_spec ss (splice buf pos s) (pos + s.length) (by rw [splice_length _ _ _ (by omega)]; omega)
    rw [show buf.take pos ++ s ++ buf.drop (pos + s.length) = splice buf pos s from rfl, this,
      splice_splice _ _ _ _ (by omega)]
    rfl

/-- C42: `string_concat` gives its strings, one after the other. -/
theorem stringConcat_text (strs : List Str) : stringConcat strs = .ok (strs.map Str.view).flatten := by
  have hl : ∀ strs : List Str, (strs.map fun s => s.view.length).foldr (· + ·) 0
      = (strs.map Str.view).flatten.length := by
    intro strs
    induction strs with
    | nil => rfl
    | cons s strs ih => simp only [List.map_cons, List.foldr_cons, List.flatten_cons, List.length_append, ih]
  unfold stringConcat
  rw [hl, copyAll_spec _ _ 0 (by simp)]
  congr 1
  simp [splice]

def sample : View := .node [.leaf (ascii "/a"), .node [.leaf (ascii "/"), .node [], .leaf (ascii "b")]]
example : sample.toString = .ok (ascii "/a/b") := by rw [toString_text]; decide +kernel
example : sample.equal (ascii "x/a/b") 1 = .ok true := by decide +kernel
example : sample.equal (ascii "/a/c") 0 = .ok false := by decide +kernel

/-- C42 violated: comparing with a shorter text is undefined, whether it is a prefix (it is read past its end)
or not (the iterator is moved past its end). -/
theorem short_text_violated : sample.equal (ascii "/a") 0 = .ub ∧ sample.equal (ascii "x") 0 = .ub := by
  constructor <;> decide +kernel

/-- C42, what a part contributes: all of a `std::string` or a literal, whatever characters it has, and the characters
before the first NUL of a `char const*`. -/
theorem view_text (s : List Byte) :
    (Str.string s).view = s ∧ (Str.literal s).view = s ∧
    (0#8 ∉ s → (Str.cstr s).view = s ∧ ∀ r, (Str.cstr (s ++ 0#8 :: r)).view = s) := by
  refine ⟨rfl, rfl, fun h => ?_⟩
  have hall : ∀ b ∈ s, (decide (b ≠ 0#8)) = true := by
    intro b hb
    simp only [decide_eq_true_eq]
    rintro rfl
    exact h hb
  constructor
  · simp only [Str.view]
    have := List.takeWhile_append_of_pos (l₂ := []) hall
    simpa using this
  · intro r
    simp only [Str.view]
    rw [List.takeWhile_append_of_pos hall]
    simp

example : (Str.literal [65#8, 0#8, 66#8]).view = [65#8, 0#8, 66#8] := by decide

end Nbdl.Concat
