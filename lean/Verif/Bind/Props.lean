import Verif.Bind.Lemmas2
/-!
C39 and C40: the JSON binder.
-/
namespace Nbdl.Bind
open Spec

/-- C40, the reader exactly: reading `j` into a fresh variable gives `v` iff `j` describes `v` in the lax
sense of the specification; every other document raises an exception. -/
theorem reader_exact (t : Ty) (j : Json) (v : denote t) :
    read t j (init t) = some v ↔ describes true t j v := read_iff_aux t j v

/-- C39: a value survives being written and read, iff it has no NUL in a string, no negative enumerator
and no empty container (and no buffer of 2^29 bytes or more) at any depth.  Only part of the property: see
the violations below. -/
theorem json_roundtrip_partial (t : Ty) (hw : Wf t) (v : denote t) :
    read t (write t v) (init t) = some v ↔ Kept t v := by
  rw [reader_exact]; exact write_iff_aux t hw v

/-- C39: the document written for such a value is the one that is meant. -/
theorem written_document_partial (t : Ty) (hw : Wf t) (v : denote t) (hk : Kept t v) :
    describes false t (write t v) v := write_means_aux t hw v hk

/-- C39: the reader gets such a value from any document that describes it. -/
theorem reader_complete_partial (t : Ty) (hw : Wf t) (j : Json) (v : denote t) (hk : Kept t v)
    (h : describes false t j v) : read t j (init t) = some v :=
  (reader_exact t j v).2 (strict_lax_aux t hw j v hk h)

/-- An entity: an id, a list of lines, an optional buffer. -/
def exTy : Ty :=
  .record (.cons (ascii "id") .uint (.cons (ascii "lines") (.cont .str)
    (.cons (ascii "data") (.var .empty (.cons [] .buf (.cons [] (.seq (.cons [] .int (.cons [] .int .nil))) .nil)))
      .nil)))

def exVal : denote exTy :=
  (7#32, [ascii "ab", []], .inr (.inr (.inl (BitVec.ofInt 32 (-1), 2#32, ()))), ())

/-- The hypotheses are met. -/
example : Wf exTy ∧ Kept exTy exVal := by
  refine ⟨⟨by decide, ?_⟩, ?_⟩
  · simp [exTy, WfAll, Wf]
  · simp [exTy, exVal, KeptAll, Kept, KeptAlt, ascii]
example : read exTy (write exTy exVal) (init exTy) = some exVal :=
  (json_roundtrip_partial exTy ⟨by decide, by simp [exTy, WfAll, Wf]⟩ exVal).2
    (by simp [exTy, exVal, KeptAll, Kept, KeptAlt, ascii])

/-- C39 violated: an empty container is written as null, which the reader refuses. -/
theorem empty_container_violated (t : Ty) :
    write (.cont t) [] = .null ∧ ∀ old, read (.cont t) (write (.cont t) []) old = none :=
  ⟨by simp [write], fun old => by simp [write, read]⟩

/-- C39 violated: a string is cut at its first NUL. -/
theorem nul_string_violated :
    read .str (write .str [97#8, 0#8, 98#8]) [] = some [97#8] := by decide +kernel

/-- C39 violated: a negative enumerator is written but not read. -/
theorem negative_enum_violated (v : denote .enum) (h : v.toInt < 0) :
    ∀ old, read .enum (write .enum v) old = none := by
  intro old
  simp only [read, write, asUInt]
  rw [if_neg (by omega)]
example : (BitVec.ofInt 32 (-1)).toInt < 0 := by decide

/-- C39 violated: reading into a container that is not empty appends. -/
theorem read_appends_violated (t : Ty) (js : List Json) (old vs : denote (.cont t))
    (h : read (.cont t) (.arr js) [] = some vs) : read (.cont t) (.arr js) old = some (old ++ vs) := by
  simp only [read] at h ⊢
  obtain ⟨l, h1, h2⟩ := Option.map_eq_some_iff.1 h
  rw [h1]
  simp at h2
  rw [← h2]; rfl
example : read (.cont .uint) (.arr [.num 1]) [5#32] = some [5#32, 1#32] :=
  read_appends_violated .uint [.num 1] [5#32] [1#32] (by decide +kernel)

/-- C40, proved part: for types made of numbers, strings, containers, sequences and records that have at
least one member, and documents without NUL, what the reader accepts does describe the value read.
Missing: types with empty parts, buffers, enumerations and variants, see below. -/
theorem reader_sound_partial (t : Ty) (hs : Strict t) (j : Json) (hn : NulFree j) (v : denote t)
    (h : read t j (init t) = some v) : describes false t j v :=
  lax_strict_aux t hs j v hn ((reader_exact t j v).1 h)

/-- …so a document that describes no value raises an exception. -/
theorem reader_rejects_partial (t : Ty) (hs : Strict t) (j : Json) (hn : NulFree j)
    (h : ∀ v, ¬ describes false t j v) : read t j (init t) = none := by
  cases hr : read t j (init t) with
  | none => rfl
  | some v => exact absurd (reader_sound_partial t hs j hn v hr) (h v)

def exStrict : Ty := .record (.cons (ascii "id") .uint (.cons (ascii "lines") (.cont .str) .nil))
example : Strict exStrict := by simp [exStrict, Strict, StrictAll]
/-- A missing member is an error. -/
example : read exStrict (.obj [(ascii "id", .num 3)]) (init exStrict) = none := by
  refine reader_rejects_partial exStrict (by simp [exStrict, Strict, StrictAll]) _ ?_ ?_
  · simp [NulFree, NulFreeMembers, NulFreeMember]
  · intro v h
    simp only [exStrict, describes, Bool.false_eq_true, if_false, describesNamed, member] at h
    obtain ⟨-, -, ⟨m, h1, js, h2, -⟩, -⟩ := h
    subst h2
    exact absurd h1 (by simp [ascii])

/-- C40 violated: an unknown alternative is accepted and leaves the variable as it is. -/
theorem unknown_alternative_violated (t : Ty) (ts : Tys) (id : Int) (hi : inInt id)
    (h : id < 0 ∨ ((names ts).length : Int) < id) (old : denote (.var t ts)) (x : Json) :
    read (.var t ts) (.num id) old = some old ∧ read (.var t ts) (.arr [.num id, x]) old = some old := by
  have h0 : ¬ id = 0 := by omega
  rw [names_length] at h
  have h1 : ¬ (0 < id ∧ id < (ts.length : Int) + 1) := by omega
  simp [read, typeId, hi, h0, h1]
example : read (.var .uint .nil) (.num 9) (.inl 5#32) = some (.inl 5#32) :=
  (unknown_alternative_violated .uint .nil 9 (by decide) (.inr (by decide)) (.inl 5#32) .null).1

/-- C40 violated: text that is not base64 is accepted as a buffer. -/
theorem bad_base64_violated : read .buf (.str (ascii "!!!!")) [] = some [0#8, 0#8, 0#8] := by decide +kernel

/-- C40 violated: a buffer of fixed size accepts text of any other size and stays as it is. -/
theorem wrong_size_violated : read (.fixed 2) (.str (ascii "AAAA")) (fun _ => 7#8) = some (fun _ => 7#8) := by
  have h : readBuffer false (.str (ascii "AAAA")) (List.ofFn fun _ : Fin 2 => 7#8) = some [7#8, 7#8] := by
    decide +kernel
  simp only [read, h, Option.map_some]
  congr 1
  funext i
  match i with
  | 0 => rfl
  | 1 => rfl

/-- C40 violated: an empty class, or a sequence of empty classes, accepts every document. -/
theorem empty_accepts_violated (j : Json) :
    read .empty j () = some () ∧ read (.seq (.cons [] .empty .nil)) j ((), ()) = some ((), ()) := by
  simp [read, Tys.count, Ty.isEmpty]

end Nbdl.Bind
