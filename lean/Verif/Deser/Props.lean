import Verif.Deser.Model
import Verif.Bind.Spec
/-! # Properties C54 -/
namespace Nbdl.Deser
open _root_.Nbdl.Bind _root_.Nbdl.Bind.Spec

/-- C54, the part that holds: a text that can be read is answered exactly once, with the message it holds
or with an error.  Missing: texts that cannot be read (see `answered_twice_violated`). -/
theorem answered_once_partial (sys : Ty) (msgs : Tys) (parse : List Byte → Option Json) (text : List Byte)
    (j : Json) (v : denote (varTy sys msgs)) (hp : parse text = some j) (hd : describes true (varTy sys msgs) j v) :
    deserialize sys msgs parse text = [match v with
      | .inl _ => Answer.unknownError
      | .inr (.inl s) => .systemError s
      | .inr (.inr m) => .message m] := by
  have h := (reader_exact (varTy sys msgs) j v).2 hd
  unfold deserialize fromString
  rw [hp]
  simp only
  rw [h]
  rcases v with v | v | v <;> rfl

/-- C54: a message that is written keeps its contents, provided JsonCpp parses what it writes. -/
theorem deserialize_serialize_partial (sys : Ty) (msgs : Tys) (hw : Wf (varTy sys msgs))
    (parse : List Byte → Option Json) (text : List Byte) (m : alts msgs) (hk : Kept (varTy sys msgs) (.inr (.inr m)))
    (hp : parse text = some (serialize (sys := sys) m)) :
    deserialize sys msgs parse text = [.message m] := by
  unfold deserialize fromString
  rw [hp]
  simp only
  have h := (json_roundtrip_partial (varTy sys msgs) hw (.inr (.inr m))).2 hk
  unfold serialize
  rw [h]
  rfl

/-- C54 violated: every text that is not JSON, or that holds none of the messages, is answered twice. -/
theorem answered_twice_violated (sys : Ty) (msgs : Tys) (parse : List Byte → Option Json) (text : List Byte)
    (h : ∀ j, parse text = some j → ∀ v, ¬ describes true (varTy sys msgs) j v) :
    deserialize sys msgs parse text = [.parseError, .unknownError] := by
  have hn : fromString sys msgs parse text = none := by
    unfold fromString
    cases hp : parse text with
    | none => rfl
    | some j =>
      simp only
      cases hr : read (varTy sys msgs) j (init (varTy sys msgs)) with
      | none => rfl
      | some v => exact absurd ((reader_exact _ _ _).1 hr) (h j hp v)
  unfold deserialize
  rw [hn]
  rfl

/-- Nothing else happens: there are one or two answers, and two exactly for the texts that cannot be read. -/
theorem answers (sys : Ty) (msgs : Tys) (parse : List Byte → Option Json) (text : List Byte) :
    ((deserialize sys msgs parse text).length = 1 ↔ ∃ j v, parse text = some j ∧ describes true (varTy sys msgs) j v)
      ∧ ((deserialize sys msgs parse text).length = 2 ↔ ∀ j, parse text = some j → ∀ v, ¬ describes true (varTy sys msgs) j v) := by
  by_cases h : ∃ j v, parse text = some j ∧ describes true (varTy sys msgs) j v
  · obtain ⟨j, v, hp, hd⟩ := h
    rw [answered_once_partial sys msgs parse text j v hp hd]
    simp only [List.length_singleton, true_iff]
    exact ⟨⟨j, v, hp, hd⟩, by simp only [Nat.reduceEqDiff, false_iff]; exact fun h => h j hp v hd⟩
  · have h' : ∀ j, parse text = some j → ∀ v, ¬ describes true (varTy sys msgs) j v :=
      fun j hp v hd => h ⟨j, v, hp, hd⟩
    rw [answered_twice_violated sys msgs parse text h']
    exact ⟨⟨fun hc => absurd hc (by simp), fun hc => absurd hc h⟩, fun _ => h', fun _ => rfl⟩

/-- The same without an exception: a document with an unknown index is answered once, with an error. -/
theorem unknown_index_once (sys : Ty) (msgs : Tys) (parse : List Byte → Option Json) (text : List Byte) (id : Int)
    (x : Json) (hi : inInt id) (h : id < 0 ∨ ((names msgs).length : Int) + 1 < id)
    (hp : parse text = some (.num id) ∨ parse text = some (.arr [.num id, x])) :
    deserialize sys msgs parse text = [.unknownError] := by
  have h2 := unknown_alternative_violated .empty (.cons [] sys msgs) id hi (by simpa [names] using h) (init (varTy sys msgs)) x
  unfold deserialize fromString
  rcases hp with hp | hp
  · rw [hp]; simp only; rw [h2.1]; rfl
  · rw [hp]; simp only; rw [h2.2]; rfl

/-! A message `uint`, a system message that is a string. -/
def exParse (t : List Byte) : Option Json :=
  if t = ascii "[2,7]" then some (.arr [.num 2, .num 7])
  else if t = ascii "[1,\"no\"]" then some (.arr [.num 1, .str (ascii "no")])
  else if t = ascii "99" then some (.num 99)
  else if t = ascii "[2,\"no\"]" then some (.arr [.num 2, .str (ascii "no")]) else none

example : deserialize .str (.cons [] .uint .nil) exParse (ascii "[2,7]") = [.message (.inl 7#32)] :=
  deserialize_serialize_partial .str (.cons [] .uint .nil) (by simp [Wf, WfAll, varTy, Tys.length]) exParse (ascii "[2,7]") (.inl 7#32)
    (by simp [Kept, KeptAlt]) (by
      have : exParse (ascii "[2,7]") = some (.arr [.num 2, .num 7]) := by rfl
      rw [this]; rfl)
example : deserialize .str (.cons [] .uint .nil) exParse (ascii "{") = [.parseError, .unknownError] :=
  answered_twice_violated _ _ _ _ (fun j h => by
    have : exParse (ascii "{") = none := by rfl
    rw [this] at h; exact absurd h (by simp))
example : deserialize .str (.cons [] .uint .nil) exParse (ascii "[2,\"no\"]") = [.parseError, .unknownError] := by rfl
example : deserialize .str (.cons [] .uint .nil) exParse (ascii "99") = [.unknownError] := by rfl

end Nbdl.Deser
