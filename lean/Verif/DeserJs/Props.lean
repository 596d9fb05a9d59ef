import Verif.DeserJs.Model
import Verif.Deser.Props
import Verif.JsBind.Props
/-! # Properties of messages between browser and server (C104) -/
namespace Nbdl.DeserJs
open _root_.Nbdl.Bind _root_.Nbdl.Deser
open JsBind (Js Engine toServer toClient)
open JsBind.Spec (Sane Holds texts up down)

theorem deserialize_message (e : Engine) (sys : Ty) (msgs : Tys) (j : Js) (m : alts msgs) :
    deserialize e sys msgs j = [.message m] ↔
      JsBind.read e (varTy sys msgs) j (init (varTy sys msgs)) = some (.inr (.inr m)) := by
  unfold deserialize
  split
  · next h => simp [h]
  · next v h => rw [h]; simp
  · next v h => rw [h]; simp
  · next v h => rw [h]; simp

/-- C104: a message that the server writes is the one answer in the browser, iff its strings are ASCII and its
containers not empty.  Only part of the property: see the violations below and those of C81. -/
theorem server_to_browser_partial {e : Engine} (he : Sane e) (sys : Ty) (msgs : Tys)
    (hw : JsBind.Spec.Wf (varTy sys msgs)) (m : alts msgs) (hv : Holds texts (varTy sys msgs) (.inr (.inr m))) :
    deserialize e sys msgs (toClient e (Deser.serialize (sys := sys) m)) = [.message m] ↔
      Holds down (varTy sys msgs) (.inr (.inr m)) := by
  rw [deserialize_message]
  exact JsBind.to_client_partial he (varTy sys msgs) hw (.inr (.inr m)) hv

/-- C104: a message that the browser writes is the one answer on the server, iff its unsigned numbers are less than 2^31,
its enumerators not negative and its strings without NUL.  Only part of the property: see C80. -/
theorem browser_to_server_partial {e : Engine} (he : Sane e) (sys : Ty) (msgs : Tys)
    (hw : JsBind.Spec.Wf (varTy sys msgs)) (m : alts msgs) (hv : Holds texts (varTy sys msgs) (.inr (.inr m)))
    (parse : List Byte → Option Json) (text : List Byte)
    (hp : parse text = some (toServer e (serialize e (sys := sys) m))) :
    Deser.deserialize sys msgs parse text = [.message m] ↔ Holds up (varTy sys msgs) (.inr (.inr m)) := by
  rw [← JsBind.to_server_partial he (varTy sys msgs) hw (.inr (.inr m)) hv]
  unfold Deser.deserialize fromString serialize at *
  rw [hp]
  simp only
  cases Bind.read (varTy sys msgs) (toServer e (JsBind.write e (varTy sys msgs) (.inr (.inr m))))
      (init (varTy sys msgs)) with
  | none => simp
  | some v =>
    rcases v with v | v | v
    · simp [dispatch]
    · simp [dispatch]
    · simp [dispatch]

/-- C104: a system message is an error with this system message on the other side: from the server to the browser iff
its strings are ASCII and its containers not empty, from the browser to the server iff its unsigned numbers are less
than 2^31, its enumerators not negative and its strings without NUL. -/
theorem system_message_partial {e : Engine} (he : Sane e) (sys : Ty) (msgs : Tys)
    (hw : JsBind.Spec.Wf (varTy sys msgs)) (s : denote sys) (hv : Holds texts (varTy sys msgs) (.inr (.inl s))) :
    (deserialize e sys msgs (toClient e (Bind.write (varTy sys msgs) (.inr (.inl s)))) = [.systemError s] ↔
      Holds down (varTy sys msgs) (.inr (.inl s))) ∧
    (∀ (parse : List Byte → Option Json) (text : List Byte),
      parse text = some (toServer e (JsBind.write e (varTy sys msgs) (.inr (.inl s)))) →
      (Deser.deserialize sys msgs parse text = [.systemError s] ↔ Holds up (varTy sys msgs) (.inr (.inl s)))) := by
  constructor
  · rw [← JsBind.to_client_partial he (varTy sys msgs) hw (.inr (.inl s)) hv]
    unfold deserialize
    split
    · next h => simp [h]
    · next v h => rw [h]; simp
    · next v h => rw [h]; simp
    · next v h => rw [h]; simp
  · intro parse text hp
    rw [← JsBind.to_server_partial he (varTy sys msgs) hw (.inr (.inl s)) hv]
    unfold Deser.deserialize fromString
    rw [hp]
    simp only
    cases Bind.read (varTy sys msgs) (toServer e (JsBind.write e (varTy sys msgs) (.inr (.inl s))))
        (init (varTy sys msgs)) with
    | none => simp
    | some v =>
      rcases v with v | v | v
      · simp [dispatch]
      · simp [dispatch]
      · simp [dispatch]

example : Holds down (varTy .uint (.cons [] .str .nil)) (.inr (.inl 5#32)) := by
  simp [Holds, JsBind.Spec.HoldsAlt, down]
example : Holds texts (varTy .uint (.cons [] .str .nil)) (.inr (.inl 5#32)) := by
  simp [Holds, JsBind.Spec.HoldsAlt, texts]

/-- C104: the browser never answers a document twice; it answers once with an error every document of an unknown
message, null, and the empty array. -/
theorem browser_answers (e : Engine) (sys : Ty) (msgs : Tys) :
    (∀ j, (deserialize e sys msgs j).length ≤ 1) ∧
    (∀ id : Int, -2 ^ 31 ≤ id → id < 2 ^ 31 → id < 0 ∨ ((Spec.names msgs).length : Int) + 1 < id →
      deserialize e sys msgs (.num id) = [.unknownError]) ∧
    deserialize e sys msgs .null = [.unknownError] ∧ deserialize e sys msgs (.arr []) = [.unknownError] := by
  refine ⟨fun j => ?_, fun id h1 h2 h => ?_, rfl, rfl⟩
  · unfold deserialize
    split <;> simp
  · have := (JsBind.js_variant_violated e .empty (.cons [] sys msgs) (init (varTy sys msgs))).1 id h1 h2
      (by simpa [Spec.names] using h)
    unfold deserialize
    rw [this]
    rfl

/-- C104 violated: if reading raises an exception, there is no answer at all; so it is for every empty container that
the server sends. -/
theorem browser_no_answer_violated (e : Engine) (sys : Ty) (n : Name) (t : Ty) (ms : Tys) :
    (∀ msgs j, JsBind.read e (varTy sys msgs) j (init (varTy sys msgs)) = none → deserialize e sys msgs j = []) ∧
    deserialize e sys (.cons n (.cont t) ms)
      (toClient e (Deser.serialize (sys := sys) (msgs := .cons n (.cont t) ms) (.inl []))) = [] := by
  have h : ∀ msgs j, JsBind.read e (varTy sys msgs) j (init (varTy sys msgs)) = none →
      deserialize e sys msgs j = [] := fun msgs j h => by unfold deserialize; rw [h]
  refine ⟨h, h _ _ ?_⟩
  have hj : toClient e (Deser.serialize (sys := sys) (msgs := .cons n (.cont t) ms) (.inl [])) =
      .arr [.num 2, .null] := rfl
  have hl : (.cons [] sys (.cons n (.cont t) ms) : Tys).length = ms.length + 2 := rfl
  have hi : JsBind.typeId e (.arr [.num 2, .null]) = 2 := rfl
  rw [hj, varTy, JsBind.read, hi, if_neg (by decide), if_pos (by rw [hl]; omega)]
  rfl

/-! A message that is a list of numbers, a system message that is a string. -/
example : deserialize JsBind.exEngine .str (.cons [] (.cont .uint) .nil) (.arr [.num 2, .arr [.num 5, .num 6]]) =
    [.message (.inl [5#32, 6#32])] := rfl
example : Deser.serialize (sys := .str) (msgs := .cons [] (.cont .uint) .nil) (.inl [5#32]) =
    .arr [.num 2, .arr [.num 5]] := rfl
example : JsBind.Spec.Wf (varTy .str (.cons [] (.cont .uint) .nil)) := by
  simp [JsBind.Spec.Wf, JsBind.Spec.WfAll, Spec.names]
example : Holds down (varTy .str (.cons [] (.cont .uint) .nil)) (.inr (.inr (.inl [5#32]))) := by
  simp [Holds, JsBind.Spec.HoldsAlt, down]
example : Holds texts (varTy .str (.cons [] (.cont .uint) .nil)) (.inr (.inr (.inl [5#32]))) := by
  simp [Holds, JsBind.Spec.HoldsAlt, texts]

end Nbdl.DeserJs
