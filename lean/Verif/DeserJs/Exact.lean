import Verif.DeserJs.Props
import Verif.JsBind.Refused
/-! # Which documents the browser answers (C104) -/
namespace Nbdl.DeserJs
open _root_.Nbdl.Bind _root_.Nbdl.Deser
open JsBind (Js Engine)
open JsBind.Spec (Reads Stuck ShortBuffers)

/-- C104: a document is answered exactly once in the browser, with a message or an error, if and only if
reading it never comes to a place where parts are looked for in `null` or `undefined`, or where there is a
negative number of parts; otherwise there is no answer at all. -/
theorem answered_exact (e : Engine) (sys : Ty) (msgs : Tys) (j : Js) (hs : ShortBuffers e (varTy sys msgs) j) :
    ((deserialize e sys msgs j).length = 1 ↔ ∀ t' j', Reads e (varTy sys msgs) j t' j' → ¬ Stuck e t' j')
    ∧ (deserialize e sys msgs j = [] ↔ ∃ t' j', Reads e (varTy sys msgs) j t' j' ∧ Stuck e t' j') := by
  rw [← JsBind.js_refused_iff_partial e (varTy sys msgs) j (init (varTy sys msgs)) hs]
  have hr : (∀ t' j', Reads e (varTy sys msgs) j t' j' → ¬ Stuck e t' j') ↔
      ¬ JsBind.read e (varTy sys msgs) j (init (varTy sys msgs)) = none := by
    rw [JsBind.js_refused_iff_partial e (varTy sys msgs) j (init (varTy sys msgs)) hs]
    simp
  rw [hr]
  unfold deserialize
  split <;> simp_all

/-- Not answered: the alternative after the system message is a list, and what came for it is null. -/
example (e : Engine) :
    ∃ t' j', Reads e (varTy .str (.cons [] (.cont .int) .nil)) (.arr [.num 2, .null]) t' j' ∧ Stuck e t' j' :=
  ⟨.cont .int, .null, .there (t1 := .cont .int) (j1 := .null) ⟨rfl, rfl, 2, rfl, rfl⟩ (.here _ _),
    Or.inl ⟨rfl, Or.inr rfl⟩⟩

end Nbdl.DeserJs
