import Verif.Deser.Model
import Verif.JsBind.Model
/-!
# The deserialiser of an application in the browser

Models `/repo/include/nbdl/app/serializer_js.hpp` on top of `Verif/JsBind` (`binder/js.hpp`).  The calls on the resolver
are those of `Verif/Deser` (`parseError` does not occur here).
-/
namespace Nbdl.DeserJs
open _root_.Nbdl.Bind _root_.Nbdl.Deser
open JsBind (Js Engine)

/-- `serializer::serialize`, serializer_js.hpp:31-36: the value of a message.  (The object keeps one `js::val`; `bind_to`
replaces what it held.) -/
def serialize (e : Engine) {sys : Ty} {msgs : Tys} (m : alts msgs) : Js :=
  JsBind.write e (varTy sys msgs) (.inr (.inr m))

/-- The promise of `deserializer_fn`, serializer_js.hpp:41-68: the calls it makes on its resolver.  The variant holds
`unresolved` at first; an exception of `bind_from` is not caught, so that no call is made. -/
def deserialize (e : Engine) (sys : Ty) (msgs : Tys) (j : Js) : List (Answer sys msgs) :=
  match JsBind.read e (varTy sys msgs) j (init (varTy sys msgs)) with
  | none => []
  -- 51-65
  | some (.inl _) => [.unknownError]
  | some (.inr (.inl s)) => [.systemError s]
  | some (.inr (.inr m)) => [.message m]

end Nbdl.DeserJs
