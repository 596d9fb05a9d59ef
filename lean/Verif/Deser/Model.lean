import Verif.Bind.Props
/-!
# The deserialiser of an application

Models `/repo/include/nbdl/app/serializer.hpp`.  The text is turned into a `Json::Value` by JsonCpp, which
is not part of this code base: the model takes any partial function `parse` from texts to documents.
-/
namespace Nbdl.Deser
open _root_.Nbdl.Bind

/-- The variant of messages: `unresolved` (an empty class, and what a variant holds at first), the system
message, and the other messages. -/
@[reducible] def varTy (sys : Ty) (msgs : Tys) : Ty := .var .empty (.cons [] sys msgs)

/-- What the promise calls its resolver with, serializer.hpp:64-82. -/
inductive Answer (sys : Ty) (msgs : Tys) where
  /-- `make_error("JSONCPP Parse Error")` -/
  | parseError
  /-- `make_error("Unknown Error")` -/
  | unknownError
  /-- `make_error(sys_msg)` -/
  | systemError (v : denote sys)
  /-- the message -/
  | message (v : alts msgs)

/-- `from_string`, binder/jsoncpp.hpp:338-355, into `Variant var`; `none` is an exception, which leaves `var`
as it was because `bind_variant` assigns last (variant.hpp:180-189). -/
def fromString (sys : Ty) (msgs : Tys) (parse : List Byte → Option Json) (text : List Byte) :
    Option (denote (varTy sys msgs)) :=
  match parse text with
  | none => none
  | some j => read (varTy sys msgs) j (init (varTy sys msgs))

/-- The call of `nbdl::match`, serializer.hpp:70-82. -/
def dispatch {sys : Ty} {msgs : Tys} : denote (varTy sys msgs) → List (Answer sys msgs)
  | .inl _ => [.unknownError]
  | .inr (.inl s) => [.systemError s]
  | .inr (.inr m) => [.message m]

/-- The promise of `deserializer_fn`, serializer.hpp:57-85: the calls it makes on its resolver, in order. -/
def deserialize (sys : Ty) (msgs : Tys) (parse : List Byte → Option Json) (text : List Byte) :
    List (Answer sys msgs) :=
  match fromString sys msgs parse text with
  -- the exception is caught, and execution goes on below
  | none => [.parseError] ++ dispatch (init (varTy sys msgs))
  | some v => dispatch v

/-- `serializer::serialize`, serializer.hpp:46-51, up to JsonCpp's writer: the document of a message. -/
def serialize {sys : Ty} {msgs : Tys} (m : alts msgs) : Json :=
  write (varTy sys msgs) (.inr (.inr m))

end Nbdl.Deser
