import Verif.Def.Model
/-!
# Making a context with named arguments

Models `/repo/include/nbdl/make_context.hpp` (`actor` 31–34, `make_helper` 40–53, `make_context` 58–70)
and the constructor of `/repo/include/nbdl/context.hpp` (246–255): the arguments given by name are
handed to the actors by position.

Simplifications.  A name is a type (`Def.Ty`), as in the definition of the context
(`Def.actorNames`).  `hana::type_c<void>`, the argument of an actor for which none is given, is
`none`.  A program that does not compile is `none`.
-/
namespace Nbdl.MakeContext
open Nbdl.Def

/-- `make_helper`, 40–53: for each name in the list of names of actors the argument found in the map.
`hana::make_map` (60) does not compile if a key is given twice. -/
def makeHelper {A : Type} (names : List Ty) (params : List (Ty × A)) : Option (List (Option A)) :=
  if (params.map (·.1)).Nodup then some (names.map fun n => params.lookup n) else none

/-- `make_context<Tag>(named_pairs…)`, 58–70, for a definition: the arguments of the actors, by
position. -/
def makeContext {A : Type} (ps : List ProducerMeta) (cs : List ConsumerMeta) (params : List (Ty × A)) :
    Option (List (Option A)) :=
  makeHelper (actorNames ps cs) params

end Nbdl.MakeContext
