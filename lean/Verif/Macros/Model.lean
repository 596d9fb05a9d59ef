import Verif.Common

/-!
# The macros that declare entities and meta structs

Models `/repo/include/nbdl/macros/VFUNC.hpp`, `/repo/include/mpdef/MPDEF_VFUNC.hpp` (the same text
with other names), the preprocessor's part in `NBDL_ENTITY.hpp`, `NBDL_MEMBERS.hpp`,
`NBDL_MEMBER_NAMES.hpp`, `NBDL_MEMBER_IDS.hpp` and `mpdef/MPDEF_METASTRUCT.hpp`, and
`/repo/include/mpdef/metastruct.hpp`.

Simplifications:

* A text is a list of tokens. `NBDL_MEMBER`, `NBDL_MEMBER_NAME` and `NBDL_MEMBER_ID` are left
  unexpanded: what is done with one member is not part of this model.
* What the user writes is not the name of a macro.
* A macro of a table is used with its number only: pasting `##` of the table's name with a number
  gives that macro if it exists, and pasting it with anything else gives a name that is not
  declared, so the program does not compile: `none`.
-/

namespace Nbdl.Macros

/-- The tokens which appear in the replacements, numbers, and the identifiers of the user. -/
inductive Tok
  | amp | colons | comma | semi | lpar | rpar | minus | lt | gt | eq
  | member | memberName | memberId
  | kwStatic | kwConstexpr | kwAuto | atC | length
  | num (n : Nat)
  | id (x : List Byte)
deriving DecidableEq

/-- An argument of a macro: a text without a comma outside of parentheses. -/
abbrev Arg := List Tok

/-- One part of the replacement of a macro: a token, a named parameter, or a use of the macro with
number `k` of the same table, with the named parameters `ps` and then `__VA_ARGS__` if `rest`. -/
inductive Piece
  | tok (t : Tok)
  | par (i : Nat)
  | arm (k : Nat) (ps : List Nat) (rest : Bool)
deriving DecidableEq

/-- A function-like macro. -/
structure Macro where
  params : Nat
  variadic : Bool
  body : List Piece
deriving DecidableEq

/-- Macros whose names differ in the number at their end. -/
abbrev Family := List (Nat × Macro)

/-- The arguments of a use of a macro: its text is split at the commas which are not inside of
parentheses (the rule of the preprocessor, which knows no other brackets). `depth` is the number of
open parentheses. -/
def splitAux : Nat → List Tok → List Arg
  | _, [] => [[]]
  | 0, .comma :: ts => [] :: splitAux 0 ts
  | depth, t :: ts =>
    match splitAux (match t with | .lpar => depth + 1 | .rpar => depth - 1 | _ => depth) ts with
    | a :: as => (t :: a) :: as
    | [] => [[t]]

/-- The arguments in the parentheses of a use. -/
def splitArgs (ts : List Tok) : List Arg := splitAux 0 ts

/-- What `, __VA_ARGS__` adds to the arguments of a use in a replacement: an empty `__VA_ARGS__` is
an empty argument. -/
def restArgs (rest : List Arg) : List Arg :=
  match rest with
  | [] => [[]]
  | _ => rest

/-- The replacement of the macro with number `k`, and of those that are used in it. `none`: no such
macro, a wrong number of arguments, or an expansion that is nested deeper than `depth`. -/
def expand (F : Family) : Nat → Nat → List Arg → Option (List Tok)
  | 0, _, _ => none
  | depth + 1, k, args =>
    match F.lookup k with
    | none => none
    | some m =>
      if (if m.variadic then m.params ≤ args.length else m.params = args.length) then
        (m.body.mapM fun (p : Piece) =>
          match p with
          | .tok t => some [t]
          | .par i => some (args.getD i [])
          | .arm j ps rest =>
            expand F depth j (ps.map (fun i => args.getD i []) ++
              if rest then restArgs (args.drop m.params) else [])).map List.flatten
      else none

/-- `__RSEQ_N()`, `VFUNC.hpp` 20–27, `MPDEF_VFUNC.hpp` 20–27: 63 down to 0. -/
def rseqN : List Arg :=
  [63, 62, 61, 60,
   59, 58, 57, 56, 55, 54, 53, 52, 51, 50,
   49, 48, 47, 46, 45, 44, 43, 42, 41, 40,
   39, 38, 37, 36, 35, 34, 33, 32, 31, 30,
   29, 28, 27, 26, 25, 24, 23, 22, 21, 20,
   19, 18, 17, 16, 15, 14, 13, 12, 11, 10,
   9, 8, 7, 6, 5, 4, 3, 2, 1, 0].map fun n => [.num n]

/-- `__NARG__(args…)`, `VFUNC.hpp` 10–19, `MPDEF_VFUNC.hpp` 10–19: `__ARG_N` has the parameters `_1`
to `_63` and `N`, and is replaced with `N`. -/
def narg (args : List Arg) : Option Arg := (args ++ rseqN)[63]?

/-- `VFUNC(func, args…)`, `VFUNC.hpp` 30–32, `MPDEF_VFUNC.hpp` 30–32. The nesting is bounded by the
number of macros in a table. -/
def vfunc (F : Family) (args : List Arg) : Option (List Tok) :=
  match narg args with
  | some [.num k] => expand F 64 k args
  | _ => none

end Nbdl.Macros
