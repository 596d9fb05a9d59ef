import Verif.Cookies.Model
/-! What a cookie header is (RFC 6265 section 4.2.1: `name=value` pairs joined by `"; "`). -/
namespace Nbdl.Cookies.Spec

/-- A cookie: a name and possibly a value. -/
structure Cookie where
  name : List Byte
  value : Option (List Byte)
  deriving DecidableEq, Repr

def Cookie.render (c : Cookie) : List Byte :=
  match c.value with
  | some v => c.name ++ ascii "=" ++ v
  | none => c.name

def render : List Cookie → List Byte
  | [] => []
  | [c] => c.render
  | c :: cs => c.render ++ ascii "; " ++ render cs

/-- White space: tab, line feed, vertical tab, form feed, carriage return and blank. -/
def white : List Byte := [9#8, 10#8, 11#8, 12#8, 13#8, 32#8]

/-- Neither names nor values contain `;`, names contain no `=` and no white space and are not
empty. -/
def WF (c : Cookie) : Prop :=
  c.name ≠ [] ∧ (∀ b ∈ c.name, b ≠ 59#8 ∧ b ≠ 61#8 ∧ b ∉ white)
    ∧ ∀ v, c.value = some v → ∀ b ∈ v, b ≠ 59#8

/-- The value of the first cookie of that name, empty if there is none. -/
def firstValue (name : List Byte) (cs : List Cookie) : List Byte :=
  match cs.find? (fun c => c.name = name ∧ c.value.isSome) with
  | some c => c.value.getD []
  | none => []

/-- The cookies after the next one that has a value. -/
def afterNextValued : List Cookie → List Cookie
  | [] => []
  | c :: cs => if c.value.isSome then cs else afterNextValued cs

theorem afterNextValued_length (cs : List Cookie) : (afterNextValued cs).length ≤ cs.length - 1 := by
  induction cs with
  | nil => simp [afterNextValued]
  | cons c cs ih =>
    unfold afterNextValued
    split
    · simp
    · simp only [List.length_cons]; omega

/-- The cookies the session parser looks at: a cookie without a value hides everything up to and
including the next cookie that has one. -/
def visible : List Cookie → List Cookie
  | [] => []
  | c :: cs =>
    if c.value.isSome then c :: visible cs
    else visible (afterNextValued cs)
termination_by cs => cs.length
decreasing_by
  · simp
  · have := afterNextValued_length cs; simp only [List.length_cons]; omega

end Nbdl.Cookies.Spec
