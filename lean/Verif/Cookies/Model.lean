import Verif.Common
/-!
# Cookie headers

Models `/repo/include/nbdl/websocket/detail/get_auth_token.hpp` and
`/repo/include/nbdl/app/detail/cookie_parser.hpp`.  An iterator into the header is modelled by the
suffix of the header it points at.
-/
namespace Nbdl.Cookies

def semi : Byte := 59#8
def eqs : Byte := 61#8
def space : Byte := 32#8

/-- get_auth_token.hpp:24 -/
def authPrefix : List Byte := ascii "nbdl_auth="

/-- `std::find(begin, end, c)` / the suffix starting at the first `c` (empty if there is none). -/
def findSuffix (c : Byte) (l : List Byte) : List Byte := l.dropWhile (· != c)

/-- `check_auth_cookie`, get_auth_token.hpp:21-38. -/
def checkAuthCookie (cur : List Byte) : List Byte :=
  if authPrefix.isPrefixOf cur then cur.drop authPrefix.length else findSuffix semi cur

/-- `take_cookie_value`, get_auth_token.hpp:40-46. -/
def takeCookieValue (cur : List Byte) : List Byte := cur.takeWhile (· != semi)

theorem checkAuthCookie_length (cur : List Byte) : (checkAuthCookie cur).length ≤ cur.length := by
  unfold checkAuthCookie findSuffix
  split
  · simp
  · exact (List.dropWhile_suffix _).length_le

/-- The loop of `get_auth_token`, get_auth_token.hpp:56-77.  Line 59 dereferences `current` even
when it is the end iterator, which is undefined (`nul = false`); in practice the terminating NUL is
read there (`nul = true`). -/
def authLoop (nul : Bool) (cur : List Byte) : Cpp (List Byte) :=
  if _hc : cur = [] then .ok []
  else
    match h : checkAuthCookie cur with
    | [] => if nul then .ok (takeCookieValue []) else .ub
    | x :: r =>
      if x = semi then
        if (x :: r).length > 2 then authLoop nul (r.drop 1) else .ok []
      else .ok (takeCookieValue (x :: r))
termination_by cur.length
decreasing_by
  have := checkAuthCookie_length cur
  rw [h] at this
  simp only [List.length_cons, List.length_drop] at *
  omega

/-- `get_auth_token`, get_auth_token.hpp:48-78. -/
def getAuthToken (nul : Bool) (cookies : List Byte) : Cpp (List Byte) := authLoop nul cookies

/-- `std::iswspace` in the "C" locale (cookie_parser.hpp:15): space, \t, \n, \v, \f, \r.
Simplification: bytes from 0x80 on are not white space. -/
def isSpace (b : Byte) : Bool := b == 32#8 || (9 ≤ b.toNat && b.toNat ≤ 13)

/-- `remove_leading_whitespace`, cookie_parser.hpp:14-19. -/
def removeLeadingWhitespace (x : List Byte) : List Byte := x.dropWhile isSpace

/-- `skip_past`, cookie_parser.hpp:21-29. -/
def skipPast (x : List Byte) (c : Byte) : List Byte := (findSuffix c x).drop 1

/-- `trim_double_quotes`, cookie_parser.hpp:31-38. -/
def trimDoubleQuotes (x : List Byte) : List Byte :=
  if x.length > 1 ∧ x.head? = some 34#8 then (x.drop 1).dropLast else x

/-- cookie_parser.hpp:44 -/
def sessPrefix : List Byte := ascii "NBDL_SESS="

/-- `get_session_cookie`, cookie_parser.hpp:41-60. -/
def getSessionCookie (x : List Byte) : List Byte :=
  if hx : x = [] then []
  else
    let y := removeLeadingWhitespace x
    if sessPrefix.isPrefixOf y then (skipPast y eqs).takeWhile (· != semi)
    else getSessionCookie (skipPast (skipPast y eqs) semi)
termination_by x.length
decreasing_by
  have h1 : ∀ (l : List Byte) c, (skipPast l c).length ≤ l.length - 1 := by
    intro l c
    have := (List.dropWhile_suffix (l := l) (· != c)).length_le
    simp only [skipPast, findSuffix, List.length_drop]; omega
  have h2 := (List.dropWhile_suffix (l := x) isSpace).length_le
  have h3 := h1 (removeLeadingWhitespace x) eqs
  have h4 := h1 (skipPast (removeLeadingWhitespace x) eqs) semi
  have h5 := List.length_pos_iff.2 hx
  unfold removeLeadingWhitespace at *
  omega

end Nbdl.Cookies
