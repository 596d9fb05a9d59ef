import Verif.Route.Model
/-!
# The navigation route

Models `/repo/include/nbdl/webui/nav_route.hpp` (lines 36-230), `/repo/include/nbdl/webui/set_route.hpp`
and the definition in `/repo/include/nbdl/fwd/webui/nav_route.hpp` (lines 36-58): a producer tied to the
address bar of the browser and two stores, one with the route as a variant (path `nav_route`), one with
its text (path `nav_route, string`).

Simplifications.
* The browser is a parameter: which `location.pathname` there is after `history.pushState` (nav_route.hpp:44-50).
  `pushState` does not fire `popstate`.  Texts are ASCII, as `pathname` is.
* A JavaScript exception, a C++ exception (`std::string` of a negative length, 80-84) and undefined behaviour
  are one outcome, `Cpp.ub`.
* Of the context (context.hpp:156-236) only what these two stores see is kept: the text store takes downstream
  updates only (context_store.hpp:46-103), the route store takes part as a listener of the text path
  (nav_route.hpp:190-209), and each change is announced to the state consumers.
-/
namespace Nbdl.Nav
open Route

/-- The browser: the `pathname` after `pushState(null, null, s)`, or `none` if that throws. -/
structure Browser where
  resolve : List Byte → Option (List Byte)

/-- The page: the route map, `Module.NBDL_WEBUI_NAV_URI_PREFIX` and the size of `std::size_t`. -/
structure Page where
  W : Nat
  routes : List Pair
  uriPrefix : List Byte

/-- The address bar and the two stores. -/
structure St where
  path : List Byte
  text : List Byte := []
  value : Option Value := none
  deriving DecidableEq, Repr

/-- Announcements to the state consumers. -/
inductive Note | text | route
  deriving DecidableEq, Repr

/-- `popstate_event_receiver::receive_event`, nav_route.hpp:78-104, with what the context does with the
message: the text store is assigned and announced; then the route store, 190-209. -/
def receive (pg : Page) (st : St) : Cpp (St × List Note) :=
  -- 80-84: the difference of the lengths becomes a `std::size_t`
  if st.path.length < pg.uriPrefix.length then .ub
  else
    let route := st.path.drop pg.uriPrefix.length
    match fromString pg.W pg.routes route with
    | .ub => .ub
    | .ok v => .ok ({ st with text := route, value := v }, [.text, .route])

/-- What `UTF8ToString` reads: up to the first NUL. -/
def upToNul (s : List Byte) : List Byte := s.takeWhile (· ≠ 0#8)

/-- `web_route_update`, nav_route.hpp:42-51 -/
def pushState (br : Browser) (pg : Page) (st : St) (route : List Byte) : Cpp St :=
  match br.resolve (pg.uriPrefix ++ upToNul route) with
  | some p => .ok { st with path := p }
  | none => .ub

/-- What can happen. -/
inductive Ev
  /-- the user goes back or forward: the location changes and `popstate` is fired -/
  | pop (path : List Byte)
  /-- an upstream update with path `nav_route`, as `set_route` sends it (set_route.hpp:18-41);
  `none` is `route_not_found` -/
  | setRoute (v : Option Value)
  /-- an upstream update with path `nav_route, string` -/
  | setText (s : List Byte)
  deriving DecidableEq, Repr

/-- One event: nav_route.hpp:68-72 for `popstate`, `send_upstream_message_impl` 158-186 for the updates. -/
def step (br : Browser) (pg : Page) (st : St) : Ev → Cpp (St × List Note)
  | .pop p => receive pg { st with path := p }
  | .setText s => (pushState br pg st s).map (·, [])
  | .setRoute none => receive pg st
  | .setRoute (some v) => (pushState br pg st (toString pg.routes v)).bind (receive pg)

/-- Any sequence of events. -/
def exec (br : Browser) (pg : Page) (st : St) : List Ev → Cpp (St × List Note)
  | [] => .ok (st, [])
  | e :: es =>
    (step br pg st e).bind fun r => (exec br pg r.1 es).map fun r' => (r'.1, r.2 ++ r'.2)

/-- A page loaded at `path`: `producer_init`, nav_route.hpp:147-156 -/
def load (pg : Page) (path : List Byte) : Cpp (St × List Note) := receive pg { path := path }

end Nbdl.Nav
