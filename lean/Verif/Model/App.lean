import Verif.Model.Context
import Verif.Model.Router
/-!
# The whole request path: app.go, default.go, router.go:123-198

`Model/Router.lean` says which action a request selects, `Model/Context.lean` how a chain of handlers runs on the
response writer of `Model/Response.lean`. Here they are put together. What filters and actions do is given by the
programs `prog` and `act` (dependency injection of their arguments is left out here; a failing one is a panic in the
program).
-/
namespace Verif.App
open Verif.Resp Verif.Ctx Verif.Router

/-- default.go:7-10 `defaultNotFound`, router_util.go:69-72 `handleStatus`; the underlying writer accepts all bytes. -/
def defaultNotFound : Act := .op (.writeHeader 404) (.op (.write b!"404 Not Found" 13) .done)

/-- app.go:16-33 `Strip`, as far as requests depend on it: the global filters (app.go:91-93), the routes and the
not-found handlers (app.go:66-68, router.go:119-121). -/
structure Strip where
  filters : List Filter
  root : Route
  notFound : List Act

/-- A handler that runs a nested context: context.go:113-130 `newNestContext` and `run`. -/
def nested (hs : List Act) : Act := .nest hs.length (fun i => hs[i.val]) .done

/-- router.go:123-198 `(*routeRoot).handle`, the innermost handler of every request. -/
def routeHandle (prog : Filter → Act) (act : RouteAction → Str → Params → Str → Act) (s : Strip) (method path : Str) : Act :=
  match handle s.root method path with
  | .notFound => nested s.notFound
  | .dispatch _ ra f ps info => nested (ra.filters.map prog ++ [act ra f ps info])

/-- app.go:102-124 `ServeHTTP`: what the client gets (the events of the underlying writer) and the panic that escapes,
if any. -/
def serve (prog : Filter → Act) (act : RouteAction → Str → Params → Str → Act) (s : Strip) (method path : Str) :
    RW × Option PVal :=
  serveHTTP (s.filters.map prog ++ [routeHandle prog act s method path])

/-- app.go:37-56 `New`. -/
def new : Strip := ⟨[], newRoot, [defaultNotFound]⟩

/-- app.go:91-93 `Filter`. -/
def Strip.filter (s : Strip) (fs : List Filter) : Strip := { s with filters := fappend s.filters fs }

/-- app.go:95-100 `Routers`; `none`: a registration panic. -/
def Strip.routers (s : Strip) (hs : List Handler) : Option Strip :=
  match Router.routers hs s.root with
  | some r => some { s with root := r }
  | none => none

/-- app.go:66-68 `NotFound`. -/
def Strip.setNotFound (s : Strip) (hs : List Act) : Strip := { s with notFound := hs }

end Verif.App
