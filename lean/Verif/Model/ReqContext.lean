import Verif.Model.CtxValue
/-! The Go context of a request as the filters see it: app.go:102-124, context.go:44-68, 113-130,
request-logger/logger.go:131-139, and `context.WithValue` of the standard library.

A strip context embeds a Go context (context.go:31) and is itself one; the context of a route (`nestContext`) embeds the
strip context of the application (context.go:116), so that it follows it. The request in the injector carries a Go
context of its own. Simplifications: only `Value` is modelled (no deadline, no cancellation); a filter's attachments are
made before it calls `Next`, with the request it was given being the one in the injector. -/
namespace Verif.RCtx
open Verif.Ctx (Arg keyOf)

/-- A Go context: the server's, with some values; one made by `context.WithValue`; or the strip context number `i`
(0: the application's, 1: the route's) (utils/context.go:17, context.go:30-40). -/
inductive GoCtx where
  | base (vals : Ctx.Context)
  | value (k : Str) (v : Arg) (parent : GoCtx)
  | strip (i : Nat)

/-- The embedded contexts of the strip contexts, and the context of the request in the injector
(context.go:31, app.go:113-117). -/
structure St where
  obj : Nat → GoCtx
  req : GoCtx

/-- `c.Value(k)`: from the outside in; a strip context asks the context it embeds at the moment. The outer `none`: not
finished within `n` steps (`context.Context.Value`, called in utils/context.go:22). -/
def value (obj : Nat → GoCtx) : Nat → GoCtx → Str → Option (Option Arg)
  | 0, _, _ => none
  | n + 1, c, k =>
    match c with
    | .base vals => some (vals.lookup k)
    | .value k' v p => if k = k' then some (some v) else value obj n p k
    | .strip i => value obj n (obj i) k

/-- What a filter may do with the context, for a value `v` and the optional name. -/
inductive Act where
  /-- `ctx.ReplaceContext(utils.CtxWithValue(ctx.GetContext(), v, name...))` (context.go:62-68) -/
  | attach (v : Arg) (name : List Str)
  /-- request-logger/logger.go:131-139: attached to the request's context, the new request provided, and its context made
  that of the strip context -/
  | attachReq (v : Arg) (name : List Str)
  /-- `ctx.Provide(req.WithContext(utils.CtxWithValue(req.Context(), v, name...)))` -/
  | provideReq (v : Arg) (name : List Str)
  /-- `ctx.ReplaceContext(utils.CtxWithValue(ctx, v, name...))`: the strip context itself is wrapped -/
  | attachSelf (v : Arg) (name : List Str)

/-- `ReplaceContext` of the strip context `i` (context.go:66-68). -/
def replace (st : St) (i : Nat) (c : GoCtx) : St := { st with obj := fun j => if j = i then c else st.obj j }

/-- One act of a filter that was given the strip context `i`; `none`: `CtxWithValue` panics (utils/context.go:54-75). -/
def act (i : Nat) (st : St) : Act → Option St
  | .attach v name => (keyOf v name).map (fun k => replace st i (.value k v (st.obj i)))
  | .attachReq v name => (keyOf v name).map (fun k =>
      replace { st with req := .value k v st.req } i (.value k v st.req))
  | .provideReq v name => (keyOf v name).map (fun k => { st with req := .value k v st.req })
  | .attachSelf v name => (keyOf v name).map (fun k => replace st i (.value k v (.strip i)))

/-- The acts of the filters of one level, in order (context.go:89-107). -/
def acts (i : Nat) : List Act → St → Option St
  | [], st => some st
  | a :: as, st => (act i st a).bind (acts i as)

/-- The interface type `strip.Context` (context.go:8-28). -/
def contextTy : Ctx.Ty := ⟨1, b!"github.com/wujiu2020/strip", b!"Context", false⟩

/-- app.go:109-114: the request's context gets the strip context (held by the variable at address `self`), and becomes the
context of the strip context and of the request. -/
def start (vals : Ctx.Context) (self : Nat) : Option St :=
  (keyOf (.ptr contextTy (some self)) []).map (fun k =>
    ⟨fun _ => .value k (.ptr contextTy (some self)) (.base vals), .value k (.ptr contextTy (some self)) (.base vals)⟩)

/-- context.go:113-117: the context of the route embeds that of the application. -/
def enter (st : St) : St := replace st 1 (.strip 0)

/-- A request: the acts of the filters of the application, then those of the filters and the action of the route
(app.go:102-124, router.go:147, 182, 194). -/
def request (vals : Ctx.Context) (self : Nat) (outer inner : List Act) : Option St :=
  (start vals self).bind (fun st => (acts 0 outer st).bind (fun st => acts 1 inner (enter st)))

end Verif.RCtx
