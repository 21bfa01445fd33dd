import Verif.Go.Slice
import Verif.Props.RouterSpec
/-!
# Route configuration with Go slices for the filter lists (C11) and method builders (C12)

`Verif.Model.Router` treats filter lists as values.  Here the same code is modelled with slices that
share backing arrays, so that a write through one slice can show up in another.  Route creation is left
out: what is modelled is which slices the calls store in `routeAction.filters`.
-/
namespace Verif.Router
open Verif.Go

/-- `router_filter.go:17-28` `filters.append`, on slices. The values appended are given as a list: they
are only read. -/
def appendH (g : Nat → Nat) (h : Heap Filter) (s : Slice) : List Filter → Heap Filter × Slice
  | [] => (h, s)
  | f :: fs =>
    if f ∈ h.read s then appendH g h s fs
    else
      let r := h.append1 g s f
      appendH g r.1 r.2 fs

/-- The loop of `remove` (`router_filter.go:32-44`). -/
def removeLoop (g : Nat → Nat) (values : List Filter) : List Filter → Heap Filter → Slice → Heap Filter × Slice
  | [], h, s => (h, s)
  | v :: vs, h, s =>
    if values.contains v then removeLoop g values vs h s
    else
      let r := h.append1 g s v
      removeLoop g values vs r.1 r.2

/-- `router_filter.go:30-46` `filters.remove`: a fresh slice of capacity `len(h)`. -/
def removeH (g : Nat → Nat) (h : Heap Filter) (s : Slice) (values : List Filter) : Heap Filter × Slice :=
  let r := h.make s.len
  removeLoop g values (h.read s) r.1 r.2

/-- `router_util.go:21-29` (and `:30`): the `filters`/`exempts` accumulated by `calcRouterArgs`, given
the argument lists of the declarations of that kind; `args.filters` starts nil. -/
def calcH (g : Nat → Nat) (h : Heap Filter) (args : List (List Filter)) : Heap Filter × Slice :=
  args.foldl (fun (r : Heap Filter × Slice) fs => appendH g r.1 r.2 fs) (h, Heap.nilSlice)

/-- Filter and exempt arguments of a method declaration and of a router (router_method.go:58-66). -/
def MethodDecl.filterArgs (m : MethodDecl) : List (List Filter) :=
  m.items.filterMap (fun i => match i with | .filter fs => some fs | _ => none)
/-- router_method.go:63-66. -/
def MethodDecl.exemptArgs (m : MethodDecl) : List (List Filter) :=
  m.items.filterMap (fun i => match i with | .exempt fs => some fs | _ => none)
/-- router_util.go:27-28. -/
def filterArgs (hs : List Handler) : List (List Filter) :=
  hs.filterMap (fun i => match i with | .filter fs => some fs | _ => none)
/-- router_util.go:29-30. -/
def exemptArgs (hs : List Handler) : List (List Filter) :=
  hs.filterMap (fun i => match i with | .exempt fs => some fs | _ => none)

/-- The method declarations in the order in which `configRoutes` stores their filters
(`router.go:300-356`): exact methods in order, then the last `All`, then the last `Any`. -/
def methodOrder (ms : List MethodDecl) : List MethodDecl :=
  ms.filter (fun m => !isAll m.method && !isAny m.method) ++
  (ms.filter (fun m => isAll m.method)).getLast?.toList ++
  (ms.filter (fun m => isAny m.method)).getLast?.toList

/-- `router.go:322`, `:342`, `:354`: `args.filters.append(mArgs.filters...).remove(mArgs.exempts...)`
for each method; returns the stored slices. Simplification: `calcRouterArgs` of `All`/`Any` runs just
before their slices are built rather than during the loop; it only allocates. -/
def methodsH (g : Nat → Nat) (f : Slice) : List MethodDecl → Heap Filter → Heap Filter × List Slice
  | [], h => (h, [])
  | m :: ms, h =>
    let mf := calcH g h m.filterArgs
    let me := calcH g mf.1 m.exemptArgs
    let a := appendH g me.1 f (me.1.read mf.2)
    let r := removeH g a.1 a.2 (a.1.read me.2)
    let rest := methodsH g f ms r.1
    (rest.1, r.2 :: rest.2)

mutual
/-- `router.go:358-441`: one nested router; `f` is `args.filters` of the enclosing call. -/
def confOneH (g : Nat → Nat) (f : Slice) : Handler → Heap Filter → Heap Filter × List Slice
  | .router path hs, h =>
    if Spec.pathSegs path = [] then (h, [])
    else
      let rf := calcH g h (filterArgs hs)
      let re := calcH g rf.1 (exemptArgs hs)
      -- rtArgs.filters = args.filters.append(rtArgs.filters...) (router.go:438)
      let a := appendH g re.1 f (re.1.read rf.2)
      -- args.filters = args.filters.remove(args.exempts...) (router.go:291)
      let r := removeH g a.1 a.2 (a.1.read re.2)
      let m := methodsH g r.2 (methodOrder (argMethods hs)) r.1
      let n := confNestedH g r.2 hs m.1
      (n.1, m.2 ++ n.2)
  | .str _, h => (h, [])
  | .filter _, h => (h, [])
  | .exempt _, h => (h, [])
  | .method _, h => (h, [])
  | .name _, h => (h, [])

/-- `router.go:358-441`: the loop over nested routers. -/
def confNestedH (g : Nat → Nat) (f : Slice) : List Handler → Heap Filter → Heap Filter × List Slice
  | [], h => (h, [])
  | x :: rest, h =>
    let a := confOneH g f x h
    let b := confNestedH g f rest a.1
    (b.1, a.2 ++ b.2)
end

/-- One `Routers(hs...)` call (`strip.go` `Routers`, `router.go:290-442`). -/
def routersH (g : Nat → Nat) (hs : List Handler) (h : Heap Filter) : Heap Filter × List Slice :=
  let rf := calcH g h (filterArgs hs)
  let re := calcH g rf.1 (exemptArgs hs)
  let r := removeH g re.1 rf.2 (re.1.read re.2)
  let m := methodsH g r.2 (methodOrder (argMethods hs)) r.1
  let n := confNestedH g r.2 hs m.1
  (n.1, m.2 ++ n.2)

/-- A sequence of `Routers` calls: the final memory and all filter slices stored in routes (app.go:95-100). -/
def registerAllH (g : Nat → Nat) : List (List Handler) → Heap Filter → Heap Filter × List Slice
  | [], h => (h, [])
  | hs :: hss, h =>
    let a := routersH g hs h
    let b := registerAllH g hss a.1
    (b.1, a.2 ++ b.2)

/-! ### Method builders (C12) -/

/-- An element of `methodParams` (`router_method.go:46`): controller, method or a chained item. -/
inductive MElem where
  | ctl (c : Controller)
  | method (m : Str)
  | item (i : MItem)
deriving DecidableEq, Repr

/-- A builder step: `Get(c)`, … (`router_method.go:68-110`), or `v.Filter(..)`/`v.Exempt(..)`/
`v.Action(..)` on the `base`-th value created so far (`router_method.go:48-66`). `Action` also stores
the controller back at index 0 (`:52`), unchanged, which is not modelled. -/
inductive BStep where
  | new (c : Controller) (m : Str)
  | chain (base : Nat) (i : MItem)
deriving DecidableEq, Repr

/-- Execute builder steps; the values created so far are `env` (router_method.go:48-110). -/
def buildH (g : Nat → Nat) : List BStep → Heap MElem → List Slice → Heap MElem × List Slice
  | [], h, env => (h, env)
  | .new c m :: ss, h, env =>
    -- composite literal `methodParams{c, m}`: length and capacity 2
    let a := h.next
    let h' : Heap MElem := ⟨a + 1, fun a' i => if a' = a then
      (if i = 0 then some (.ctl c) else if i = 1 then some (.method m) else none) else h.cell a' i⟩
    buildH g ss h' (env ++ [⟨a, 2, 2⟩])
  | .chain b i :: ss, h, env =>
    match env[b]? with
    | none => buildH g ss h env
    | some s =>
      let r := h.append1 g s (.item i)
      buildH g ss r.1 (env ++ [r.2])

end Verif.Router
