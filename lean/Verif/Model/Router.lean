import Verif.Go.Path
/-!
# Model of the router (`router.go`, `router_util.go`, `router_method.go`, `router_filter.go`,
`router_action.go`)

* A filter is represented by the identity of the function value it was made from
  (`router_filter.go:21`, `:36` compare `reflect.Value`s, i.e. closure pointers; see `Model/FilterKind` for filters that are not functions).
* A controller is represented by an identity, its kind and the names of its action methods.
* The mutable tree of `*route` is an inductive tree; the `parent` pointer (`router.go:212`), only used
  by `calcPath`, is represented by the list `chain` of the path segments of the node and its
  ancestors, which is what following `parent` yields, because `parent` is set once in `newRoute`.
* A registration panic is `none`.
-/
namespace Verif.Router

open Verif.Go

/-- Identity of a filter function value (`router_filter.go:94-97`, field `value`). -/
abbrev Filter := Nat

/-- `router.go:50-57` `pathParam`. -/
structure PathParam where
  path : Str
  isParam : Bool
  isWild : Bool
  paramName : Str
  customVerb : Str
deriving DecidableEq, Repr

/-- `router.go:59-86` `(*pathParam).set`, for a non-empty segment `p` (the code indexes `p[0]`;
`splitRoutePath` never yields an empty segment here, see C04). -/
def PathParam.set (p : Str) : PathParam :=
  let isParam := p.head? == some 58
  let isWild := p.head? == some 42 && p.tail.head? == some 58
  let paramName := if isWild then p.drop 2 else if isParam then p.drop 1 else []
  let suffix := if paramName = [] then p else paramName
  match indexByte suffix 58 with
  | some i =>
    { path := p, isParam, isWild,
      paramName := if isParam || isWild then suffix.take i else [],
      customVerb := suffix.drop i }
  | none =>
    { path := p, isParam, isWild,
      paramName := if isParam || isWild then paramName else [],
      customVerb := [] }

/-- `router.go:88-102` `(*pathParam).matchParamRoute`. -/
def PathParam.matchParamRoute (d : PathParam) (p : Str) : Option Str :=
  if !d.isParam then none
  else if d.customVerb ≠ [] then
    let value := trimSuffix p d.customVerb
    if value.length ≠ p.length then some value else none
  else some p

/-- `router_util.go:60-67` `splitRoutePath`. -/
def splitRoutePath (p : Str) : List Str :=
  (splitOn1 47 (cleanRooted (47 :: trimSpace p))).tail

/-- What `reflect` sees of a controller (`router_action.go:23-40` `makeRouterController`):
a plain function, a pointer to a function, or a (pointer to a) struct. -/
inductive CKind where
  | func | ptrFunc | struct
deriving DecidableEq, Repr

/-- `router_action.go:11-21` `routerController`; `methods` are the names of the methods of the pointer
type (`pTyp.MethodByName`). -/
structure Controller where
  id : Nat
  kind : CKind
  methods : List Str
deriving DecidableEq, Repr

/-- `router_action.go:42-44` `isFunc`. -/
def Controller.isFunc (c : Controller) : Bool := c.kind == .func

/-- `router_action.go:74-77` `actionFuncExists`. Functions have no methods. -/
def Controller.actionFuncExists (c : Controller) (a : Str) : Bool :=
  c.kind == .struct && c.methods.contains a

/-- `router_action.go:46-61` `ensureHasAction`; `false` is the panic. -/
def Controller.ensureHasAction (c : Controller) (a : Str) : Bool :=
  if c.kind = .struct then c.methods.contains a else a = []

/-- `router_action.go:79-83` `routerAction`. -/
structure RouteAction where
  ctl : Controller
  action : Str
  filters : List Filter
deriving DecidableEq, Repr

/-- UTF-8 encoding of a rune below 0x800 (enough for ASCII + 32) (router_method.go:37). -/
def encodeRuneSmall (n : Nat) : Str :=
  if n < 128 then [UInt8.ofNat n]
  else [UInt8.ofNat (192 + n / 64), UInt8.ofNat (128 + n % 64)]

/-- `router_method.go:29-38` `method.action`. Simplification: the method token is ASCII (net/http
rejects others), so runes are bytes. -/
def methodAction : Str → Str
  | [] => []
  | c :: cs => encodeRuneSmall c.toNat ++ cs.flatMap (fun d => encodeRuneSmall (d.toNat + 32))

/-- router_method.go:4. -/
def GET : Str := b!"GET"
/-- router_method.go:7. -/
def HEAD : Str := b!"HEAD"
/-- `router_method.go:21-27`. -/
def isAll (m : Str) : Bool := m == b!"*"
/-- router_method.go:25-27. -/
def isAny (m : Str) : Bool := m == b!"**"

/-- `router_filter.go:17-28` `filters.append`: skip filters already present. -/
def fappend (h : List Filter) : List Filter → List Filter
  | [] => h
  | f :: fs => if f ∈ h then fappend h fs else fappend (h ++ [f]) fs

/-- `router_filter.go:30-46` `filters.remove`. -/
def fremove (h values : List Filter) : List Filter := h.filter (fun v => !values.contains v)

/-- Items chained on a method declaration (`router_method.go:48-66`). -/
inductive MItem where
  | filter (fs : List Filter)
  | exempt (fs : List Filter)
  | action (a : Str)
deriving DecidableEq, Repr

/-- `router_method.go:46`, `:68-110`: `methodParams{controller, method, items...}`. -/
structure MethodDecl where
  ctl : Controller
  method : Str
  items : List MItem
deriving DecidableEq, Repr

/-- The accumulation of `calcRouterArgs` (`router_util.go:21-44`) over a method's items. -/
def MethodDecl.filters (m : MethodDecl) : List Filter :=
  m.items.foldl (fun acc i => match i with | .filter fs => fappend acc fs | _ => acc) []

/-- router_util.go:29-30. -/
def MethodDecl.exempts (m : MethodDecl) : List Filter :=
  m.items.foldl (fun acc i => match i with | .exempt fs => fappend acc fs | _ => acc) []

/-- router_util.go:39-40. -/
def MethodDecl.action (m : MethodDecl) : Str :=
  m.items.foldl (fun acc i => match i with | .action a => a | _ => acc) []

/-- `router_method.go:48-55` (`Action` panics) and `router_util.go:46-55`: `false` if the declaration
panics because the controller has no such action. -/
def MethodDecl.ok (m : MethodDecl) : Bool :=
  m.items.all (fun i => match i with | .action a => m.ctl.ensureHasAction a | _ => true) &&
  (!(m.action = [] && !m.ctl.isFunc && !isAll m.method && !isAny m.method) ||
    m.ctl.ensureHasAction (methodAction m.method))

/-- A declaration passed to `Routers`/`Router` (`router.go:10-28`). -/
inductive Handler where
  | str (s : Str)
  | filter (fs : List Filter)
  | exempt (fs : List Filter)
  | router (path : Str) (hs : List Handler)
  | method (m : MethodDecl)
  | name (s : Str)

/-- `router.go:22-28` `Router`: trims the path; `none` is the panic on `""` and `"/"`. -/
def mkRouter (path : Str) (hs : List Handler) : Option Handler :=
  let path := trimSpace path
  if path = [] ∨ path = b!"/" then none else some (.router path hs)

/-- `router_util.go:21-44` `calcRouterArgs`: filters. -/
def argFilters (hs : List Handler) : List Filter :=
  hs.foldl (fun acc h => match h with | .filter fs => fappend acc fs | _ => acc) []

/-- router_util.go:29-30. -/
def argExempts (hs : List Handler) : List Filter :=
  hs.foldl (fun acc h => match h with | .exempt fs => fappend acc fs | _ => acc) []

/-- router_util.go:33-34. -/
def argMethods (hs : List Handler) : List MethodDecl :=
  hs.filterMap (fun h => match h with | .method m => some m | _ => none)

/-- The per-route handlers (`router.go:204`, `:214-215`). -/
structure Table where
  action : List (Str × RouteAction) := []
  allRoute : Option RouteAction := none
  anyRoute : Option RouteAction := none
deriving DecidableEq, Repr

/-- Map lookup `r.action[m]` (router.go:152, 328). -/
def Table.get (t : Table) (m : Str) : Option RouteAction := t.action.lookup m

/-- Map assignment `r.action[m] = a` (router.go:324, 329). -/
def Table.set (t : Table) (m : Str) (a : RouteAction) : Table :=
  { t with action := (m, a) :: t.action.filter (fun e => e.1 != m) }

/-- `router.go:300-325`: one pass of the methods loop, exact methods only. -/
def configExact (filters : List Filter) : Table → List MethodDecl → Option Table
  | t, [] => some t
  | t, m :: ms =>
    if !m.ok then none
    else if isAll m.method || isAny m.method then configExact filters t ms
    else
      let act := if m.action = [] then methodAction m.method else m.action
      configExact filters
        (t.set m.method ⟨m.ctl, act, fremove (fappend filters m.filters) m.exempts⟩) ms

/-- `router.go:327-330`. -/
def headDefault (t : Table) : Table :=
  match t.get HEAD, t.get GET with
  | none, some a => t.set HEAD a
  | _, _ => t

/-- `router.go:332-344`; the last `All` declaration wins. -/
def configAllRoute (filters : List Filter) (t : Table) (ms : List MethodDecl) : Option Table :=
  match (ms.filter (fun m => isAll m.method)).getLast? with
  | none => some t
  | some m =>
    let act := if m.action = [] ∧ !m.ctl.isFunc then
        (if m.ctl.actionFuncExists b!"All" then b!"All" else []) else m.action
    if act ≠ [] ∧ !m.ctl.ensureHasAction act then none
    else some { t with allRoute := some ⟨m.ctl, act, fremove (fappend filters m.filters) m.exempts⟩ }

/-- `router.go:346-356`; the last `Any` declaration wins. -/
def configAnyRoute (filters : List Filter) (t : Table) (ms : List MethodDecl) : Option Table :=
  match (ms.filter (fun m => isAny m.method)).getLast? with
  | none => some t
  | some m =>
    let act := if m.action = [] ∧ !m.ctl.isFunc then b!"Any" else m.action
    if act ≠ [] ∧ !m.ctl.ensureHasAction act then none
    else some { t with anyRoute := some ⟨m.ctl, act, fremove (fappend filters m.filters) m.exempts⟩ }

/-- `router.go:300-356`: the method part of `configRoutes`. -/
def configMethods (filters : List Filter) (t : Table) (ms : List MethodDecl) : Option Table :=
  (configExact filters t ms).bind fun t =>
  (configAllRoute filters (headDefault t) ms).bind fun t =>
  configAnyRoute filters t ms

/-- `router.go:200-216` `route`. -/
inductive Route where
  | mk (pp : PathParam) (chain : List Str) (isEnd : Bool) (tbl : Table)
       (lits : List (Str × Route)) (params : List Route) (wild : Option Route)

namespace Route
/-- router.go:201 `pathParam`. -/
def pp : Route → PathParam | mk p _ _ _ _ _ _ => p
/-- path segments of the ancestors and of the node itself, outermost first (parent pointers) (router.go:444-457). -/
def chain : Route → List Str | mk _ c _ _ _ _ _ => c
/-- router.go:202 `isEnd`. -/
def isEnd : Route → Bool | mk _ _ e _ _ _ _ => e
/-- router.go:204, 214-215: `action`, `allRoute`, `anyRoute`. -/
def tbl : Route → Table | mk _ _ _ t _ _ _ => t
/-- router.go:206 `pathRoutes`. -/
def lits : Route → List (Str × Route) | mk _ _ _ _ l _ _ => l
/-- router.go:208 `paramRoutes`. -/
def params : Route → List Route | mk _ _ _ _ _ p _ => p
/-- router.go:209 `wildRoute`. -/
def wild : Route → Option Route | mk _ _ _ _ _ _ w => w
/-- router.go:324, 329, 343, 355. -/
def setTbl : Route → Table → Route | mk p c e _ l ps w, t => mk p c e t l ps w
/-- router.go:427. -/
def setEnd : Route → Route | mk p c _ t l ps w => mk p c true t l ps w
/-- router.go:422. -/
def setLits : Route → List (Str × Route) → Route | mk p c e t _ ps w, l => mk p c e t l ps w
/-- router.go:405, 407. -/
def setParams : Route → List Route → Route | mk p c e t l _ w, ps => mk p c e t l ps w
/-- router.go:420. -/
def setWild : Route → Option Route → Route | mk p c e t l ps _, w => mk p c e t l ps w
end Route

/-- the zero `pathParam` of router.go:219. -/
def noParam : PathParam := ⟨[], false, false, [], []⟩

/-- `router.go:218-226` `newRoute` followed by `pathParam.set` (`:391-392`). -/
def newChild (parent : Route) (p : Str) : Route :=
  .mk (PathParam.set p) (parent.chain ++ [p]) false {} [] [] none

/-- `router.go:112-117` `newRouteRoot`: the root is an end route with an empty path. -/
def newRoot : Route := .mk noParam [] true {} [] [] none

/-- `r.pathRoutes[p]` (router.go:234, 380-381). -/
def litLookup (r : Route) (p : Str) : Option Route := r.lits.lookup p

/-- `r.pathRoutes[p] = c` (router.go:422). -/
def litSet (r : Route) (p : Str) (c : Route) : Route :=
  r.setLits ((p, c) :: r.lits.filter (fun e => e.1 != p))

/-- The parameters bound by a match: `(name, value)` in order (`router.go:36` `paramList`). -/
abbrev Params := List (Str × Str)

/-- `router.go:247-273`: the loop over `paramRoutes`, `rec` being the recursive call
`pr.match(paths, ..)` on the remaining segments `paths`. -/
def matchParams (rec : Route → Option (Route × Params)) (p : Str) (more : Bool) :
    List Route → Option (Route × Params)
  | [] => none
  | pr :: prs =>
    match pr.pp.matchParamRoute p with
    | none => matchParams rec p more prs
    | some value =>
      if !more then
        if !pr.isEnd then matchParams rec p more prs
        else some (pr, [(pr.pp.paramName, value)])
      else
        match rec pr with
        | some (nr, ps) =>
          if nr.isEnd then some (nr, (pr.pp.paramName, value) :: ps)
          else matchParams rec p more prs
        | none => matchParams rec p more prs

/-- `router.go:228-287` `(*route).match`: the returned route (possibly not an end route) and the
parameters this call appends to `*params`. -/
def matchRoute : List Str → Route → Option (Route × Params)
  | [], _ => none     -- never called with an empty slice: `nextPaths[0]` (router.go:229)
  | p :: paths, r =>
    let more := !paths.isEmpty
    -- first match pathRoutes (router.go:233-242)
    let lit : Option (Route × Params) :=
      match litLookup r p with
      | none => none
      | some c =>
        if more then
          match matchRoute paths c with
          | none => none
          | some (rt, ps) => if rt.isEnd then some (rt, ps) else some (rt, [])
        else some (c, [])
    -- second match paramRoutes (router.go:244-275)
    let found : Option (Route × Params) :=
      match lit with
      | some x => some x
      | none => matchParams (matchRoute paths) p more r.params
    -- wild route (router.go:277-286)
    match found with
    | some (rt, ps) =>
      if rt.isEnd then some (rt, ps)
      else match r.wild with
        | none => some (rt, ps)
        | some w => some (w, ps ++ [(w.pp.paramName, join1 47 (p :: paths))])
    | none =>
      match r.wild with
      | none => none
      | some w => some (w, [(w.pp.paramName, join1 47 (p :: paths))])

/-- `router.go:444-457` `calcPath`: concatenates `"/" + path` over the parent chain. -/
def calcPath (r : Route) : Str :=
  let path := r.chain.foldr (fun s acc => (if s = [] then [] else 47 :: s) ++ acc) []
  if path = [] then b!"/" else path

/-- Replace the first parameter child with path `p` (pointer update through `er`).
(router.go:372-377, 435: the node found is modified in place). -/
def replaceParam (p : Str) (c : Route) : List Route → List Route
  | [] => []
  | r :: rs => if r.pp.path = p then c :: rs else r :: replaceParam p c rs

/-- `router.go:372-387`: find an existing child with path `p`, in the order parameters, literals,
wild. -/
def findChild (r : Route) (p : Str) : Option Route :=
  match r.params.find? (fun c => c.pp.path = p) with
  | some c => some c
  | none =>
    match litLookup r p with
    | some c => some c
    | none =>
      match r.wild with
      | some w => if w.pp.path = p then some w else none
      | none => none

/-- `router.go:368-440`: walk/create the nodes of `segs` below `r`, then apply `k` (the recursive
`configRoutes`) to the last one. Because Go mutates nodes through pointers while the tree here is a
value, the updated child is stored back in its parent. `none` is a panic. -/
def insertAt (k : Route → Option Route) : List Str → Route → Option Route
  | [], r => k r
  | p :: rest, r =>
    let existing := findChild r p
    let rt0 := existing.getD (newChild r p)
    let isEnd := rest.isEmpty
    if rt0.pp.isParam then
      -- router.go:395-402 name conflict
      if r.params.any (fun er => er.pp.paramName != rt0.pp.paramName) then none
      else
        match insertAt k rest (if isEnd then rt0.setEnd else rt0) with
        | none => none
        | some rt =>
          match existing with
          | some _ => some (r.setParams (replaceParam p rt r.params))
          | none =>
            if rt0.pp.customVerb ≠ [] then some (r.setParams (rt :: r.params))
            else some (r.setParams (r.params ++ [rt]))
    else if rt0.pp.isWild then
      -- router.go:411-420 and 430-433
      if r.wild.any (fun w => w.pp.paramName != rt0.pp.paramName) then none
      else if !isEnd then none
      else
        match insertAt k rest rt0.setEnd with
        | none => none
        | some rt => some (r.setWild (some rt))
    else
      match insertAt k rest (if isEnd then rt0.setEnd else rt0) with
      | none => none
      | some rt => some (litSet r p rt)

mutual
/-- `router.go:358-441`: one iteration of the loop over nested routers in `configRoutes`, with the method
part of the nested call (`:291-356`) inlined so that the recursion is structural on the declarations.
`filters` are the filters of the enclosing call after its own `remove` (`:291`).  Declarations other
than routers are not part of that loop. -/
def configOne (filters : List Filter) : Handler → Route → Option Route
  | .router path hs, r =>
    let segs := splitRoutePath path
    if segs.head? = some [] then some r
    else
      let fs := fremove (fappend filters (argFilters hs)) (argExempts hs)
      insertAt (fun node =>
          (configMethods fs node.tbl (argMethods hs)).bind fun t =>
            configNested fs hs (node.setTbl t)) segs r
  | .str _, r => some r
  | .filter _, r => some r
  | .exempt _, r => some r
  | .method _, r => some r
  | .name _, r => some r

/-- `router.go:358-441`: the loop over nested routers in `configRoutes`. -/
def configNested (filters : List Filter) : List Handler → Route → Option Route
  | [], r => some r
  | h :: rest, r => (configOne filters h r).bind fun r' => configNested filters rest r'
end

/-- `router.go:290-442` `configRoutes(args)` where `args = calcRouterArgs(hs)` with the filters of the
enclosing router prepended (`router.go:438`). -/
def configRoutes (inherited : List Filter) (hs : List Handler) (r : Route) : Option Route :=
  let fs := fremove (fappend inherited (argFilters hs)) (argExempts hs)
  (configMethods fs r.tbl (argMethods hs)).bind fun t => configNested fs hs (r.setTbl t)

/-- `app.go:95-100` `(*Strip).Routers`. -/
def routers (hs : List Handler) (root : Route) : Option Route := configRoutes [] hs root

/-- A sequence of `Routers` calls on a fresh app (app.go:95-100). -/
def registerAll : List (List Handler) → Route → Option Route
  | [], r => some r
  | hs :: rest, r => (routers hs r).bind (registerAll rest)

/-- Outcome of `handle` (`router.go:123-198`). -/
inductive Outcome where
  | notFound
  | dispatch (rt : Route) (ra : RouteAction) (actionFunc : Str) (ps : Params) (infoPath : Str)

/-- `router.go:152-184`: choose the action of a matched route; `none` is not found. -/
def chooseAction (t : Table) (m : Str) : Option (RouteAction × Str) :=
  match t.get m with
  | some a => some (a, a.action)
  | none =>
    let actionFunc := methodAction m
    let viaAny : Option (RouteAction × Str) :=
      match t.anyRoute with
      | some a =>
        if a.ctl.isFunc || a.ctl.actionFuncExists a.action then some (a, a.action) else none
      | none => none
    match t.allRoute with
    | some a =>
      if a.ctl.isFunc || a.ctl.actionFuncExists actionFunc then some (a, actionFunc)
      else if a.action ≠ [] then some (a, a.action)
      else viaAny
    | none => viaAny

/-- `router.go:133-143`: the route a request path selects. -/
def selectRoute (root : Route) (urlPath : Str) : Option (Route × Params) :=
  let paths := splitRoutePath urlPath
  if paths.head? = some [] then some (root, [])
  else
    match matchRoute paths root with
    | some (rt, ps) => if rt.isEnd then some (rt, ps) else none
    | none => none

/-- `router.go:123-198` `handle`. -/
def handle (root : Route) (reqMethod urlPath : Str) : Outcome :=
  match selectRoute root urlPath with
  | none => .notFound
  | some (rt, ps) =>
    match chooseAction rt.tbl (toUpper reqMethod) with
    | none => .notFound
    | some (a, f) => .dispatch rt a f ps (calcPath rt)

/-- `router.go:38-48` `paramList.values`: keys in order, values by last assignment. -/
def paramValues (ps : Params) : List Str × (Str → Option Str) :=
  (ps.map (·.1), fun k => ps.reverse.lookup k)

end Verif.Router
