import Verif.Model.Router
/-! The same search as `Model/Router.lean`, counting its steps (router.go:228-287). -/
namespace Verif.Router
open Verif.Go

/-- `router.go:247-273` with a counter: one step for every parameter child looked at
(`pr.pathParam.matchParamRoute(p)`, `:248`) plus the steps of the recursive calls (`:265`). -/
def matchParamsC (rec : Route → Option (Route × Params) × Nat) (p : Str) (more : Bool) :
    List Route → Option (Route × Params) × Nat
  | [] => (none, 0)
  | pr :: prs =>
    match pr.pp.matchParamRoute p with
    | none => ((matchParamsC rec p more prs).1, 1 + (matchParamsC rec p more prs).2)
    | some value =>
      if !more then
        if !pr.isEnd then ((matchParamsC rec p more prs).1, 1 + (matchParamsC rec p more prs).2)
        else (some (pr, [(pr.pp.paramName, value)]), 1)
      else
        match (rec pr).1 with
        | some (nr, ps) =>
          if nr.isEnd then (some (nr, (pr.pp.paramName, value) :: ps), 1 + (rec pr).2)
          else ((matchParamsC rec p more prs).1, 1 + (rec pr).2 + (matchParamsC rec p more prs).2)
        | none => ((matchParamsC rec p more prs).1, 1 + (rec pr).2 + (matchParamsC rec p more prs).2)

/-- `router.go:233-242` with a counter: the recursive call on the literal child, if there is one. -/
def matchLitC (rec : Route → Option (Route × Params) × Nat) (more : Bool) :
    Option Route → Option (Route × Params) × Nat
  | none => (none, 0)
  | some c =>
    if more then
      match (rec c).1 with
      | none => (none, (rec c).2)
      | some (rt, ps) => (if rt.isEnd then some (rt, ps) else some (rt, []), (rec c).2)
    else (some (c, []), 0)

/-- `router.go:277-286`: the fall-back to the wild child (no further step is taken). -/
def orWild (r : Route) (whole : List Str) : Option (Route × Params) → Option (Route × Params)
  | some (rt, ps) =>
    if rt.isEnd then some (rt, ps)
    else match r.wild with
      | none => some (rt, ps)
      | some w => some (w, ps ++ [(w.pp.paramName, join1 47 whole)])
  | none =>
    match r.wild with
    | none => none
    | some w => some (w, [(w.pp.paramName, join1 47 whole)])

/-- `router.go:228-287` `(*route).match` with a counter: one step for the call itself (which makes one
map lookup, `:234`), plus the steps of the literal child and of the loop over the parameter children. -/
def matchRouteC : List Str → Route → Option (Route × Params) × Nat
  | [], _ => (none, 1)
  | p :: paths, r =>
    match (matchLitC (matchRouteC paths) (!paths.isEmpty) (litLookup r p)).1 with
    | some x => (orWild r (p :: paths) (some x),
        1 + (matchLitC (matchRouteC paths) (!paths.isEmpty) (litLookup r p)).2)
    | none =>
      (orWild r (p :: paths) (matchParamsC (matchRouteC paths) p (!paths.isEmpty) r.params).1,
        1 + (matchLitC (matchRouteC paths) (!paths.isEmpty) (litLookup r p)).2 +
          (matchParamsC (matchRouteC paths) p (!paths.isEmpty) r.params).2)

/-- `router.go:133-143` with the counter. -/
def selectRouteC (root : Route) (urlPath : Str) : Option (Route × Params) × Nat :=
  if (splitRoutePath urlPath).head? = some [] then (some (root, []), 0)
  else
    match (matchRouteC (splitRoutePath urlPath) root).1 with
    | some (rt, ps) => (if rt.isEnd then some (rt, ps) else none,
        (matchRouteC (splitRoutePath urlPath) root).2)
    | none => (none, (matchRouteC (splitRoutePath urlPath) root).2)

end Verif.Router
