import Verif.Props.RouterSpec
/-!
# Specification of route selection and of registration conflicts, from the flat list of registrations

No route tree here: everything is said about the list of registrations in the order in which they were made.
-/
namespace Verif.Router.Spec
open Verif.Go Verif.Router

/-- The registrations whose pattern starts with the segment `s`, relative to it. -/
def beneath (s : Str) (es : List Reg) : List Reg :=
  es.filterMap fun e => match e.pattern with
    | x :: q => if x = s then some { e with pattern := q } else none
    | [] => none

/-- The registrations made at this very place. -/
def here (es : List Reg) : List Reg := es.filter fun e => e.pattern = []

/-- Is this segment a wildcard? -/
def isWildSeg (s : Str) : Bool := match segOf s with | .wild _ => true | _ => false

/-- Is this segment a parameter? -/
def isParamSeg (s : Str) : Bool := match segOf s with | .param _ _ => true | _ => false

/-- Is this segment a literal? -/
def isLitSeg (s : Str) : Bool := match segOf s with | .lit _ => true | _ => false

/-- Is this segment a parameter with a verb? -/
def hasVerb (s : Str) : Bool := match segOf s with | .param _ v => v ≠ [] | _ => false

/-- The name of a parameter or wildcard. -/
def nameOfSeg (s : Str) : Str := match segOf s with | .lit _ => [] | .param n _ => n | .wild n => n

/-- The wildcard in force at a place, with the registrations below it: a place has one wildcard; one that is spelled
differently (`*:name:verb`) replaces the earlier one together with everything registered below it. -/
def wildIn (es : List Reg) : Option (Str × List Reg) :=
  es.foldl (fun cur e => match e.pattern with
    | [] => cur
    | s :: q =>
      if isWildSeg s then
        match cur with
        | some (w, l) => if w = s then some (w, l ++ [{ e with pattern := q }]) else some (s, [{ e with pattern := q }])
        | none => some (s, [{ e with pattern := q }])
      else cur) none

/-- The elements in the order of their first occurrence. -/
def distinct (l : List Str) : List Str := l.foldl (fun acc s => if s ∈ acc then acc else acc ++ [s]) []

/-- The parameters declared as next segment, in the order of their first declaration. -/
def paramsDeclared (es : List Reg) : List Str :=
  distinct ((es.filterMap fun e => e.pattern.head?).filter isParamSeg)

/-- The order in which they are tried: those with a verb first, the most recently declared first; then the others. -/
def paramHeads (es : List Reg) : List Str :=
  ((paramsDeclared es).filter hasVerb).reverse ++ (paramsDeclared es).filter (fun s => !hasVerb s)

/-- `p` without the verb `v` at its end. -/
def stripVerb (p v : Str) : Option Str := if v <:+ p then some (p.take (p.length - v.length)) else none

/-- Result of a search: nothing; a registered prefix that is not itself registered; or a pattern, the registrations made
for it and the values of the parameters. -/
inductive Found where
  | miss
  | dead
  | hit (q : List Str) (es : List Reg) (ps : Params)

/-- The result seen from the place above: the pattern has one segment more, which has bound `b`. -/
def Found.under (s : Str) (b : Params) : Found → Found
  | .miss => .miss
  | .dead => .dead
  | .hit q es ps => .hit (s :: q) es (b ++ ps)

/-- The first segment that leads to a pattern. -/
def firstHit (f : Str → Found) : List Str → Found
  | [] => .miss
  | s :: ss => match f s with
    | .hit q es ps => .hit q es ps
    | .miss => firstHit f ss
    | .dead => firstHit f ss

/-- The search for a route. The next path segment is compared first with the literals: if one is equal, the search goes on
below it, and only if nothing at all is found there are the parameters tried, in their order, until one leads to a pattern.
If no pattern was found the wildcard of this place takes the rest of the path. -/
def search : List Str → List Reg → Found
  | [], es => if (here es).isEmpty then .dead else .hit [] (here es) []
  | p :: paths, es =>
    let lit := if isLitSeg p && !(beneath p es).isEmpty then (search paths (beneath p es)).under p [] else .miss
    let found := match lit with
      | .miss => firstHit (fun s => match segOf s with
          | .param n v =>
            match stripVerb p v with
            | some x => (search paths (beneath s es)).under s [(n, x)]
            | none => .miss
          | _ => .miss) (paramHeads es)
      | .dead => .dead
      | .hit q es ps => .hit q es ps
    match found with
    | .hit q es ps => .hit q es ps
    | .dead => match wildIn es with
      | some (w, l) => .hit [w] (here l) [(nameOfSeg w, join1 47 (p :: paths))]
      | none => .dead
    | .miss => match wildIn es with
      | some (w, l) => .hit [w] (here l) [(nameOfSeg w, join1 47 (p :: paths))]
      | none => .miss

/-- The route of a request: the root for the empty path. -/
def route (es : List Reg) (path : List Str) : Option (List Str × List Reg × Params) :=
  if path = [] then some ([], here es, [])
  else match search path es with
    | .hit q es ps => some (q, es, ps)
    | _ => none

/-! ## Which registrations are accepted -/

/-- What has been registered below the segment `s`. -/
def child (s : Str) (es : List Reg) : List Reg :=
  if isWildSeg s then
    match wildIn es with
    | some (w, l) => if w = s then l else []
    | none => []
  else beneath s es

/-- A segment conflicts with what is declared at its place: a parameter with another name, a wildcard with another name. -/
def clashes (s : Str) (es : List Reg) : Bool :=
  match segOf s with
  | .lit _ => false
  | .param n _ => (paramsDeclared es).any fun t => nameOfSeg t ≠ n
  | .wild n => match wildIn es with
    | some (w, _) => nameOfSeg w ≠ n
    | none => false

/-- Some segment of the path conflicts. -/
def pathClashes : List Str → List Reg → Bool
  | [], _ => false
  | s :: ss, es => clashes s es || pathClashes ss (child s es)

/-- A wildcard is only the last segment of the path. -/
def wildLast (path : List Str) : Bool := path.dropLast.all fun s => !isWildSeg s

/-- The controller has this action (functions have only the unnamed one). -/
def hasAction (c : Controller) (a : Str) : Bool :=
  match c.kind with
  | .struct => c.methods.contains a
  | _ => a = []

/-- The action chained last on a declaration. -/
def lastAction (m : MethodDecl) : Str :=
  ((m.items.filterMap fun i => match i with | .action a => some a | _ => none).getLast?).getD []

/-- Every action named by a declaration exists; a declaration without action, for a controller that is not a function and
for a particular method, needs the action named after the method. -/
def declOk (m : MethodDecl) : Bool :=
  (m.items.all fun i => match i with | .action a => hasAction m.ctl a | _ => true) &&
  (if lastAction m = [] && m.ctl.kind ≠ .func && m.method ≠ b!"*" && m.method ≠ b!"**" then hasAction m.ctl (methodAction m.method)
   else true)

/-- The declarations made at one place are possible: also the last `Any` without action needs the action `Any`. -/
def declsOk (ms : List MethodDecl) : Bool :=
  ms.all declOk &&
  match (ms.filter fun m => m.method = b!"**").getLast? with
  | some m => if lastAction m = [] && m.ctl.kind ≠ .func then hasAction m.ctl b!"Any" else true
  | none => true

/-- What is registered below `pre`. -/
def childAt (pre : List Str) (es : List Reg) : List Reg := pre.foldl (fun es s => child s es) es

mutual
/-- Is the declaration accepted below `pre`, when the registrations `es` have been made? -/
def acceptOne (pre : List Str) (filters : List Filter) : Handler → List Reg → Bool
  | .router path hs, es =>
    let fs := fremove (fappend filters (argFilters hs)) (argExempts hs)
    let at_ := pre ++ pathSegs path
    if pathSegs path = [] then true
    else !pathClashes (pathSegs path) (childAt pre es) && wildLast (pathSegs path) && declsOk (argMethods hs) &&
      accept at_ fs hs (es ++ [⟨at_, fs, argMethods hs⟩])
  | .str _, _ => true
  | .filter _, _ => true
  | .exempt _, _ => true
  | .method _, _ => true
  | .name _, _ => true

/-- Are the declarations accepted, one after the other? -/
def accept (pre : List Str) (filters : List Filter) : List Handler → List Reg → Bool
  | [], _ => true
  | h :: rest, es => acceptOne pre filters h es && accept pre filters rest (es ++ regsOne pre filters h)
end

/-- Is one `Routers` call accepted? -/
def acceptCall (hs : List Handler) (es : List Reg) : Bool :=
  let fs := fremove (fappend [] (argFilters hs)) (argExempts hs)
  declsOk (argMethods hs) && accept [] fs hs (es ++ [⟨[], fs, argMethods hs⟩])

/-- Are the `Routers` calls accepted, one after the other? -/
def acceptAll : List (List Handler) → List Reg → Bool
  | [], _ => true
  | hs :: hss, es => acceptCall hs es && acceptAll hss (es ++ callRegs hs)

end Verif.Router.Spec
