import Verif.Model.Router
/-!
# Specification of routing, independent of the route tree

A *pattern* is a list of raw segments as the user wrote them (`["users", ":id"]`).  This file says what
it means for a pattern to match a path, which patterns a list of declarations declares, and what
handler table each pattern should end up with.  It does not mention the tree or the matcher.
-/
namespace Verif.Router.Spec
open Verif.Go Verif.Router

/-- The three kinds of pattern segments. -/
inductive Seg where
  | lit (s : Str)
  | param (name verb : Str)
  | wild (name : Str)
deriving DecidableEq, Repr

/-- Reading of a raw segment: `*:name`, `:name`, `:name:verb` (the verb keeps its colon) or a literal.
The nameless forms `:` and `*:` read as a parameter with the verb `:` and a wildcard named `*`. -/
def segOf : Str → Seg
  | 42 :: 58 :: n => .wild (if n = [] then b!"*" else n.takeWhile (· ≠ 58))
  | 58 :: n => if n = [] then .param [] b!":"
               else .param (n.takeWhile (· ≠ 58)) (n.dropWhile (· ≠ 58))
  | s => .lit s

/-- `Matches pattern path params`: the pattern matches the path segments, binding `params`. -/
inductive Matches : List Seg → List Str → Params → Prop
  | nil : Matches [] [] []
  | lit {s ss xs ps} : Matches ss xs ps → Matches (.lit s :: ss) (s :: xs) ps
  | param {n v x ss xs ps} : Matches ss xs ps →
      Matches (.param n v :: ss) ((x ++ v) :: xs) ((n, x) :: ps)
  | wild {n x xs} : Matches [.wild n] (x :: xs) [(n, join1 47 (x :: xs))]

/-- Segments of a request or registration path after normalisation: the components of the path
cleaned as if rooted at '/'. -/
def pathSegs (p : Str) : List Str := cleanComps (trimSpace p)

/-- A flat registration: pattern, filters in force, methods declared directly at that pattern. -/
structure Reg where
  pattern : List Str
  filters : List Filter
  methods : List MethodDecl

mutual
/-- All registrations made by one declaration nested below `pre` with inherited `filters`.
A router whose path normalises to the root is ignored. -/
def regsOne (pre : List Str) (filters : List Filter) : Handler → List Reg
  | .router path hs =>
    let fs := fremove (fappend filters (argFilters hs)) (argExempts hs)
    let here := pre ++ pathSegs path
    if pathSegs path = [] then [] else ⟨here, fs, argMethods hs⟩ :: regs here fs hs
  | .str _ => []
  | .filter _ => []
  | .exempt _ => []
  | .method _ => []
  | .name _ => []

/-- All registrations made by a list of declarations nested below `pre` with inherited `filters`. -/
def regs (pre : List Str) (filters : List Filter) : List Handler → List Reg
  | [] => []
  | h :: rest => regsOne pre filters h ++ regs pre filters rest
end

/-- All registrations made by one `Routers(hs...)` call: the root's own and the nested ones. -/
def callRegs (hs : List Handler) : List Reg :=
  let fs := fremove (fappend [] (argFilters hs)) (argExempts hs)
  ⟨[], fs, argMethods hs⟩ :: regs [] fs hs

/-- All registrations made by a sequence of `Routers` calls, in order. -/
def allRegs (hss : List (List Handler)) : List Reg := hss.flatMap callRegs

/-- The patterns served by an application: the root and every declared pattern. -/
def Served (hss : List (List Handler)) (q : List Str) : Prop :=
  q = [] ∨ ∃ e ∈ allRegs hss, e.pattern = q

/-- The handler table a pattern should have: its registrations applied in order. -/
def tableAt (es : List Reg) (q : List Str) (t : Table) : Option Table :=
  (es.filter (fun e => e.pattern = q)).foldlM (fun t e => configMethods e.filters t e.methods) t

/-- `RouteInfo.Path` of a pattern. -/
def renderPattern (q : List Str) : Str :=
  if q = [] then b!"/" else q.flatMap (fun s => 47 :: s)

/-- Wildcards are written `*:name`, without a verb (`*:name:verb`). -/
def PlainWild (s : Str) : Prop := ∀ n, segOf s = .wild n → s = 42 :: 58 :: n

/-- The declared patterns use only plain wildcards. -/
def PlainWilds (hss : List (List Handler)) : Prop :=
  ∀ e ∈ allRegs hss, ∀ s ∈ e.pattern, PlainWild s

/-- Preference class of a segment: literal, verb parameter, plain parameter, wildcard. -/
def segRank : Seg → Nat
  | .lit _ => 0
  | .param _ v => if v = [] then 2 else 1
  | .wild _ => 3

/-- `q` is not less preferred than `q'`: at the first differing segment its class is at least as
good. -/
def PrecLE : List Str → List Str → Prop
  | x :: q, y :: q' => if x = y then PrecLE q q' else segRank (segOf x) ≤ segRank (segOf y)
  | _, _ => True

/-- Names of the parameters of a pattern, in order. -/
def paramNames (q : List Str) : List Str :=
  q.filterMap (fun s => match segOf s with
    | .lit _ => none | .param n _ => some n | .wild n => some n)

mutual
/-- The paths given to `Router` in one declaration, at any nesting depth. -/
def declPathsOne : Handler → List Str
  | .router path hs => if pathSegs path = [] then [] else path :: declPaths hs
  | .str _ => []
  | .filter _ => []
  | .exempt _ => []
  | .method _ => []
  | .name _ => []

/-- All paths given to `Router`, at any nesting depth, that registration looks at (the declarations
below a router whose path normalises to the root are ignored). -/
def declPaths : List Handler → List Str
  | [] => []
  | h :: rest => declPathsOne h ++ declPaths rest
end

/-! ### filters -/

/-- One nesting level of declarations: the filters it adds and the filters it exempts. -/
structure Level where
  own : List Filter
  exempts : List Filter

/-- `f` is in force after the levels (outermost first): some level adds it and neither that level nor
a deeper one exempts it. -/
def InForce : List Level → Filter → Prop
  | [], _ => False
  | l :: ls, f => (f ∈ l.own ∧ f ∉ l.exempts ∧ ∀ l' ∈ ls, f ∉ l'.exempts) ∨ InForce ls f

/-- The levels a method declaration is subject to: those of the enclosing routers, then its own. -/
def MethodDecl.level (m : MethodDecl) : Level :=
  ⟨m.items.flatMap (fun i => match i with | .filter fs => fs | _ => []),
   m.items.flatMap (fun i => match i with | .exempt fs => fs | _ => [])⟩

def routerLevel (hs : List Handler) : Level :=
  ⟨hs.flatMap (fun h => match h with | .filter fs => fs | _ => []),
   hs.flatMap (fun h => match h with | .exempt fs => fs | _ => [])⟩

mutual
/-- The method declarations nested in one declaration, see `declsL`. -/
def declsLOne (pre : List Str) (ls : List Level) : Handler → List (List Str × List Level × MethodDecl)
  | .router path hs =>
    let here := pre ++ pathSegs path
    let ls' := ls ++ [routerLevel hs]
    if pathSegs path = [] then []
    else (argMethods hs).map (fun m => (here, ls', m)) ++ declsL here ls' hs
  | .str _ => []
  | .filter _ => []
  | .exempt _ => []
  | .method _ => []
  | .name _ => []

/-- The method declarations of an application with the pattern they are declared at and the levels of
the enclosing routers (outermost first). -/
def declsL (pre : List Str) (ls : List Level) : List Handler → List (List Str × List Level × MethodDecl)
  | [] => []
  | h :: rest => declsLOne pre ls h ++ declsL pre ls rest
end

/-- The same for a sequence of `Routers` calls. -/
def allDeclsL (hss : List (List Handler)) : List (List Str × List Level × MethodDecl) :=
  hss.flatMap fun hs =>
    (argMethods hs).map (fun m => ([], [routerLevel hs], m)) ++ declsL [] [routerLevel hs] hs

end Verif.Router.Spec
