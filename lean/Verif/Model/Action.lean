import Verif.Model.Router
import Verif.Model.ConfigBind
/-!
# Calling the method of a struct controller: router_action.go:89-152

What a method's parameters receive, and the per-request copy of the controller.
-/
namespace Verif.Action
open Verif.Go Verif.Conv Verif.Conf Verif.Router

/-- The type of a method parameter: a type that is not a pointer (an identity and what `convertStringAsType` sees of it) or
a pointer (reflect.Type of router_action.go:66-68). -/
inductive GT where
  | base (id : Nat) (t : Ty)
  | ptr (e : GT)
deriving DecidableEq, Repr

/-- the type as app_util.go:197 `convertStringAsType` sees it. -/
def GT.ty : GT → Ty
  | .base _ t => t
  | .ptr e => .ptr e.ty

/-- app_util.go:189-195 `indirectType`. -/
def GT.indirect : GT → GT
  | .ptr e => e.indirect
  | t => t

/-- What reflection says about the methods of controllers, and about types.
(reflect, as used in router_action.go:46-72, 113-152). -/
structure World (F : Type) where
  /-- `strconv.ParseFloat` -/
  pf : FloatParser F
  /-- the zero float -/
  zeroF : F
  /-- the parameter types of a method of a controller (not variadic) -/
  sig : Nat → Str → List GT
  /-- `Type.AssignableTo` -/
  assignable : GT → GT → Bool

variable {F : Type}

/-- `reflect.New(typ).Elem()`: the zero value (router_action.go:130). -/
def zero (w : World F) : Ty → Val F
  | .bool => .bool false
  | .float _ => .float w.zeroF
  | .int _ => .int 0
  | .string => .string []
  | .slice .byte => .bytes []
  | .slice .string => .strings []
  | .slice _ => .opaque 0
  | .ptr _ => .ptr none
  | .other => .opaque 0

/-- router_action.go:46-72: `actionIn`, cached for the action `ensureHasAction` was last called with. It is called with
the action of the route (router_util.go:46-55, router_method.go:48-55, router.go:331-355), unless that is empty (`All` on
a struct without method `All`). Sharing of `h[0]` between declarations derived from one base (router_method.go:52) is the
subject of C12. -/
def actionIn (w : World F) (ra : RouteAction) : List GT := if ra.action = [] then [] else w.sig ra.ctl.id ra.action

/-- router_action.go:117-132: one argument, with its type. -/
def arg (w : World F) (ps : Params) (i : Nat) (t : GT) : Res (GT × Val F) :=
  match ps[i]? with
  | none => .ok (t, zero w t.ty)
  | some (_, s) =>
    match convertStringAsType w.pf s t.ty with
    | .ok (some v) => .ok (t.indirect, v)
    | .ok none => .ok (t, zero w t.ty)
    | .err e => .err e
    | .panic => .panic

/-- router_action.go:116-134: the loop over `actionIn`, from index `i`. -/
def args (w : World F) (ps : Params) : Nat → List GT → Res (List (GT × Val F))
  | _, [] => .ok []
  | i, t :: ts => (arg w ps i t).bind fun a => (args w ps (i + 1) ts).bind fun as => .ok (a :: as)

/-- `reflect.Value.Call`: the number of arguments must be that of the method, each must be assignable.
(router_action.go:150). -/
def callable (w : World F) : List GT → List (GT × Val F) → Bool
  | [], [] => true
  | t :: ts, a :: as => w.assignable a.1 t && callable w ts as
  | _, _ => false

/-- router_action.go:113-152 `callStructFunc` for a struct controller whose injected fields can all be resolved
(`applied`; otherwise it panics): the arguments the method is called with. -/
def callStructFunc (w : World F) (applied : Bool) (ra : RouteAction) (ps : Params) (f : Str) : Res (List (Val F)) :=
  match args w ps 0 (actionIn w ra) with
  | .err e => .err e
  | .panic => .panic
  | .ok as =>
    if ra.ctl.actionFuncExists f = false then .panic
    else if applied = false then .panic
    else if callable w (w.sig ra.ctl.id f) as = false then .panic
    else .ok (as.map (·.2))

/-! ## The controller instance of a request: router_action.go:140-151 -/

/-- Memory: struct variables, each a list of field values (router_action.go:140-143). -/
structure Heap where
  cells : List (List Nat)

/-- What a method does with its receiver: read and assign fields, and finish.
(the method called in router_action.go:150). -/
inductive Prog where
  | done
  | get (i : Nat) (k : Nat → Prog)
  | set (i : Nat) (v : Nat) (k : Prog)

/-- A request between two steps: not started (with the values injected into tagged fields), or running its action on the
struct variable at an address, or finished (the address is kept to talk about it).
(router_action.go:94-110: one call of the wrapped handle). -/
inductive Req where
  | waiting (inject : List (Nat × Nat)) (p : Prog)
  | running (addr : Nat) (p : Prog)

/-- The registered controller: a pointer to a struct variable, a nil pointer, or a struct value (of which `reflect` holds
a copy) (router_action.go:23-40, `value` and `val`). -/
inductive Registered where
  | ptr (addr : Nat)
  | nil
  | value (fields : List Nat)

/-- an assignment `receiver.field = v` of the method called in router_action.go:150, or of `Apply` (router_action.go:145). -/
def setField (c : List Nat) (i v : Nat) : List Nat := c.set i v

/-- router_action.go:140-143: the fields of the new variable; `n` is the number of fields of the struct type. -/
def fresh (h : Heap) (reg : Registered) (n : Nat) : List Nat :=
  match reg with
  | .ptr a => (h.cells[a]?).getD (List.replicate n 0)
  | .nil => List.replicate n 0
  | .value fs => fs

/-- router_action.go:145: `Apply` assigns the tagged fields. -/
def applyFields (c : List Nat) : List (Nat × Nat) → List Nat
  | [] => c
  | (i, v) :: l => applyFields (setField c i v) l

/-- One step of one request: allocate, copy and inject (router_action.go:140-148), or one access of the action
(router_action.go:150). -/
def step (reg : Registered) (n : Nat) (h : Heap) : Req → Heap × Req
  | .waiting inj p => (⟨h.cells ++ [applyFields (fresh h reg n) inj]⟩, .running h.cells.length p)
  | .running a .done => (h, .running a .done)
  | .running a (.get i k) => (h, .running a (k (((h.cells[a]?).getD [])[i]?.getD 0)))
  | .running a (.set i v k) => (⟨h.cells.set a (setField ((h.cells[a]?).getD []) i v)⟩, .running a k)

/-- The requests being served, and memory.
(concurrent calls of app.go:102-124 `ServeHTTP` that reach router_action.go:140). -/
structure Sys where
  heap : Heap
  reqs : List Req

/-- A schedule: which request makes the next step (concurrent calls of app.go:102-124 `ServeHTTP`). -/
def runSched (reg : Registered) (n : Nat) : List Nat → Sys → Sys
  | [], s => s
  | q :: qs, s =>
    match s.reqs[q]? with
    | none => runSched reg n qs s
    | some r => runSched reg n qs ⟨(step reg n s.heap r).1, s.reqs.set q (step reg n s.heap r).2⟩

end Verif.Action
