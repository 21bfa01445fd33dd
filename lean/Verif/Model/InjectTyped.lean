import Verif.Model.Inject
import Verif.Model.InjectKey
/-!
# Model of the injector with Go types and panics (`inject/inject.go`, `inject/inject_provider.go`)

`Model/Inject.lean` with what it leaves out: the types of values and parameters, slot names computed from them, assignment of what was found
(`assignValue`), arguments that do not fit (`reflect.Value.Call` panics) and provider functions that panic. Which types can be assigned to
which is a parameter, as is which calls panic. Declared types whose underlying type is a pointer are not modelled as pointers.
-/
namespace Verif.InjT
open Verif.Inj

/-- What is not the injector's: `reflect.Type.AssignableTo`, whether the `n`-th call of a provider function panics, and whether a found
pointer is nil (inject/inject.go:296-301, inject/inject_provider.go:179). -/
structure World where
  asg : GoType → GoType → Bool
  boom : Nat → Bool
  isNil : Val → Bool

/-- A value with the type `reflect` sees: for results, the declared result type (inject/inject_provider.go:143, 179). -/
structure TVal where
  v : Val
  ty : GoType
deriving DecidableEq, Repr

/-- Providers: a value, or a function with its parameter types (with the names given by `Dep`) and its first result type
(inject/inject_provider.go:39-121). -/
inductive TKind where
  | value (x : TVal)
  | func (ins : List (GoType × Str)) (out : Option GoType)
deriving DecidableEq, Repr

/-- A provider with the type it is provided as, if any, and its name (inject/inject.go:34-38, inject/inject_provider.go:14-37). -/
structure TProv where
  kind : TKind
  as : Option GoType
  nm : Str
deriving DecidableEq, Repr

/-- `info.name` (inject/inject_provider.go:74-82, 112-118): empty for a function without results. -/
def TProv.name (pr : TProv) : Key :=
  match pr.kind with
  | .value x => slotOf (pr.as.getD x.ty) pr.nm
  | .func _ none => []
  | .func _ (some o) => slotOf (pr.as.getD o) pr.nm

/-- inject/inject_provider.go:103-105: a value must be a pointer. -/
def TProv.valid (pr : TProv) : Bool :=
  match pr.kind with
  | .value ⟨_, .ptr _⟩ => true
  | .value _ => false
  | .func _ _ => true

/-- A call of provider function `prov` by injector `inj` (inject/inject_provider.go:179). -/
structure TCall where
  inj : Nat
  prov : Nat
  name : Key
  args : List TVal
deriving DecidableEq, Repr

/-- As `Inj.St` (inject/inject.go:49-77). -/
structure TSt where
  values : Nat → Key → Option Nat
  caches : Nat → Key → Option TVal
  parent : Nat → Option Nat
  provs : List TProv
  done : Nat → Nat
  status : List Key
  calls : List TCall

/-- inject/inject.go:72-77. -/
def TSt.empty : TSt := ⟨fun _ _ => none, fun _ _ => none, fun _ => none, [], fun _ => 0, [], []⟩

/-- Outcome of a lookup (inject/inject_provider.go:127). -/
inductive TRes (α : Type) where
  | ok (a : α)
  | err
  | panic
  | diverge
deriving DecidableEq, Repr

/-- `inject.go:268-280` `get`, through at most `f` injectors. -/
def getN (s : TSt) : Nat → Nat → Key → Option Nat
  | 0, _, _ => none
  | f + 1, i, k =>
    match s.values i k with
    | some p => some p
    | none => match s.parent i with
      | some j => getN s f j k
      | none => none

/-- `get` (inject/inject.go:268-280). -/
def get (s : TSt) (i : Nat) (k : Key) : Option Nat := getN s (i + 1) i k

/-- `prov.name` of provider `q` (inject/inject_provider.go:15). -/
def nameOf (s : TSt) (q : Nat) : Key := match s.provs[q]? with | some pr => pr.name | none => []

/-- `inject_provider.go:147-176`: the loop over the dependencies. -/
def invokeDeps (inv : TSt → Nat → TRes TVal × TSt) (i : Nat) : List (GoType × Str) → List TVal → TSt → TRes (List TVal) × TSt
  | [], acc, s => (.ok acc, s)
  | d :: ds, acc, s =>
    match get s i (slotOf d.1 d.2) with
    | none => (.err, s)
    | some q =>
      if s.done q = 0 ∧ nameOf s q ∈ s.status then (.err, s)
      else match inv s q with
        | (.ok v, s') => invokeDeps inv i ds (acc ++ [v]) s'
        | (.err, s') => (.err, s')
        | (.panic, s') => (.panic, s')
        | (.diverge, s') => (.diverge, s')

/-- Whether `reflect.Value.Call` accepts the arguments (inject/inject_provider.go:179). -/
def fits (w : World) : List TVal → List (GoType × Str) → Bool
  | [], [] => true
  | a :: as, d :: ds => w.asg a.ty d.1 && fits w as ds
  | _, _ => false

/-- The deferred `atomic.AddUint32(&p.done, 1)`: also when a panic passes by (inject/inject_provider.go:133-137). -/
def mark (s : TSt) (p : Nat) : TSt := { s with done := upd s.done p (s.done p + 1) }

/-- `inject_provider.go:127-184` `invoke` of provider `p` in injector `i`, with at most `f` nested calls. -/
def invoke (w : World) : Nat → Nat → TSt → Nat → TRes TVal × TSt
  | 0, _, s, _ => (.diverge, s)
  | f + 1, i, s, p =>
    match s.provs[p]? with
    | none => (.err, s)
    | some pr =>
      match s.caches i pr.name with
      | some v => (.ok v, s)
      | none =>
        match pr.kind with
        | .value x => (.ok x, mark { s with status := pr.name :: s.status } p)
        | .func ins out =>
          match invokeDeps (fun s q => invoke w f i s q) i ins [] { s with status := pr.name :: s.status } with
          | (.ok args, s') =>
            if fits w args ins = false then (.panic, mark s' p)
            else if w.boom s'.calls.length then (.panic, mark { s' with calls := s'.calls ++ [⟨i, p, pr.name, args⟩] } p)
            else
              match out with
              | none => (.ok ⟨.res s'.calls.length, .lit 0⟩, mark { s' with calls := s'.calls ++ [⟨i, p, pr.name, args⟩] } p)
              | some o => (.ok ⟨.res s'.calls.length, o⟩,
                  mark { s' with calls := s'.calls ++ [⟨i, p, pr.name, args⟩]
                                 caches := upd s'.caches i (upd (s'.caches i) pr.name (some ⟨.res s'.calls.length, o⟩)) } p)
          | (.err, s') => (.err, s')
          | (.panic, s') => (.panic, mark s' p)
          | (.diverge, s') => (.diverge, s')

/-- `inject.go:86-112` `ProvideAs`; `none` if it panics. -/
def provideAs (s : TSt) (i : Nat) (pr : TProv) : Option TSt :=
  if pr.valid then
    some { s with provs := s.provs ++ [pr]
                  caches := upd s.caches i (upd (s.caches i) pr.name none)
                  values := upd s.values i (upd (s.values i) pr.name (some s.provs.length)) }
  else none

/-- `inject.go:114-128`: the first part of `Find` for a variable of type `t`. -/
def lookup (w : World) (f : Nat) (s : TSt) (i : Nat) (t : GoType) (nm : Str) : TRes TVal × TSt :=
  match get s i (slotOf t nm) with
  | none => (.err, s)
  | some p => invoke w f i { s with status := [] } p

/-- What `assignValue` does to a variable of type `t` (inject/inject.go:295-307): sets it to the value, or to what the value points to, or
nothing (a nil pointer), or it is an error. -/
inductive Assigned where
  | set (v : Val)
  | setElem (v : Val)
  | kept
  | mismatch
deriving DecidableEq, Repr

/-- `inject.go:295-307` `assignValue`. -/
def assignValue (w : World) (x : TVal) (t : GoType) : Assigned :=
  if w.asg x.ty t then .set x.v
  else match x.ty with
    | .ptr u => if w.asg u t then (if w.isNil x.v then .kept else .setElem x.v) else .mismatch
    | _ => .mismatch

/-- `inject.go:114-141` `Find` into a variable of type `t`. -/
def find (w : World) (f : Nat) (s : TSt) (i : Nat) (t : GoType) (nm : Str) : TRes Assigned × TSt :=
  match lookup w f s i t nm with
  | (.ok x, s') => (.ok (assignValue w x t), s')
  | (.err, s') => (.err, s')
  | (.panic, s') => (.panic, s')
  | (.diverge, s') => (.diverge, s')

/-- `inject.go:143-169` `Exists` into a variable of type `t`: `none` if there is no provider, otherwise what is assigned, if anything. -/
def exists? (w : World) (s : TSt) (i : Nat) (t : GoType) (nm : Str) : Option (Option Assigned) :=
  match get s i (slotOf t nm) with
  | none => none
  | some p => match s.provs[p]? with
    | none => none
    | some pr => match pr.kind with
      | .value x => some (some (assignValue w x t))
      | .func _ _ => some none

/-- `inject.go:171-184` `Invoke`. After a panic the cached result is not removed. -/
def invokeFn (w : World) (f : Nat) (s : TSt) (i : Nat) (pr : TProv) : TRes TVal × TSt :=
  match invoke w f i { s with provs := s.provs ++ [pr], status := [] } s.provs.length with
  | (.ok v, s') => (.ok v, { s' with caches := upd s'.caches i (upd (s'.caches i) pr.name none) })
  | r => r

/-- `inject.go:282-286` `SetParent`; as in `Inj.setParent`. -/
def setParent (s : TSt) (i j : Nat) : TSt :=
  if j < i then { s with parent := upd s.parent i (some j) } else s

/-- The calls of users of the package (inject/inject.go:20-32). -/
inductive TCmd where
  | provide (i : Nat) (pr : TProv)
  | find (i : Nat) (t : GoType) (nm : Str)
  | invoke (i : Nat) (ins : List (GoType × Str)) (out : Option GoType)
  | setParent (i j : Nat)
deriving DecidableEq, Repr

/-- The function given to `Invoke` (inject/inject.go:174). -/
def fnOf (ins : List (GoType × Str)) (out : Option GoType) : TProv := ⟨.func ins out, none, []⟩

/-- Run one user call: whether it panicked, and the state then (inject/inject.go:79-184). The caller recovers panics. -/
def TCmd.run (w : World) (f : Nat) (s : TSt) : TCmd → Bool × TSt
  | .provide i pr => match provideAs s i pr with
    | some s' => (false, s')
    | none => (true, s)
  | .find i t nm => match InjT.find w f s i t nm with
    | (.panic, s') => (true, s')
    | (_, s') => (false, s')
  | .invoke i ins out => match invokeFn w f s i (fnOf ins out) with
    | (.panic, s') => (true, s')
    | (_, s') => (false, s')
  | .setParent i j => (false, InjT.setParent s i j)

/-- A history (inject/inject.go:79-184). -/
def reach (w : World) (f : Nat) (cs : List TCmd) : TSt := cs.foldl (fun s c => (c.run w f s).2) TSt.empty

end Verif.InjT
