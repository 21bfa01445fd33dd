import Verif.Go.Bytes
/-!
# Values attached to a Go context: utils/context.go

Types are given by what the code looks at: the package path, the name, whether it is a predeclared basic type, and an
identity (two types may have the same path and name: types declared inside functions, unnamed types).
-/
namespace Verif.Ctx

/-- A type that is not a pointer. `basic`: `elm.Kind().String() == elm.String()` (utils/context.go:66): bool, the numbers,
string; unnamed types (slices, maps, …) have an empty path and name. -/
structure Ty where
  id : Nat
  pkg : Str
  name : Str
  basic : Bool := false
deriving DecidableEq, Repr

/-- What is passed to the functions, for a type `T` that is not a pointer: a pointer to `T` (`none`: nil), a pointer to a
pointer to `T` (outer nil, inner nil, or an address), a deeper pointer, or no pointer. An address is a variable of
type `T` (utils/context.go:15, 20). -/
inductive Arg where
  | ptr (t : Ty) (a : Option Nat)
  | pptr (t : Ty) (a : Option (Option Nat))
  | deep
  | noPtr
deriving DecidableEq, Repr

/-- utils/context.go:54-75 `ctxValueToKey`; `none`: it panics. -/
def keyOf (v : Arg) (extra : List Str) : Option Str :=
  match v with
  | .noPtr => none
  | .deep => none
  | .ptr t _ => if t.basic then none else some (t.pkg ++ b!":" ++ t.name ++ b!":" ++ extra.head?.getD [])
  | .pptr t _ => if t.basic then none else some (t.pkg ++ b!":" ++ t.name ++ b!":" ++ extra.head?.getD [])

/-- A Go context: the values attached, the last one first (`context.WithValue` wraps the context it is given, and `Value`
looks from the outside in) (utils/context.go:17). -/
abbrev Context := List (Str × Arg)

/-- utils/context.go:15-18 `CtxWithValue`; `none`: a panic. -/
def withValue (ctx : Context) (v : Arg) (extra : List Str) : Option Context :=
  (keyOf v extra).map (fun k => (k, v) :: ctx)

/-- What `CtxFindValue` does to the variable its argument points to (utils/context.go:27-44). -/
inductive Found where
  /-- the error `CtxValueNotFound` -/
  | notFound
  /-- nil is returned and nothing is changed -/
  | unchanged
  /-- the value of the variable at this address is copied into the variable -/
  | copy (a : Nat)
  /-- the variable, a pointer, is set to this address (`none`: nil) -/
  | point (a : Option Nat)
  | panic
deriving DecidableEq, Repr

/-- The type and the address behind an attached value (utils/context.go:34). -/
def Arg.ty : Arg → Option Ty
  | .ptr t _ => some t
  | .pptr t _ => some t
  | _ => none

/-- utils/context.go:20-45 `CtxFindValue(ctx, v, extra...)`. A nil target, and a stored value of another type, panic
(`Elem`/`CanSet`, `Set`). -/
def find (ctx : Context) (v : Arg) (extra : List Str) : Found :=
  match keyOf v extra with
  | none => .panic
  | some k =>
    match v with
    | .ptr _ none => .panic
    | .pptr _ none => .panic
    | .deep => .panic
    | .noPtr => .panic
    | .ptr t (some _) =>
      match ctx.lookup k with
      | none => .notFound
      | some (.ptr _ none) => .unchanged
      | some (.pptr _ none) => .unchanged
      | some (.ptr t' (some a)) => if t' = t then .copy a else .panic
      | some (.pptr t' (some (some a))) => if t' = t then .copy a else .panic
      | some (.pptr _ (some none)) => .panic
      | some _ => .panic
    | .pptr t (some _) =>
      match ctx.lookup k with
      | none => .notFound
      | some (.ptr _ none) => .unchanged
      | some (.pptr _ none) => .unchanged
      | some (.ptr t' (some a)) => if t' = t then .point (some a) else .panic
      | some (.pptr t' (some a)) => if t' = t then .point a else .panic
      | some _ => .panic

/-- utils/context.go:47-52 `MustCtxFindValue`: the error becomes a panic. -/
def mustFind (ctx : Context) (v : Arg) (extra : List Str) : Found :=
  match find ctx v extra with
  | .notFound => .panic
  | r => r

/-- A sequence of `CtxWithValue` calls (utils/context.go:15-18). -/
def attach (ctx : Context) : List (Arg × List Str) → Option Context
  | [] => some ctx
  | (v, e) :: r => (withValue ctx v e).bind (fun c => attach c r)

/-! ## utils/helpers/log.go: the logger of a context -/

/-- The interface type `strip.Logger` (log.go:79-97; its name in keys is that of its package path, utils/context.go:73). -/
def loggerTy : Ty := ⟨0, b!"github.com/wujiu2020/strip", b!"Logger", false⟩

/-- utils/helpers/log.go:36-39 `WithLogger` and request-logger/logger.go:131-134 `setLoggerInContext`: the logger is copied into a new variable,
whose address `a` is attached. -/
def withLogger (ctx : Context) (a : Nat) : Option Context := withValue ctx (.ptr loggerTy (some a)) []

/-- The result of `GetLogger`: the logger held by the variable at an address, the global logger `X`, or nil. -/
inductive GotLogger where
  | var (a : Nat)
  | global
  | nil
  | panic
deriving DecidableEq, Repr

/-- utils/helpers/log.go:29-34 `GetLogger`; the address of its result variable does not matter. -/
def getLogger (ctx : Context) : GotLogger :=
  match find ctx (.ptr loggerTy (some 0)) [] with
  | .notFound => .global
  | .unchanged => .nil
  | .copy a => .var a
  | .point _ => .panic
  | .panic => .panic

end Verif.Ctx
