/-!
# Model of how values become filters (router_filter.go:48-104) and which filters are taken for the same

`filters.append` and `filters.remove` compare `reflect.Value`s with `==`: the type and the data word of the interface the filter was passed
in. For functions the data word is the closure; an `inject.Provide` is a slice, and every conversion to an interface puts a copy of it into a new
place, whose address is the data word.
-/
namespace Verif.FilterKind

/-- What is passed to `Filter`, `Exempt` or `Strip.Filter`; functions are given by their closure (0: nil), `fn` also by its type, a
`Provide` by its contents (router_filter.go:68-87). -/
inductive FVal where
  | filterFunc (p : Nat)
  | factory (p : Nat)
  | fn (ty p : Nat)
  | provide (c : Nat)
  | other (n : Nat)
deriving DecidableEq, Repr

/-- A `reflect.Value` as `==` sees it (router_filter.go:96): a function's type and closure, or the place of a boxed value. -/
inductive RVal where
  | word (ty p : Nat)
  | box (a : Nat)
deriving DecidableEq, Repr

/-- The conversion to an interface and `reflect.ValueOf` (router_filter.go:48, 52, 59); `next` is the next free place. -/
def convert : FVal → Nat → RVal × Nat
  | .filterFunc p, next => (.word 0 p, next)
  | .factory p, next => (.word 1 p, next)
  | .fn ty p, next => (.word (ty + 2) p, next)
  | .provide _, next => (.box next, next + 1)
  | .other _, next => (.box next, next + 1)

/-- What a filter does when its turn comes (router_filter.go:68-92, context.go:92-96). -/
inductive Runs where
  /-- nothing: it is nil and skipped -/
  | skipped
  /-- the closure is called, and what it returns is invoked -/
  | resultOf (p : Nat)
  /-- the function with this closure, or the last one of this list, is invoked -/
  | invoked (v : FVal)
deriving DecidableEq, Repr

/-- router_filter.go:68-88 `makeFilter`; `none` is the panic for other values. -/
def makeFilter : FVal → Option Runs
  | .filterFunc p => some (if p = 0 then .skipped else .resultOf p)
  | .factory p => some (if p = 0 then .skipped else .resultOf p)
  | .fn ty p => some (.invoked (.fn ty p))
  | .provide c => some (.invoked (.provide c))
  | .other _ => none

/-- router_filter.go:94-97 `filter`: what it runs, and the value; `src` is what it was made from (for the statements only). -/
structure Filter where
  runs : Runs
  value : RVal
  src : FVal
deriving DecidableEq, Repr

/-- router_filter.go:56-66 `makeFilters`. -/
def makeFilters : List FVal → Nat → Option (List Filter × Nat)
  | [], next => some ([], next)
  | v :: vs, next =>
    match makeFilter v with
    | none => none
    | some r =>
      match makeFilters vs (convert v next).2 with
      | none => none
      | some (fs, n) => some (⟨r, (convert v next).1, v⟩ :: fs, n)

/-- router_filter.go:17-28 `append`. -/
def append (h : List Filter) : List Filter → List Filter
  | [] => h
  | f :: fs => if h.any (fun v => v.value = f.value) then append h fs else append (h ++ [f]) fs

/-- router_filter.go:30-46 `remove`. -/
def remove (h values : List Filter) : List Filter := h.filter (fun v => ¬ values.any (fun f => v.value = f.value))

/-- `Filter(...)` or `Exempt(...)` among the arguments of a declaration (router_filter.go:48-54). -/
inductive Decl where
  | filter (vs : List FVal)
  | exempt (vs : List FVal)
deriving Repr

/-- router_util.go:21-30: the filters and exemptions of the arguments, in order; `none` is a panic. -/
def collect : List Decl → Nat → List Filter → List Filter → Option (List Filter × List Filter)
  | [], _, fs, es => some (fs, es)
  | .filter vs :: ds, next, fs, es =>
    match makeFilters vs next with
    | none => none
    | some (l, n) => collect ds n (append fs l) es
  | .exempt vs :: ds, next, fs, es =>
    match makeFilters vs next with
    | none => none
    | some (l, n) => collect ds n fs (append es l)

/-- router.go:290-291: the filters of the declaration. -/
def chain (ds : List Decl) (next : Nat) : Option (List Filter) := (collect ds next [] []).map (fun p => remove p.1 p.2)

end Verif.FilterKind
