import Verif.Model.App
import Verif.Model.ApiRes
import Verif.Model.ReqFilter
/-!
# The classic set-up: utils/helpers/filters.go, and GenericOutFilter as a handler
-/
namespace Verif.App
open Verif.Resp Verif.Ctx Verif.Router

/-- Calls on the response writer, then a panic if `p` (the calls and the `IsNil` panic of router_action_out.go:55-88). -/
def opsAct : List Op → Bool → Act
  | [], false => .done
  | [], true => .panic (some 1)
  | o :: os, p => .op o (opsAct os p)

/-- router_action_out.go:34-90 `GenericOutFilter`; `res` are the values the action returned (the `ActionOut` found in the
context, router_action.go:154-157; none if the action was not reached). Its own panics carry a value. -/
def outFilter (res : List Api.RV) : Act :=
  .next (.written fun w => if w then .done else opsAct (Api.genericOut res.reverse).1 (Api.genericOut res.reverse).2)

/-- utils/helpers/filters.go:12-15 `HookFlag`. -/
inductive HookFlag where
  | beforeAll
  | afterAll
deriving DecidableEq, Repr

/-- request-logger/logger.go:23-33 `LoggerOption`, without the content filters. -/
structure LogOpt where
  color : Bool
  line : Bool
  short : Bool
  flat : Bool
  stack : Nat
deriving DecidableEq, Repr

/-- An option of `LoadClassicFilters`, by its dynamic type (utils/helpers/filters.go:27-35). A hook is what it does to the
application; `none`: it panics. -/
inductive ClassicOpt where
  | logger (o : LogOpt)
  | hook (h : HookFlag → Strip → Option Strip)
  | other

/-- config.go:9-13: the modes. -/
inductive Mode where
  | dev | test | prod | custom
deriving DecidableEq, Repr

/-- utils/helpers/filters.go:24-36: the options, read in order; `none`: a value of another type, which panics. -/
def readOpts : List ClassicOpt → Option LogOpt → List (HookFlag → Strip → Option Strip) →
    Option (Option LogOpt × List (HookFlag → Strip → Option Strip))
  | [], l, hs => some (l, hs)
  | .logger o :: os, _, hs => readOpts os (some o) hs
  | .hook h :: os, l, hs => readOpts os l (hs ++ [h])
  | .other :: _, _, _ => none

/-- utils/helpers/filters.go:37-45. `strip.LevelCritical` is 3 (log.go:18-27). -/
def defaultLogOpt (m : Mode) : LogOpt := ⟨m = .dev, true, m = .prod, m = .prod, 3⟩

/-- utils/helpers/filters.go:52-54: the hooks, in order. -/
def runHooks : List (HookFlag → Strip → Option Strip) → Strip → Option Strip
  | [], s => some s
  | h :: hs, s => match h .beforeAll s with
    | some s => runHooks hs s
    | none => none

/-- The identities of the three filters: RecoveryFilter and GenericOutFilter return the same function value each time,
ReqLoggerFilter a new one (`logger o`). -/
structure Ids where
  recovery : Filter
  logger : LogOpt → Filter
  out : Filter

/-- The ways `LoadClassicFilters` can end: normally, or with a panic about an option (the application as it is then), or with
a panic of a hook (utils/helpers/filters.go:35, 53). -/
inductive Loaded where
  | ok (s : Strip)
  | badOption (s : Strip)
  | hookPanic

/-- utils/helpers/filters.go:21-64 `LoadClassicFilters`. -/
def loadClassic (ids : Ids) (m : Mode) (opts : List ClassicOpt) (s : Strip) : Loaded :=
  match readOpts opts none [] with
  | none => .badOption s
  | some (l, hs) =>
    match runHooks hs (s.filter [ids.recovery]) with
    | none => .hookPanic
    | some s => .ok (s.filter [ids.logger (l.getD (defaultLogOpt m)), ids.out])

end Verif.App
