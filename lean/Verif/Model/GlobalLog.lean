import Verif.Model.Log
/-! The global logger of utils/helpers: log.go:12-27, config.go:110-116. -/
namespace Verif.Log

/-- utils/helpers/log.go:14-27 `init`: a request logger with the name of the host in the place of a request id, and these
settings (`LevelCritical` is 3). -/
def globalInit : List Ev := [.setLine true, .setShort true, .setColor false, .enableStack 3]

/-- config.go:7-9 `ModeDev` and `ModeProd`; `IsDev` and `IsProd` compare with them (config.go:17-27). -/
def modeDev : Str := b!"dev"
def modeProd : Str := b!"prod"

/-- utils/helpers/config.go:110-113 `UseGlobalLogger` for an application with this run mode. -/
def useGlobal (mode : Str) : List Ev :=
  [.setFlat (mode == modeProd), .setColor (mode == modeDev), .setShort (mode == modeProd)]

/-- What happens to the global logger in a process: applications adopt it (utils/helpers/config.go:110-116), and it is
called, directly or through `helpers.GetLogger` (utils/helpers/log.go:29-34). -/
inductive GStep where
  | use (mode : Str)
  | log (c : Call)

/-- utils/helpers/config.go:110-113, log.go:172-234 -/
def GStep.events : GStep → List Ev
  | .use m => useGlobal m
  | .log c => [.call c]

/-- The events of the global logger, from the start of the process (utils/helpers/log.go:14-27). -/
def globalEvents (h : List GStep) : List Ev := globalInit ++ h.flatMap GStep.events

/-- The effect of a call of the global logger after these steps, on the host of this name (utils/helpers/log.go:18-20,
log.go:265-289). -/
def globalCall (host : Str) (h : List GStep) (c : Call) : Option Res :=
  (run (globalEvents h ++ [.call c]) (start (newReqLogger host))).getLast?.map (fun x => x.2)

end Verif.Log
