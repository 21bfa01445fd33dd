import Verif.Model.Log
import Verif.Model.DevPage
/-!
# Where log lines and traces point: log.go:236-250, 291-344, recovery.go:62-101 and the call stacks they look at

A call stack is the list of its frames, innermost first, as `runtime.Caller` counts them (the compiler's wrappers for promoted methods are
not counted). `Model/Log.lean` and `Model/DevPage.lean` take positions and traces as inputs; here they are computed from the stack.
-/
namespace Verif.Where
open Verif.Go Verif.Log
open Verif.Page (Frame)

/-- The functions of the framework on these stacks: log.go:330 `funcCallMsg`, app_util.go:264 `Stack`, log.go:291 `print`, log.go:265-280
`writef`/`write`, the logging method (log.go:172-234), the deferred functions of log.go:237 and recovery.go:64, and log.go:236
`Recover`. -/
inductive Fn where
  | funcCallMsg | stack | print | write | method | deferred | recover | filterDeferred

/-- log.go:334-339 `strings.SplitN(file, "/src/", 2)`: what comes after the first `/src/`, `none` without one. -/
def afterSrc : Str → Option Str
  | [] => none
  | c :: s => if (c :: s).take 5 = b!"/src/" then some ((c :: s).drop 5) else afterSrc s

/-- log.go:334-339: the file name shown with `SetShortLine(true)`. -/
def shortFile (file : Str) : Str := (afterSrc file).getD file

/-- log.go:330-344 `funcCallMsg` for a positive depth: `fs` is the stack seen from `funcCallMsg`. -/
def position (fs : List Frame) (short : Bool) (depth : Int) : Str :=
  match fs[depth.toNat]? with
  | none => []
  | some f => b!"[\"" ++ (if short then shortFile f.file else f.file) ++ b!":" ++ natDec f.line ++ b!"\"]"

/-- log.go:309: `Stack(opt.Depth)`, `fs` is the stack seen from `Stack`. A negative depth (which the runtime would count from its own
frames) is taken as 0. -/
def trace (read : Str → Option Str) (fs : List Frame) (depth : Int) : Str := Page.stack read fs depth.toNat

/-- A logging method (log.go:172-234) called by the program, whose stack is `us`. -/
def call (own : Fn → Frame) (read : Str → Option Str) (us : List Frame) (m : Method) (formatted : Bool) (text : Str)
    (opt : Option LineOpt) (parsed : Str) : Call :=
  ⟨m, formatted, text, opt, parsed,
   position (own .funcCallMsg :: own .print :: own .write :: own .method :: us),
   trace read (own .stack :: own .print :: own .write :: own .method :: us)⟩

/-- log.go:240, 242: the frames of the framework between `funcCallMsg` (or `Stack`) and the runtime: `write` is called by the deferred
function, or by `Error` which is. -/
def recoverOwn (own : Fn → Frame) (level : Option Int) : List Frame :=
  match level with
  | some _ => [own .print, own .write, own .deferred]
  | none => [own .print, own .write, own .method, own .deferred]

/-- log.go:236-250 `Recover` of a function that panics: `rt` are the runtime's frames between the deferred function and the one that
panicked, `fs` those from there to the function given to `Recover`, `us` those of the caller of `Recover`. -/
def recoverAt (own : Fn → Frame) (read : Str → Option Str) (rt fs us : List Frame) (glob : Int) (l : Logger) (text : Str)
    (level : Option Int) (parsed : Str) : Option (Option Str) × Res :=
  recover glob l (some text) level
    (position (own .funcCallMsg :: recoverOwn own level ++ rt ++ fs ++ own .recover :: us))
    (trace read (own .stack :: recoverOwn own level ++ rt ++ fs ++ own .recover :: us)) parsed

/-- recovery.go:66 `Stack(5)` in the deferred function of `RecoveryFilter`: `rt` as above, `fs` from the function that panicked on. -/
def filterTrace (own : Fn → Frame) (read : Str → Option Str) (rt fs : List Frame) : Str :=
  Page.stack read (own .stack :: own .filterDeferred :: rt ++ fs) 5

end Verif.Where
