import Verif.Go.Bytes
/-!
# Loggers: log.go

`fmt.Sprintf`/`Sprintln`, `runtime.Caller` and `Stack` are not modelled: the text of a call, its source position and
its stack trace are inputs. Levels (log.go:18-27) are numbers, 1 (`LevelEmergency`) to 8 (`LevelDebug`); other
numbers are possible, `Level` being an `int`.
-/
namespace Verif.Log
open Verif.Go

/-- log.go:30-39 `DefaultLevelTag` (nine entries, the last one empty). -/
def levelTag : List Str :=
  [b!"[EMERGENCY]", b!"[ALERT]", b!"[CRITCIAL]", b!"[ERROR]", b!"[WARN]", b!"[NOTICE]", b!"[INFO]", b!"[DEBUG]", []]

/-- log.go:41-50 `DefaultColors` (nine entries, the last one a nil function). -/
def colors : List (Option Str) :=
  [some b!"37", some b!"36", some b!"35", some b!"31", some b!"33", some b!"32", some b!"34", some b!"30", none]

/-- app_util.go:335-344 `newBrush` for a non-empty color. -/
def brush (color text : Str) : Str := b!"\x1b[1;" ++ color ++ b!"m" ++ text ++ b!"\x1b[0m"

/-- log.go:106-121 `baseLogger`; `reqPrefix` is log.go:360's (`none`: a plain logger). `prefixParser` is given by
the prefix it returns for a call (see `Call.parsed`) and here only by whether it is set. -/
structure Logger where
  pref : Str
  level : Int
  stack : Int
  color : Bool
  line : Bool
  short : Bool
  depth : Int
  flat : Bool
  hasParser : Bool
  reqPrefix : Option Str
deriving DecidableEq

/-- log.go:125-134 `NewLogger`. -/
def newLogger : Logger := ⟨[], 8, 0, false, false, false, 4, true, false, none⟩

/-- log.go:363-374 `NewReqLogger`. -/
def newReqLogger (reqId : Str) : Logger :=
  { newLogger with reqPrefix := some (b!"[" ++ reqId ++ b!"]"), pref := b!"[" ++ reqId ++ b!"]" }

/-- log.go:55-59 `LineOpt`. -/
structure LineOpt where
  depth : Int := 0
  stack : Bool := false
  hidden : Bool := false
deriving DecidableEq

/-- The pairs of logging methods (`Emergency`/`Emergencyf`, …), and `Recover` with a level given by the caller.
(log.go:79-97). -/
inductive Method where
  | emergency | alert | critical | error | warn | notice | info | debug
  | recoverAt (v : Int)
deriving DecidableEq

/-- log.go:172-234, 240: the level each method passes to `write`/`writef`. -/
def Method.level : Method → Int
  | .emergency => 1
  | .alert => 2
  | .critical => 3
  | .error => 4
  | .warn => 5
  | .notice => 6
  | .info => 7
  | .debug => 8
  | .recoverAt v => v

/-- A call of a logging method (log.go:172-234) or `Recover`'s own call (log.go:240-242). `formatted`: the method
ending in `f`; `text` is the formatted text without `Sprintln`'s newline; `opt` the trailing `LineOpt` argument, if any; `parsed` what the
prefix parser returns; `caller short depth` the file and line shown for a caller depth (empty: not found), with
shortened file names; `trace depth` the stack trace. -/
structure Call where
  method : Method
  formatted : Bool
  text : Str
  opt : Option LineOpt
  parsed : Str
  caller : Bool → Int → Str
  trace : Int → Str

/-- log.go:252-263 `parseValues`. -/
def lineOpt (l : Logger) (c : Call) : LineOpt :=
  match c.opt with
  | none => { depth := l.depth }
  | some o => { o with depth := o.depth + l.depth }

/-- log.go:320-328 `getPrefix`. -/
def getPrefix (l : Logger) (c : Call) : Str := if l.hasParser then l.pref ++ c.parsed else l.pref

/-- log.go:274, 287: `Sprintf` or `Sprintln`. -/
def message (c : Call) : Str := if c.formatted then c.text else c.text ++ [10]

/-- log.go:330-344 `funcCallMsg`. -/
def funcCallMsg (l : Logger) (c : Call) (depth : Int) : Str := if depth > 0 then c.caller l.short depth else []

/-- log.go:304-307: is a stack trace added? -/
def wantsStack (l : Logger) (level : Int) (o : LineOpt) (msg : Str) : Bool :=
  (level ≤ l.stack || o.stack) && !(decide (5 < msg.length) && (msg.take 5 == b!"PANIC" || msg.take 5 == b!"STACK"))

/-- `strings.Replace(s, "\n", "\\n", -1)` (log.go:314). -/
def escapeNL : Str → Str
  | [] => []
  | c :: r => if c = 10 then 92 :: 110 :: escapeNL r else c :: escapeNL r

/-- log.go:312-315. -/
def flatten (s : Str) : Str := escapeNL (trimSuffix s [10])

/-- log.go:291-317 `print`: what `out.Print` is called with; `none`: an index out of range (log.go:292) or the nil
color (log.go:299) panics. -/
def print (l : Logger) (level : Int) (pref msg : Str) (c : Call) (o : LineOpt) : Option Str :=
  if level < 1 then none
  else
    match levelTag[(level - 1).toNat]?, colors[(level - 1).toNat]? with
    | some tag, some col =>
      match (if l.color then col.map (fun k => brush k (tag ++ pref ++ (if l.line && !o.hidden then funcCallMsg l c o.depth else [])))
             else some (tag ++ pref ++ (if l.line && !o.hidden then funcCallMsg l c o.depth else []))) with
      | none => none
      | some head =>
        some ((fun out => if l.flat then flatten out else out)
          (head ++ b!" " ++ msg ++ (if wantsStack l level o msg then [10] ++ c.trace o.depth else [])))
    | _, _ => none

/-- The effect of a log call: nothing, one call of `out.Print`, or a panic (log.go:291-318). -/
inductive Res where
  | silent
  | printed (s : Str)
  | panics
deriving DecidableEq

/-- log.go:265-289 `writef` and `write`, with the package's `GlobalLevel`. -/
def write (glob : Int) (l : Logger) (c : Call) : Res :=
  if c.method.level > l.level ∨ c.method.level > glob then .silent
  else
    match print l c.method.level (getPrefix l c) (message c) c (lineOpt l c) with
    | some s => .printed s
    | none => .panics

/-- Things that happen to a logger: settings (log.go:136-170, 376-378), changes of `GlobalLevel` and calls. -/
inductive Ev where
  | setPrefix (p : Str)
  | setParser (on : Bool)
  | setLevel (v : Int)
  | setColor (b : Bool)
  | setDepth (d : Int)
  | setLine (b : Bool)
  | setShort (b : Bool)
  | setFlat (b : Bool)
  | enableStack (v : Int)
  | setGlobal (v : Int)
  | call (c : Call)

/-- The logger and `GlobalLevel` (log.go:13-15, 106-121). -/
structure St where
  log : Logger
  glob : Int

/-- log.go:136-170; log.go:376-378 for request loggers; log.go:13-15. -/
def St.set (s : St) : Ev → St
  | .setPrefix p => { s with log := { s.log with pref := (s.log.reqPrefix.getD []) ++ p } }
  | .setParser b => { s with log := { s.log with hasParser := b } }
  | .setLevel v => { s with log := { s.log with level := v } }
  | .setColor b => { s with log := { s.log with color := b } }
  | .setDepth d => { s with log := { s.log with depth := d } }
  | .setLine b => { s with log := { s.log with line := b } }
  | .setShort b => { s with log := { s.log with short := b } }
  | .setFlat b => { s with log := { s.log with flat := b } }
  | .enableStack v => { s with log := { s.log with stack := v } }
  | .setGlobal v => { s with glob := v }
  | .call _ => s

/-- The results of the calls of a history, in order (a sequence of calls of log.go:136-250). -/
def run : List Ev → St → List (Call × Res)
  | [], _ => []
  | .call c :: es, s => (c, write s.glob s.log c) :: run es s
  | e :: es, s => run es (s.set e)

/-- log.go:13-15: the initial `GlobalLevel`. -/
def start (l : Logger) : St := ⟨l, 8⟩

/-- The standard library's `log.Logger.Print` (`DefaultLogPrinter`, log.go:52): its header (date and time), the
text, and a newline unless the text ends with one; go1.13 log.go `Output`. -/
def stdPrint (hdr s : Str) : Str := hdr ++ s ++ (if s.getLast? = some 10 then [] else [10])

/-- log.go:236-250 `Recover`: `panicked` is the value `f` panics with (`none`: it returns, or panics with nil),
given as its logged text. Returns the result and the effect on the log; `none`: the panic is not recovered but
replaced by one from the logging itself. -/
def recover (glob : Int) (l : Logger) (panicked : Option Str) (level : Option Int) (caller : Bool → Int → Str)
    (trace : Int → Str) (parsed : Str) : Option (Option Str) × Res :=
  match panicked with
  | none => (some none, .silent)
  | some v =>
    match level with
    | some lv =>
      match write glob l ⟨.recoverAt lv, false, v, some { depth := 4, stack := true }, parsed, caller, trace⟩ with
      | .panics => (none, .panics)
      | r => (some (some v), r)
    | none =>
      match write glob l ⟨.error, false, v, some { depth := 5, stack := true }, parsed, caller, trace⟩ with
      | .panics => (none, .panics)
      | r => (some (some v), r)

end Verif.Log
