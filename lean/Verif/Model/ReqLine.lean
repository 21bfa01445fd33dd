import Verif.Model.ReqLogger
import Verif.Model.Log
/-!
# The lines of the request log: request-logger/logger.go:36-111

What the filter hands to the logger of the request. The text of the duration (`%0.3fms` of a float, :92, :101) is an input; sizes are below
2^53, where `float64(size)/1024.0` is exact.
-/
namespace Verif.ReqLog
open Verif.Go Verif.Params

/-- request-logger/logger.go:79: the text of REQ_BEG; `url` is `req.URL.String()`. -/
def begText (method host url addr : Str) : Str := b!"[REQ_BEG] " ++ method ++ b!" " ++ host ++ url ++ b!" " ++ addr

/-- `fmt.Sprintf("%0.3f", float64(size)/1024.0)` in thousandths: rounded to the nearest, ties to even (request-logger/logger.go:102;
strconv's `decimal.Round`). -/
def kilo (size : Nat) : Nat :=
  if size * 1000 % 1024 < 512 ∨ (size * 1000 % 1024 = 512 ∧ size * 1000 / 1024 % 2 = 0) then size * 1000 / 1024 else size * 1000 / 1024 + 1

/-- `%0.3f` of a number of thousandths (request-logger/logger.go:102). -/
def fixed3 (q : Nat) : Str := natDec (q / 1000) ++ [46, digit (q % 1000 / 100), digit (q % 100 / 10), digit (q % 10)]

/-- request-logger/logger.go:97-102: the text of REQ_END. -/
def endText (status : Int) (size : Nat) (times : Str) : Str :=
  b!"[REQ_END] " ++ fmtInt (if status = 0 then 200 else status) ++ b!" " ++ fixed3 (kilo size) ++ b!"k " ++ times

/-- request-logger/logger.go:23-33 `LoggerOption`; `pref` is what `PrefixFilter` returns (empty without one), `beg` and `fin` are
`ReqBegFilter` and `ReqEndFilter` (:30-31). -/
structure LineOpts where
  color : Bool := false
  line : Bool := false
  short : Bool := false
  flat : Bool := false
  stack : Int := 0
  pref : Str := []
  beg : Option (Str → Str) := none
  fin : Option (Str → Str) := none

/-- request-logger/logger.go:59-70: the settings of the logger of a request, in order. -/
def setUp (o : LineOpts) : List Log.Ev :=
  [.setPrefix o.pref, .setLine o.line, .setShort o.short, .setFlat o.flat, .setColor o.color, .enableStack o.stack]

/-- request-logger/logger.go:80-85, 103-108: the call of `Info` for a text, unless the filter leaves nothing of it. -/
def lineCall (flt : Option (Str → Str)) (text : Str) (caller : Bool → Int → Str) (trace : Int → Str) : List Log.Ev :=
  if (flt.getD id) text = [] then []
  else [.call ⟨.info, false, (flt.getD id) text, some { hidden := true }, [], caller, trace⟩]

/-- request-logger/logger.go:58-109: everything that happens to the logger of a request; `mid` is what the handlers behind the filter do
with it (:96). -/
def lineEvents (o : LineOpts) (bt et : Str) (mid : List Log.Ev) (caller : Bool → Int → Str) (trace : Int → Str) : List Log.Ev :=
  setUp o ++ lineCall o.beg bt caller trace ++ mid ++ lineCall o.fin et caller trace

/-- What the log is given in a request, in order (request-logger/logger.go:58-109). -/
def lineRun (id : Str) (o : LineOpts) (bt et : Str) (mid : List Log.Ev) (caller : Bool → Int → Str) (trace : Int → Str) : List Log.Res :=
  (Log.run (lineEvents o bt et mid caller trace) (Log.start (Log.newReqLogger id))).map Prod.snd

end Verif.ReqLog
