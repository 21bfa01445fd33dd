import Verif.Model.Context
/-!
# The request logger as a filter: request-logger/logger.go:36-111
-/
namespace Verif.Ctx
open Verif.Resp

/-- request-logger/logger.go:36-111 `ReqLoggerFilter`, without content filters (:50-57, :81-83, :104-106 with nil
functions): log REQ_BEG, register a callback (it sets headers only, `cb` is its identity), `Next`, log REQ_END with the
status (200 for none, :97-100) and the size of the response. The request id is the subject of C57 and C58, the address of
C56, the text of the lines of C80. -/
def reqLogger (cb : Nat) : Act :=
  .eff .reqBeg (.op (.before ⟨cb, none, false⟩) (.next (.stat fun status size =>
    .eff (.reqEnd (if status = 0 then 200 else status) size) .done)))

end Verif.Ctx
