import Verif.Go.Url
import Verif.Model.Params
/-!
# RealURL: params/real.go
-/
namespace Verif.Params
open Verif.Go

/-- The parts of an `http.Request` that `RealURL` reads. -/
structure Web where
  header : Str → Str
  remoteAddr : Str
  host : Str
  url : URL

/-- What the functions of params/real.go:9-61 see of a request: the URL's scheme and `RequestURI()`. -/
def Web.req (w : Web) : Req := ⟨w.header, w.remoteAddr, w.host, w.url.scheme, w.url.requestURI⟩

/-- params/real.go:63-75 `RealURL` (and params/params.go:310-312); `none` is the error. -/
def realURL (authority : Str → Option (Str × Str)) (w : Web) : Option URL :=
  match parseRequestURI authority (realURI w.req) with
  | none => none
  | some ins =>
    some { w.url with host := realHost w.req, scheme := realProto w.req, opaq := ins.opaq, path := ins.path,
                      rawQuery := ins.rawQuery }

end Verif.Params
