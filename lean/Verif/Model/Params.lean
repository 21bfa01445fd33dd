import Verif.Go.Strconv
import Verif.Model.Conv
/-!
# Request parameters: params/params.go, params/real.go, params/binder.go
-/
namespace Verif.Params
open Verif.Go Verif.Conv

/-! ## params/real.go -/

/-- The parts of a request that real.go reads: `Header.Get` (empty when absent), `RemoteAddr`, `Host`, the URL's
scheme and `RequestURI()`. -/
structure Req where
  header : Str → Str
  remoteAddr : Str
  host : Str
  scheme : Str
  requestURI : Str

/-- `strings.Split(s, ":")[0]` and `strings.Split(s, ",")[0]` (params/real.go:15-18, 22, 37). -/
def firstPart (sep : UInt8) (s : Str) : Str := (splitOn1 sep s).headD []

/-- params/real.go:9-30 `RealIp`. -/
def realIp (r : Req) : Str :=
  if r.header b!"X-Real-Ip" ≠ [] then r.header b!"X-Real-Ip"
  else if firstPart 44 (r.header b!"X-Forwarded-For") ≠ [] then
    firstPart 58 (firstPart 44 (r.header b!"X-Forwarded-For"))
  else if firstPart 58 r.remoteAddr ≠ b!"[" then firstPart 58 r.remoteAddr
  else b!"127.0.0.1"

/-- params/real.go:32-42 `RealHost`. -/
def realHost (r : Req) : Str :=
  firstPart 58 (if r.header b!"X-Forwarded-Host" = [] then r.host else r.header b!"X-Forwarded-Host")

/-- params/real.go:44-53 `RealProto`. -/
def realProto (r : Req) : Str :=
  if r.header b!"X-Forwarded-Proto" ≠ [] then r.header b!"X-Forwarded-Proto"
  else if r.scheme ≠ [] then r.scheme
  else b!"http"

/-- params/real.go:55-61 `RealURI`. -/
def realURI (r : Req) : Str :=
  if r.header b!"X-Original-URI" = [] then r.requestURI else r.header b!"X-Original-URI"

/-! ## params/params.go: collecting the parameters -/

/-- A `url.Values` map: entries with distinct keys, in the order a `range` visits them (params/params.go:28, 34-35). -/
abbrev Values := List (Str × List Str)

/-- `m[k]` (`none`: not present) (params/binder.go:40, params/params.go:199). -/
def lookup (m : Values) (k : Str) : Option (List Str) := (m.find? (fun e => e.1 = k)).map (fun e => e.2)

/-- `values[k] = append(values[k], v...)` (params/params.go:234, 237, 240). -/
def appendAt (m : Values) (k : Str) (v : List Str) : Values :=
  if m.any (fun e => e.1 = k) then m.map (fun e => if e.1 = k then (e.1, e.2 ++ v) else e) else m ++ [(k, v)]

/-- params/params.go:212-243 `calcValues`; each argument is given in the order its loop visits it. -/
def calcValues (query route form : Values) : Values :=
  if query.length + route.length + form.length = 0 then []
  else if query.length + route.length + form.length = query.length then query
  else if query.length + route.length + form.length = route.length then route
  else if query.length + route.length + form.length = form.length then form
  else form.foldl (fun m e => appendAt m e.1 e.2)
    (route.foldl (fun m e => appendAt m e.1 e.2) (query.foldl (fun m e => appendAt m e.1 e.2) []))

/-- params/params.go:48-53: the media type. -/
def mediaType (contentType : Str) : Str :=
  if contentType = [] then b!"text/html" else toLower (trimSpace (firstPart 59 contentType))

/-- What net/http gives for the body: `postForm` is what `ParseForm` reads from the body (empty for methods
without one; `none`: it reports an error, also for a malformed query), `multipart` the values of
`ParseMultipartForm` (params/params.go:58-77). -/
structure Body where
  postForm : Option Values
  multipart : Option Values

/-- net/http `ParseForm`: `Form` is the body's values, then the query's for each key (params/params.go:60-63). -/
def httpForm (body query : Values) : Values :=
  query.foldl (fun m e => appendAt m e.1 e.2) (body.foldl (fun m e => appendAt m e.1 e.2) [])

/-- params/params.go:44-81 `ParseParams`: the merged values, `none` when it returns an error (then `Values` stays
nil and every lookup is empty). -/
def parseParams (contentType : Str) (query route : Values) (body : Body) : Option Values :=
  if mediaType contentType = b!"application/x-www-form-urlencoded" then
    match body.postForm with
    | none => none
    | some b => some (calcValues query route (httpForm b query))
  else if mediaType contentType = b!"multipart/form-data" then
    match body.multipart with
    | none => none
    | some b => some (calcValues query route b)
  else some (calcValues query route [])

end Verif.Params
