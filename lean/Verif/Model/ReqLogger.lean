import Verif.Go.Enc
import Verif.Go.Strconv
import Verif.Model.Params
/-!
# Request ids and the request logging filter: request-logger/reqid.go, request-logger/logger.go
-/
namespace Verif.ReqLog
open Verif.Go Verif.Params

/-- `binary.LittleEndian.PutUint32` / `PutUint64` for `k` bytes (request-logger/reqid.go:19-20). -/
def putLE : Nat → Nat → Str
  | 0, _ => []
  | k + 1, v => UInt8.ofNat (v % 256) :: putLE k (v / 256)

/-- `binary.LittleEndian.Uint32` / `Uint64` of all the bytes (request-logger/reqid.go:29-30). -/
def getLE : Str → Nat
  | [] => 0
  | c :: r => c.toNat + 256 * getLE r

/-- request-logger/reqid.go:17-22 `NewReqId`: `rnd` is the process's random number (reqid.go:15), `nano` the time. -/
def newReqId (rnd : UInt32) (nano : Int) : Str :=
  b64Encode (putLE 4 rnd.toNat ++ putLE 8 (wrapU 64 nano).toNat)

/-- request-logger/reqid.go:24-32 `DecodeReqId`. -/
def decodeReqId (s : Str) : Nat × Int :=
  if (b64Decode s).2 = true ∨ (b64Decode s).1.length < 12 then (0, 0)
  else (getLE ((b64Decode s).1.take 4), wrapS 64 (getLE (((b64Decode s).1.drop 4).take 8)))

/-- `http.Header.Get` (keys already canonical) (request-logger/logger.go:44). -/
def hdrGet (h : Values) (k : Str) : Str := ((lookup h k).getD []).headD []

/-- `http.Header.Del` (request-logger/logger.go:90). -/
def hdrDel (h : Values) (k : Str) : Values := h.filter (fun e => e.1 ≠ k)

/-- `http.Header.Set` (request-logger/logger.go:63-64, 91, 93). -/
def hdrSet (h : Values) (k v : Str) : Values := hdrDel h k ++ [(k, [v])]

/-- request-logger/logger.go:15-16. -/
def headerReqid : Str := b!"X-Reqid"
/-- request-logger/logger.go:16. -/
def headerTime : Str := b!"X-Response-Time"

/-- What the filter sees and changes: the request's headers, the response's headers, the before-callbacks of the
response writer in registration order (restricted to their effect on the response headers).
(request-logger/logger.go:41, 88-89). -/
structure RS where
  req : Values
  resp : Values
  befores : List (Values → Values)

/-- request-logger/logger.go:44-52: the request id; `fresh` is `NewReqId()`, `flt` the `ReqidFilter` option. -/
def chooseId (inbound fresh : Str) (flt : Option (Str → Str)) : Str :=
  match flt with
  | none => if inbound.length < 10 ∨ inbound.length > 32 then fresh else inbound
  | some f => f (if inbound.length < 10 ∨ inbound.length > 32 then fresh else inbound)

/-- request-logger/logger.go:89-94: the before-callback; `times` is the formatted duration. -/
def stampHook (id times : Str) (h : Values) : Values :=
  hdrSet (hdrSet (hdrDel h headerReqid) headerReqid id) headerTime times

/-- request-logger/logger.go:41-94: the part of the filter before `ctx.Next()`, as far as headers go (the log lines,
the providers and the request context are not modelled here). -/
def filterIn (fresh times : Str) (flt : Option (Str → Str)) (s : RS) : RS :=
  { req := hdrSet s.req headerReqid (chooseId (hdrGet s.req headerReqid) fresh flt)
    resp := hdrSet s.resp headerReqid (chooseId (hdrGet s.req headerReqid) fresh flt)
    befores := s.befores ++ [stampHook (chooseId (hdrGet s.req headerReqid) fresh flt) times] }

/-- response.go:123-127: the response headers when they are sent: the callbacks run last registered first. -/
def sent (s : RS) : Values := s.befores.reverse.foldl (fun h f => f h) s.resp

/-- request-logger/logger.go:113-129 `realIp` (its own copy, unlike params/real.go). -/
def logRealIp (r : Req) : Str :=
  if r.header b!"X-Real-Ip" ≠ [] then trimSpace (r.header b!"X-Real-Ip")
  else if firstPart 44 (r.header b!"X-Forwarded-For") ≠ [] then
    trimSpace (firstPart 58 (firstPart 44 (r.header b!"X-Forwarded-For")))
  else if (58 : UInt8) ∈ r.remoteAddr then
    ((r.remoteAddr.reverse.dropWhile (fun c => c != 58)).drop 1).reverse
  else r.remoteAddr

end Verif.ReqLog
