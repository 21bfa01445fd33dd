import Verif.Model.Gzip
import Verif.Model.ApiRes
/-!
# The gzip filter among the other filters of a request: gzip/gzip.go, router_action_out.go

The gzip filter puts its writer into the request's injector (gzip.go:36), which the nested contexts of routes share
(context.go:109-123); `GenericOutFilter` looks the writer up after the handlers that follow it have returned
(router_action_out.go:37-44). Filters other than these two are taken to leave the response alone. Panics are the subject of C21 and C99.
-/
namespace Verif.Gz
open Verif.Resp

/-- The response and the gzip writers made for it, the newest first: each writes to the next, the last one to the strip response writer
(gzip/gzip.go:34-36). The field `gz` of `base` is not used. -/
structure WS (C : Codec) where
  base : GS C
  gzs : List (Option C.St)

/-- A filter of a request: the gzip filter (gzip/gzip.go:23), `GenericOutFilter` (router_action_out.go:34), another one. -/
inductive Flt where
  | gzip
  | out
  | pass
deriving DecidableEq, Repr

variable {C : Codec}

/-- gzip/gzip.go:53-58: what the first `Write` does to the headers. -/
def firstHdr (detect : Str → Str) (h : Hdr) (p : Str) : Hdr :=
  if (h.set b!"Content-Length" []) b!"Content-Type" = [] then (h.set b!"Content-Length" []).set b!"Content-Type" (detect p)
  else h.set b!"Content-Length" []

/-- gzip/gzip.go:49-62 `Write`, through all gzip writers. -/
def through (detect : Str → Str) : List (Option C.St) → Str → GS C → List (Option C.St) × GS C
  | [], p, g => ([], g.rawWrite p)
  | some st :: ws, p, g =>
    (some (C.write st p).1 :: (through detect ws (C.write st p).2 g).1, (through detect ws (C.write st p).2 g).2)
  | none :: ws, p, g =>
    (some (C.write C.init p).1 :: (through detect ws (C.write C.init p).2 { g with hdr := firstHdr detect g.hdr p }).1,
      (through detect ws (C.write C.init p).2 { g with hdr := firstHdr detect g.hdr p }).2)

/-- A call on the newest writer (gzip/gzip.go:43-70). -/
def WS.op (detect : Str → Str) (s : WS C) : GOp → WS C
  | .write p => ⟨(through detect s.gzs p s.base).2, (through detect s.gzs p s.base).1⟩
  | o => { s with base := s.base.common o }

/-- gzip/gzip.go:72-76 `close` of the writer that has `n` others below it. -/
def WS.closeAt (detect : Str → Str) (n : Nat) (s : WS C) : WS C :=
  match s.gzs.drop (s.gzs.length - (n + 1)) with
  | some st :: low =>
    ⟨(through detect low (C.close st) s.base).2, s.gzs.take (s.gzs.length - n) ++ (through detect low (C.close st) s.base).1⟩
  | _ => s

/-- The filters of a request in the order in which they run, then the action (context.go:70-107; gzip/gzip.go:23-41;
router_action_out.go:34-90). `action` are the calls of the action, `result` those that `GenericOutFilter` makes for the values it
returned. -/
def chain (detect : Str → Str) (accept : Str) (action result : List GOp) : List Flt → WS C → WS C
  | [], s => action.foldl (WS.op detect) s
  | .pass :: fs, s => chain detect accept action result fs s
  | .gzip :: fs, s =>
    if contains accept b!"gzip" then
      (chain detect accept action result fs
        ⟨{ s.base with hdr := (s.base.hdr.set b!"Content-Encoding" b!"gzip").set b!"Vary" b!"Accept-Encoding" }, none :: s.gzs⟩).closeAt
          detect s.gzs.length
    else chain detect accept action result fs s
  | .out :: fs, s =>
    if (chain detect accept action result fs s).base.rw.written then chain detect accept action result fs s
    else result.foldl (WS.op detect) (chain detect accept action result fs s)

/-- The calls an API result makes on the writer it is given: the content type, then status and body (utils/apires/res.go:17-35, 61-76). -/
def resultOps (e : Api.Eff) : List GOp :=
  (e.contentType.map (GOp.setHeader b!"Content-Type")).toList ++
    e.ops.filterMap fun o => match o with
      | .writeHeader s => some (.writeHeader s)
      | .write bs _ => some (.write bs)
      | .flush => some .flush
      | _ => none

/-- A request of an application with these filters (app.go:102-117). -/
def request (C : Codec) (detect : Str → Str) (accept : Str) (action result : List GOp) (fs : List Flt) (befores : List BF) (hdr : Hdr) : GS C :=
  (chain detect accept action result fs ⟨{ rw := { newRW with befores := befores }, hdr := hdr }, []⟩).base

end Verif.Gz
