import Verif.Model.Context
/-!
# The response writer over a server that refuses invalid status codes

`Model/Response` lets the underlying `http.ResponseWriter` accept every status code. The writer of net/http panics in
`WriteHeader` for a code below 100 or above 999, unless the header was already sent (then the call is ignored). Here the
calls of `response.go` and the request processing of `context.go` and `app.go` are modelled over such a writer.
Negative codes are not modelled (they behave as 1). Informational codes (1xx) are treated as final, as in Go 1.13.
-/
namespace Verif.Resp

/-- The codes net/http accepts (called at response.go:74). -/
def okCode (c : Nat) : Bool := decide (100 ≤ c) && decide (c ≤ 999)

/-- The underlying writer has sent a header: by a `WriteHeader`, or by itself at a `Write` or `Flush`
(called at response.go:74, 77, 119). -/
def sent (es : List Ev) : Bool :=
  es.any fun e => match e with | .before _ => false | _ => true

/-- `response.go:63-75`, where the call of line 74 panics for an invalid code. The panic leaves the function of `sync.Once`
done. -/
def commitV (w : RW) : RW × Bool :=
  match callBefore w.befores.reverse { w with once := true } with
  | (w, true) => (w, true)
  | (w, false) =>
    if w.hijacked then ({ w with status := if w.status = 0 then 200 else w.status }, false)
    else if !sent w.events && !okCode (if w.status = 0 then 200 else w.status) then
      ({ w with status := if w.status = 0 then 200 else w.status }, true)
    else ({ w with status := if w.status = 0 then 200 else w.status,
                   events := w.events ++ [.header (if w.status = 0 then 200 else w.status)] }, false)

/-- `response.go:62-80` `Write`. -/
def RW.writeV (w : RW) (bs : Str) (n : Nat) : RW × Bool :=
  if w.once then (writeBody w bs n, false)
  else
    match commitV w with
    | (w, true) => (w, true)
    | (w, false) => (writeBody w bs n, false)

/-- One call on the response writer (`response.go:55-127`). -/
def RW.opV (w : RW) : Op → RW × Bool
  | .write bs n => w.writeV bs n
  | o => w.op o

/-- A sequence of calls, every panic recovered by the caller (response.go:55-121). -/
def runOpsV : List Op → RW → RW
  | [], w => w
  | o :: os, w => runOpsV os (w.opV o).1

end Verif.Resp

namespace Verif.Ctx
open Verif.Resp

/-- `interp` (the call of context.go:97) over such a server: the same, but for the calls on the response. -/
def interpV : Act → Nat → (S → Out) → S → Out
  | .done, _, _, s => (s, none)
  | .panic v, _, _, s => (s, some v)
  | .next k, i, nxt, s =>
    match nxt (s.push (.nextBeg i s.rw.written)) with
    | (s', none) => interpV k i nxt (s'.push (.nextEnd i))
    | (s', some v) => (s', some v)
  | .tryNext k, i, nxt, s =>
    match nxt (s.push (.nextBeg i s.rw.written)) with
    | (s', none) => interpV (k none) i nxt (s'.push (.nextEnd i))
    | (s', some v) => interpV (k (some v)) i nxt (s'.push (.nextRec i v s'.rw))
  | .op o k, i, nxt, s =>
    match s.rw.opV o with
    | (w, true) => ({ s with rw := w }, some (some 0))
    | (w, false) => interpV k i nxt { s with rw := w }
  | .written k, i, nxt, s => interpV (k s.rw.written) i nxt s
  | .stat k, i, nxt, s => interpV (k s.rw.status s.rw.size) i nxt s
  | .eff e k, i, nxt, s => interpV k i nxt (s.push (.eff i e))
  | .nest n hs k, i, nxt, s =>
    match loop n (fun j nx s => if h : j < n then interpV (hs ⟨j, h⟩) j nx s else (s, none)) n
        ⟨0, s.rw, []⟩ with
    | (s', none) => interpV k i nxt { s with rw := s'.rw }
    | (s', some v) => ({ s with rw := s'.rw }, some v)

/-- Execute handler `i` of a chain (context.go:79-87, 97). -/
def handlerOfV (hs : List Act) (i : Nat) (nxt : S → Out) (s : S) : Out :=
  match hs[i]? with
  | some a => interpV a i nxt s
  | none => (s, none)

/-- Run a chain of handlers in a fresh context (`context.go:44-60`, `:89-107`). -/
def runV (hs : List Act) (rw : RW) : Out := loop hs.length (handlerOfV hs) hs.length ⟨0, rw, []⟩

/-- `app.go:102-124` `ServeHTTP`; the final `Write(nil)` is outside of every filter. -/
def serveV (hs : List Act) : RW × Option PVal :=
  match runV hs newRW with
  | (s, some v) => (s.rw, some v)
  | (s, none) =>
    match s.rw.writeV [] 0 with
    | (w, true) => (w, some (some 0))
    | (w, false) => (w, none)

end Verif.Ctx
