import Verif.Go.Bytes
/-!
# Model of the response writer (`response.go`)

The underlying `http.ResponseWriter` is represented by the list of calls it has received; it accepts every status code
(net/http panics for codes outside 100–999, see `Model/WireCode`).
-/
namespace Verif.Resp

/-- A before-callback (`response.go:31` `BeforeFunc`): an identity, the status it passes to
`WriteHeader` (if it calls it) and whether it panics afterwards. Callbacks that call `Write` on the
same writer are not modelled: they deadlock in `sync.Once`. -/
structure BF where
  id : Nat
  status : Option Nat
  panics : Bool
deriving DecidableEq, Repr

/-- Observable events, in order: a callback ran, and the calls received by the underlying writer
(`body bs`: `bs` are the bytes it accepted) (response.go:74, 77, 119, 125). -/
inductive Ev where
  | before (id : Nat)
  | header (code : Nat)
  | body (bs : Str)
  | flush
deriving DecidableEq, Repr

/-- `response.go:43-52` `responseWriter`, plus the events so far. -/
structure RW where
  status : Nat := 0
  size : Nat := 0
  befores : List BF := []
  once : Bool := false
  hijacked : Bool := false
  events : List Ev := []
deriving DecidableEq, Repr

/-- Calls on the response writer. `write bs n`: the underlying writer accepts `n` of the bytes (response.go:55-121). -/
inductive Op where
  | writeHeader (s : Nat)
  | write (bs : Str) (n : Nat)
  | flush
  | before (b : BF)
  | hijack
deriving DecidableEq, Repr

/-- `response.go:90-92` `Written`. -/
def RW.written (w : RW) : Bool := w.status ≠ 0

/-- `response.go:55-60` `WriteHeader`; the flag is a panic. -/
def RW.writeHeader (w : RW) (s : Nat) : RW × Bool :=
  if s = 0 then (w, true) else ({ w with status := s }, false)

/-- `response.go:123-127` `callBefore`, over the callbacks in calling order. -/
def callBefore : List BF → RW → RW × Bool
  | [], w => (w, false)
  | b :: bs, w =>
    let w := { w with events := w.events ++ [.before b.id] }
    match b.status with
    | none => if b.panics then (w, true) else callBefore bs w
    | some s =>
      match w.writeHeader s with
      | (w, true) => (w, true)
      | (w, false) => if b.panics then (w, true) else callBefore bs w

/-- `response.go:63-75`: the function run by `sync.Once` (which counts as done even if it panics). -/
def commit (w : RW) : RW × Bool :=
  match callBefore w.befores.reverse { w with once := true } with
  | (w, true) => (w, true)
  | (w, false) =>
    let w := if w.status = 0 then { w with status := 200 } else w
    if w.hijacked then (w, false)
    else ({ w with events := w.events ++ [.header w.status] }, false)

/-- `response.go:77-79`: the underlying write of `bs`, of which `n` bytes are accepted. -/
def writeBody (w : RW) (bs : Str) (n : Nat) : RW :=
  { w with size := w.size + (bs.take n).length, events := w.events ++ [.body (bs.take n)] }

/-- `response.go:62-80` `Write`. -/
def RW.write (w : RW) (bs : Str) (n : Nat) : RW × Bool :=
  if w.once then (writeBody w bs n, false)
  else
    match commit w with
    | (w, true) => (w, true)
    | (w, false) => (writeBody w bs n, false)

/-- One call on the response writer (`response.go:55-127`). `Hijack` succeeds (a failing one changes
nothing). -/
def RW.op (w : RW) : Op → RW × Bool
  | .writeHeader s => w.writeHeader s
  | .write bs n => w.write bs n
  | .flush => ({ w with events := w.events ++ [.flush] }, false)
  | .before b => ({ w with befores := w.befores ++ [b] }, false)
  | .hijack => ({ w with hijacked := true }, false)

/-- A sequence of calls; a panic in a call is assumed to be recovered by the caller.
(a sequence of calls of response.go:55-121). -/
def runOps : List Op → RW → RW
  | [], w => w
  | o :: os, w => runOps os (w.op o).1

/-- `response.go:34-41` `newResponseWriter`. -/
def newRW : RW := {}

end Verif.Resp
