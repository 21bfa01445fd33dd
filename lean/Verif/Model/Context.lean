import Verif.Model.Response
/-!
# Model of the request context (`context.go`), of the recovery filter (`recovery.go`) and of `ServeHTTP`
(`app.go:102-124`)

A handler is an arbitrary program over the operations a handler has: response writer calls, `Next`,
`Written`, panics, other visible effects, and running a nested context (`router.go:194-198`).  The
programs are interaction trees, so a theorem about all chains of `Act`s is about all handlers that act
through these operations.  Dependency injection is left out here (C22–C28): a failing injection is a
panic (`context.go:97-100`).
-/
namespace Verif.Ctx
open Verif.Resp

/-- A panic value; `none` is `panic(nil)` (recovery.go:65). -/
abbrev PVal := Option Nat

/-- A visible effect of a handler other than on the response: a number, or a line of the request log
(`request-logger/logger.go:79-86`, `:98-109`) with the status and size it reports. -/
inductive Note where
  | num (n : Nat)
  | reqBeg
  | reqEnd (status size : Nat)
deriving DecidableEq, Repr

instance (n : Nat) : OfNat Note n := ⟨.num n⟩

/-- A handler program (what a filter or action may call: context.go:70-77, response.go:55-121, router.go:147, 194). -/
inductive Act where
  | done
  | panic (v : PVal)
  /-- call `ctx.Next()` (`context.go:70-73`) -/
  | next (k : Act)
  /-- call `ctx.Next()` inside a function with a deferred `recover()`; the continuation is told the
  recovered panic, if any (this is how `recovery.go:64-97` is written) -/
  | tryNext (k : Option PVal → Act)
  /-- a call on the response writer -/
  | op (o : Op) (k : Act)
  /-- `ctx.Written()` (`context.go:75-77`) -/
  | written (k : Bool → Act)
  /-- `rw.Status()` and `rw.Size()` (`response.go:82-88`) -/
  | stat (k : Nat → Nat → Act)
  /-- some other visible effect -/
  | eff (n : Note) (k : Act)
  /-- create a nested context with these handlers and run it (`context.go:109-130`) -/
  | nest (n : Nat) (hs : Fin n → Act) (k : Act)

/-- What happens in one context, in order (nested contexts excluded) (context.go:97-101). -/
inductive CEv where
  | start (i : Nat)
  /-- handler `i` returned; the flag is `Written()` at that moment -/
  | fin (i : Nat) (w : Bool)
  /-- handler `i` called `Next`; the flag is `Written()` at that moment -/
  | nextBeg (i : Nat) (w : Bool)
  | nextEnd (i : Nat)
  /-- `Next` called by handler `i` panicked with `v` and `i` recovered; `rw` is the response writer at
  that moment -/
  | nextRec (i : Nat) (v : PVal) (rw : RW)
  | eff (i : Nat) (n : Note)
deriving DecidableEq, Repr

/-- `context.go:30-40`: the index of the context and the response writer, with the events so far. -/
structure S where
  idx : Nat
  rw : RW
  tr : List CEv

/-- adds an event of context.go:97. -/
def S.push (s : S) (e : CEv) : S := { s with tr := s.tr ++ [e] }
/-- context.go:93, 101: `c.index += 1`. -/
def S.bump (s : S) : S := { s with idx := s.idx + 1 }

/-- State and the panic in flight, if any (context.go:89-107). -/
abbrev Out := S × Option PVal

/-- `context.go:89-107` `run`, for a chain of `n` handlers (the filters and the action). `body i nxt`
executes handler `i`, where `nxt` is `ctx.Next`. The fuel bounds the number of iterations and of nested
calls; `n - idx` is enough, see `loop_res`. A nil action (`context.go:92-95`) is a chain without it. -/
def loop (n : Nat) (body : Nat → (S → Out) → S → Out) : Nat → S → Out
  | 0, s => (s, none)
  | f + 1, s =>
    if s.idx < n then
      match body s.idx (fun s' => loop n body f s'.bump) (s.push (.start s.idx)) with
      | (s', some v) => (s', some v)
      | (s', none) =>
        let s'' := s'.bump.push (.fin s.idx s'.rw.written)
        if s''.rw.written then (s'', none) else loop n body f s''
    else (s, none)

/-- Execute a handler; `i` is its index (for the events), `nxt` is `ctx.Next` (the call of context.go:97). -/
def interp : Act → Nat → (S → Out) → S → Out
  | .done, _, _, s => (s, none)
  | .panic v, _, _, s => (s, some v)
  | .next k, i, nxt, s =>
    match nxt (s.push (.nextBeg i s.rw.written)) with
    | (s', none) => interp k i nxt (s'.push (.nextEnd i))
    | (s', some v) => (s', some v)
  | .tryNext k, i, nxt, s =>
    match nxt (s.push (.nextBeg i s.rw.written)) with
    | (s', none) => interp (k none) i nxt (s'.push (.nextEnd i))
    | (s', some v) => interp (k (some v)) i nxt (s'.push (.nextRec i v s'.rw))
  | .op o k, i, nxt, s =>
    match s.rw.op o with
    | (w, true) => ({ s with rw := w }, some (some 0))
    | (w, false) => interp k i nxt { s with rw := w }
  | .written k, i, nxt, s => interp (k s.rw.written) i nxt s
  | .stat k, i, nxt, s => interp (k s.rw.status s.rw.size) i nxt s
  | .eff e k, i, nxt, s => interp k i nxt (s.push (.eff i e))
  | .nest n hs k, i, nxt, s =>
    match loop n (fun j nx s => if h : j < n then interp (hs ⟨j, h⟩) j nx s else (s, none)) n
        ⟨0, s.rw, []⟩ with
    | (s', none) => interp k i nxt { s with rw := s'.rw }
    | (s', some v) => ({ s with rw := s'.rw }, some v)

/-- Execute handler `i` of a chain (context.go:79-87, 97). -/
def handlerOf (hs : List Act) (i : Nat) (nxt : S → Out) (s : S) : Out :=
  match hs[i]? with
  | some a => interp a i nxt s
  | none => (s, none)

/-- Run a chain of handlers in a fresh context (`context.go:44-60`, `:89-107`). -/
def run (hs : List Act) (rw : RW) : Out := loop hs.length (handlerOf hs) hs.length ⟨0, rw, []⟩

/-- `recovery.go:62-101` `RecoveryFilter`: whether a `Logger` is provided, and the page written in
development mode (`none` in production). -/
def recovery (hasLogger : Bool) (devPage : Option Str) : Act :=
  .tryNext fun r =>
    match r with
    | none => .done
    | some none => .done            -- recover() returns nil for panic(nil)
    | some (some _) =>
      if !hasLogger then .done
      else .written fun wr =>
        if wr then .done
        else .op (.writeHeader 500)
          (match devPage with
           | none => .done
           | some page => .op (.write page page.length) .done)

/-- `app.go:102-124` `ServeHTTP`: run the filters and the routing action, then `Write(nil)`. The flag
tells whether a panic escapes to the server. -/
def serveHTTP (hs : List Act) : RW × Option PVal :=
  match run hs newRW with
  | (s, some v) => (s.rw, some v)
  | (s, none) =>
    match s.rw.write [] 0 with
    | (w, true) => (w, some (some 0))
    | (w, false) => (w, none)

end Verif.Ctx
