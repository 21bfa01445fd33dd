import Verif.Model.Response
/-!
# API results: utils/apires and router_action_out.go

What a result does to the response writer is given as the list of calls (`Resp.Op`); the response writer itself is
`Model/Response.lean`. The JSON encoder is a parameter. The underlying writer accepts all bytes.
-/
namespace Verif.Api
open Verif.Resp

/-- A value to be written as JSON: its encodings by `json.Marshal` and `json.MarshalIndent`; `none`: the encoder returns an
error, with this message's JSON object as the answer (encoding/json, as called in utils/apires/res.go:54-59). -/
structure JVal where
  plain : Option Str
  indented : Option Str
  errPlain : Str
  errIndented : Str

/-- A call of `Write` whose bytes are all accepted (utils/apires/res.go:65, 76). -/
def wr (bs : Str) : Op := .write bs bs.length

/-- What a result's `Write` does: the calls, and the `Content-Type` it sets (utils/apires/res.go:17-35, raw.go:15-49). -/
structure Eff where
  ops : List Op
  contentType : Option Str := none
deriving DecidableEq

/-- res.go:10 `jsonContentType` -/
def jsonType : Str := b!"application/json; charset=UTF-8"

/-- res.go:49-79 `writeJsonBody`; `dev`: `config.RunMode.IsDev()`. -/
def writeJson (dev : Bool) (status : Nat) (v : JVal) : Eff :=
  match (if dev then v.indented else v.plain) with
  | some b => ⟨[.writeHeader status, wr b], some jsonType⟩
  | none => ⟨[.writeHeader status, wr (if dev then v.errIndented else v.errPlain)], some jsonType⟩

/-- res.go:12-15 `ResBody`; no body is written as `struct{}{}` (res.go:21-23), that is "{}". -/
structure ResBody where
  status : Nat
  body : Option JVal

/-- the encoding of `struct{}{}`, utils/apires/res.go:22. -/
def emptyObject : JVal := ⟨some b!"{}", some b!"{}", [], []⟩

/-- res.go:37-43 `With` -/
def with_ (body : Option JVal) (status : List Nat) : ResBody :=
  match status with
  | [] => ⟨200, body⟩
  | s :: _ => ⟨s, body⟩

/-- res.go:45-47 `Ret` -/
def ret (status : Nat) : ResBody := ⟨status, none⟩

/-- res.go:17-35 `(*ResBody).Write`. -/
def ResBody.write (dev : Bool) (r : ResBody) : Eff :=
  if (if r.status = 0 then 200 else r.status) = 204 then ⟨[.writeHeader 204], none⟩
  else writeJson dev (if r.status = 0 then 200 else r.status) (r.body.getD emptyObject)

/-- The body of a `RawBody`: raw.go:29-41. A reader yields these chunks. -/
inductive RawVal where
  | nil
  | str (s : Str)
  | bytes (s : Str)
  | reader (chunks : List Str) (closer : Bool)
  | json (v : JVal)

/-- utils/apires/raw.go:10-13 `RawBody`. -/
structure RawBody where
  status : Nat
  body : RawVal

/-- raw.go:51-57 `RawWith` -/
def rawWith (body : RawVal) (status : List Nat) : RawBody :=
  match status with
  | [] => ⟨200, body⟩
  | s :: _ => ⟨s, body⟩

/-- raw.go:59-61 `RawRet` -/
def rawRet (status : Nat) : RawBody := ⟨status, .nil⟩

/-- raw.go:15-49 `(*RawBody).Write`. -/
def RawBody.write (dev : Bool) (r : RawBody) : Eff :=
  if (if r.status = 0 then 200 else r.status) = 204 then ⟨[.writeHeader 204], none⟩
  else
    match r.body with
    | .nil => ⟨[], none⟩
    | .str s => ⟨[wr s], none⟩
    | .bytes s => ⟨[wr s], none⟩
    | .reader cs _ => ⟨cs.map wr, none⟩
    | .json v => writeJson dev (if r.status = 0 then 200 else r.status) v

/-! ## Errors: apires/error.go -/

/-- What `WithData` is given: error.go:43-48. -/
inductive Data where
  | none
  | err (msg : Str)
  | str (s : Str)
  | other (id : Nat)
deriving DecidableEq, Repr

/-- error.go:8-13 `ResError`; `body` is the address in the embedded `ResBody.Body`. -/
structure ErrObj where
  status : Nat
  body : Nat
  code : Int
  message : Str
  data : Data
deriving DecidableEq, Repr

/-- The `ResError`s of the program; an address is an index (utils/apires/error.go:8-13, `*ResError`). -/
abbrev Heap := List ErrObj

/-- error.go:15-24 `NewResError`. -/
def newErr (h : Heap) (status : Nat) (code : Int) (message : Str) (datas : List Data) : Heap × Nat :=
  (h ++ [⟨status, h.length, code, message, datas.head?.getD .none⟩], h.length)

/-- error.go:38-53 `WithData`. -/
def withData (h : Heap) (e : ErrObj) (data : Data) (message : List Str) : Heap × Nat :=
  match message with
  | m :: _ => (h ++ [⟨e.status, h.length, e.code, m, data⟩], h.length)
  | [] =>
    match data with
    | .err m => (h ++ [⟨e.status, h.length, e.code, m, data⟩], h.length)
    | .str m => (h ++ [⟨e.status, h.length, e.code, m, data⟩], h.length)
    | _ => (h ++ [⟨e.status, h.length, e.code, e.message, data⟩], h.length)

/-- error.go:55-60 `WithMsg` (and 62-64 `WithMsgf`, which formats first). -/
def withMsg (h : Heap) (e : ErrObj) (message : Str) : Heap × Nat :=
  (h ++ [⟨e.status, h.length, e.code, message, e.data⟩], h.length)

/-- error.go:66-73 `EqualAny`. -/
def equalAny (e : ErrObj) (errs : List ErrObj) : Bool := errs.any (fun r => e.status = r.status && e.code = r.code)

/-- What a program does with errors; the arguments are addresses (calls of utils/apires/error.go:15-60 and res.go:17). -/
inductive EOp where
  | new (status : Nat) (code : Int) (message : Str) (datas : List Data)
  | withData (a : Nat) (d : Data) (message : List Str)
  | withMsg (a : Nat) (message : Str)
  /-- res.go:18-20, through the embedded `ResBody`: a status of 0 is replaced in the object itself -/
  | write (a : Nat)

/-- One call; a dangling address does nothing (there is none in Go) (utils/apires/error.go:15-60, res.go:17-35). -/
def estep (h : Heap) : EOp → Heap
  | .new s c m ds => (newErr h s c m ds).1
  | .withData a d ms => match h[a]? with | some e => (withData h e d ms).1 | none => h
  | .withMsg a m => match h[a]? with | some e => (withMsg h e m).1 | none => h
  | .write a => match h[a]? with | some e => (if e.status = 0 then h.set a { e with status := 200 } else h) | none => h

/-- a sequence of calls of utils/apires/error.go:15-60 and res.go:17-35. -/
def erun (h : Heap) (l : List EOp) : Heap := l.foldl estep h

/-! ## The generic result filter: router_action_out.go -/

/-- A value returned by an action, as `reflect` sees it (the static type of the result decides the kind).
(router_action_out.go:55-88). -/
inductive RV where
  /-- kind `int` (negative numbers are left out) -/
  | int (n : Nat)
  /-- kind `string` -/
  | str (s : Str)
  /-- another kind that cannot be nil: bool, the other numbers, structs, arrays -/
  | plain
  /-- a nil pointer, interface, slice, map, func or chan -/
  | nil
  /-- not nil and an `ActionResult` or an `http.Handler`, with the calls it makes -/
  | writer (ops : List Op)
  /-- not nil and an `io.Reader` -/
  | reader (chunks : List Str)
  /-- a non-nil `[]byte` -/
  | bytes (s : Str)
  /-- an interface that holds a string -/
  | istr (s : Str)
  /-- anything else that is not nil -/
  | other

/-- router_action_out.go:69-88: the calls made for the body, and whether the filter panics (`IsNil` on a value that
cannot be nil). -/
def writeValue : RV → List Op × Bool
  | .int _ => ([], true)
  | .str _ => ([], true)
  | .plain => ([], true)
  | .nil => ([], false)
  | .writer ops => (ops, false)
  | .reader cs => (cs.map wr, false)
  | .bytes s => ([wr s], false)
  | .istr s => ([wr s], false)
  | .other => ([], false)

/-- router_action_out.go:50-89: after `ctx.Next()`, if nothing was written, with the values the action returned
(reversed: the last one first). `WriteHeader(0)` panics (response.go:56-58). -/
def genericOut : List RV → List Op × Bool
  | [] => ([], false)
  | .int 0 :: _ => ([.writeHeader 0], true)
  | .int n :: [] => ([.writeHeader n], false)
  | .int n :: b :: _ => (.writeHeader n :: (writeValue b).1, (writeValue b).2)
  | b :: _ => writeValue b

end Verif.Api
