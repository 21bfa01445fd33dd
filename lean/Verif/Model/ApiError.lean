import Verif.Model.Json
/-!
# The errors of an API: utils/apires/error.go with its pointers, its JSON and its answers

A program makes errors, derives errors from them, answers requests with them and asks them for their texts and codes. Every error is an
object on the heap; its embedded `ResBody` holds a pointer to the value that is sent. Statuses are natural numbers. Errors of other
types and other data are values that do not change.
-/
namespace Verif.ApiErr
open Verif.Go Verif.Json

/-- What `Data` can be (utils/apires/error.go:12, 38-48): nil, an error of another type (its message, its JSON), a string, another value,
or a `*ResError`, which may be nil. -/
inductive Arg where
  | none
  | err (msg : Str) (json : GJ)
  | str (s : Str)
  | other (json : GJ)
  | res (p : Option Nat)

/-- utils/apires/error.go:8-13 `ResError`; `body` is `ResBody.Body`: nil or the address of a `ResError` (res.go:21-23 puts `struct{}{}` for
nil, which is sent like nil). -/
structure Obj where
  status : Nat
  body : Option Nat
  code : Int
  message : Str
  data : Arg

/-- The errors made so far; an address is an index (utils/apires/error.go:20, 39, 56). -/
abbrev Heap := List Obj

/-- A `ResError` as `json.Marshal` sees it (utils/apires/error.go:8-13, 30; res.go:56-58): pointers in `Data` are followed; the number bounds
how far. -/
def objGJ (h : Heap) : Nat → Obj → GJ
  | 0, _ => .bad
  | n + 1, o =>
    errGJ o.code o.message
      (match o.data with
       | .none => none
       | .err _ g => some g
       | .str s => some (.str s)
       | .other g => some g
       | .res none => some .nil
       | .res (some a) => some (match h[a]? with | some o' => objGJ h n o' | none => .nil))

/-- utils/apires/error.go:26-32 `Error`; `bf`: see `escAscii`. -/
def errorText (bf : Bool) (h : Heap) : Option Obj → Str
  | none => []
  | some o => (enc bf (objGJ h (h.length + 1) o)).getD []

/-- utils/apires/error.go:40-49: the message of the error made by `WithData`. -/
def dataMessage (bf : Bool) (h : Heap) (old : Str) (d : Arg) : List Str → Str
  | m :: _ => m
  | [] =>
    match d with
    | .err m _ => m
    | .str s => s
    | .res p => errorText bf h (p.bind fun a => h[a]?)
    | _ => old

/-- An `error`: a `*ResError`, or one of another type, with or without a method `HttpCode` (utils/apires/error.go:75-90). -/
inductive Err where
  | res (p : Option Nat)
  | other (httpCode : Option Nat)

/-- What a program does (utils/apires/error.go:15-90, res.go:17-35; router_action_out.go:69-76). A pointer that is `none` is nil. -/
inductive Call where
  /-- `NewResError(status, code, message, datas...)` -/
  | new (status : Nat) (code : Int) (message : Str) (datas : List Arg)
  | withData (p : Option Nat) (d : Arg) (message : List Str)
  | withMsg (p : Option Nat) (message : Str)
  /-- `&ResError{ResBody: ResBody{Status: status}, Code: code, Message: message, Data: d}` -/
  | literal (status : Nat) (code : Int) (message : Str) (d : Arg)
  /-- `c := *p; c.Message = message; return &c` -/
  | copied (p : Option Nat) (message : Str)
  /-- an action returns the pointer, as a result of type `*ResError` or, `iface`, `error` or `interface{}` -/
  | answer (iface : Bool) (p : Option Nat)
  /-- `p.Error()` -/
  | text (p : Option Nat)
  /-- `p.EqualAny(qs...)` -/
  | equalAny (p : Option Nat) (qs : List (Option Nat))
  | isResError (e : Err)
  | getHttpCode (e : Err)

/-- What comes of it. -/
inductive Out where
  | made (p : Nat)
  | panic
  /-- the calls on the response and the content type set -/
  | answered (e : Api.Eff)
  | text (s : Str)
  | bool (b : Bool)
  | code (ok : Bool) (status : Nat)

/-- the object behind a pointer; `none`: nil (utils/apires/error.go:39, 56). -/
def deref (h : Heap) (p : Option Nat) : Option Obj := p.bind fun a => h[a]?

/-- utils/apires/error.go:66-73 `EqualAny`: `none` is a panic (a nil pointer is reached). -/
def anyEqual (h : Heap) (e : Obj) : List (Option Nat) → Option Bool
  | [] => some false
  | q :: l =>
    match deref h q with
    | none => none
    | some r => if e.status = r.status ∧ e.code = r.code then some true else anyEqual h e l

/-- utils/apires/res.go:21-23, 31: the value that is sent for a `ResError`: the object behind `Body`; `struct{}{}` for nil. -/
def sent (h : Heap) (o : Obj) : GJ :=
  match deref h o.body with
  | none => .struct [] []
  | some b => objGJ h (h.length + 1) b

/-- utils/apires/res.go:18-20: `Write` replaces a status of 0 in the object. -/
def fixStatus (h : Heap) (a : Nat) (o : Obj) : Heap := if o.status = 0 then h.set a { o with status := 200 } else h

/-- One call. `dev`: the run mode; `msg`: the encoder's error, if there is one (utils/apires/error.go:15-90, res.go:17-35, 49-79;
router_action_out.go:69-76: a nil `*ResError` is not written, one in an interface is not nil and panics in `Write`). -/
def step (bf dev : Bool) (msg : Str) (h : Heap) : Call → Heap × Out
  | .new s c m ds => (h ++ [⟨s, some h.length, c, m, ds.head?.getD .none⟩], .made h.length)
  | .withData p d ms =>
    match deref h p with
    | none => (h, .panic)
    | some e => (h ++ [⟨e.status, some h.length, e.code, dataMessage bf h e.message d ms, d⟩], .made h.length)
  | .withMsg p m =>
    match deref h p with
    | none => (h, .panic)
    | some e => (h ++ [⟨e.status, some h.length, e.code, m, e.data⟩], .made h.length)
  | .literal s c m d => (h ++ [⟨s, none, c, m, d⟩], .made h.length)
  | .copied p m =>
    match deref h p with
    | none => (h, .panic)
    | some e => (h ++ [{ e with message := m }], .made h.length)
  | .answer iface p =>
    match p, deref h p with
    | some a, some o => (fixStatus h a o, .answered ((Api.ResBody.mk o.status (some (jval bf (sent h o) msg))).write dev))
    | _, _ => (h, if iface then .panic else .answered ⟨[], none⟩)
  | .text p => (h, .text (errorText bf h (deref h p)))
  | .equalAny p qs =>
    match qs, deref h p with
    | [], _ => (h, .bool false)
    | _, none => (h, .panic)
    | qs, some e => (h, match anyEqual h e qs with | some b => .bool b | none => .panic)
  | .isResError e => (h, .bool (match e with | .res _ => true | .other _ => false))
  | .getHttpCode e =>
    (h, match e with
      | .res p => (match deref h p with | some o => .code true o.status | none => .panic)
      | .other (some n) => .code true n
      | .other none => .code false 0)

/-- A program: its calls one after the other (utils/apires/error.go:15-90). -/
def run (bf dev : Bool) (msg : Str) (l : List Call) : Heap := l.foldl (fun h c => (step bf dev msg h c).1) []

end Verif.ApiErr
