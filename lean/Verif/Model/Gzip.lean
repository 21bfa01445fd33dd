import Verif.Model.Response
/-!
# Model of the gzip filter (`gzip/gzip.go`)

The gzip library is a parameter: a codec with the contract that everything a writer has emitted, up to
and including `Close`, is one complete stream for the concatenation of the data, and that nothing it
has emitted before `Close` is a complete stream.
-/
namespace Verif.Gz
open Verif.Resp

/-- `compress/gzip` (contract). One call of `write` may be several writes of the underlying writer in
reality; they are taken together (gzip/gzip.go:51, 61, 74). -/
structure Codec where
  St : Type
  init : St
  write : St → Str → St × Str
  close : St → Str
  decode : Str → Option Str

/-- The writer after writing `ps`, and what it has emitted (gzip/gzip.go:51, 61). -/
def Codec.run (C : Codec) : C.St → List Str → C.St × Str
  | st, [] => (st, [])
  | st, p :: ps =>
    let (st1, o) := C.write st p
    let (st2, os) := C.run st1 ps
    (st2, o ++ os)

/-- The contract (gzip/gzip.go:51, 61, 74). -/
structure Codec.Lawful (C : Codec) : Prop where
  complete : ∀ ps, C.decode ((C.run C.init ps).2 ++ C.close (C.run C.init ps).1) = some ps.flatten
  incomplete : ∀ ps, C.decode (C.run C.init ps).2 = none

/-- Response headers (missing is empty, `http.Header.Get`) (gzip/gzip.go:30-32, 54-58). -/
abbrev Hdr := Str → Str

/-- gzip/gzip.go:31-32. -/
def Hdr.set (h : Hdr) (k v : Str) : Hdr := fun k' => if k' = k then v else h k'

/-- What a later handler does with the `http.ResponseWriter` it is given (handlers after gzip/gzip.go:38). -/
inductive GOp where
  | write (p : Str)
  | writeHeader (s : Nat)
  | flush
  | setHeader (k v : Str)
deriving DecidableEq, Repr

/-- The gzip writer (`gzip.go:43-47`), the strip response writer below it, the header map, and the
header map as it was when net/http sent it (on the first write or flush). -/
structure GS (C : Codec) where
  rw : RW := {}
  hdr : Hdr := fun _ => []
  sent : Option Hdr := none
  gz : Option C.St := none

variable {C : Codec}

/-- `Write` of the strip response writer; all bytes are accepted (response.go:62-80). -/
def GS.rawWrite (g : GS C) (p : Str) : GS C :=
  { g with rw := (g.rw.write p p.length).1
           sent := g.sent.or (some g.hdr) }

/-- `gzip.go:49-62` `Write`. `detect` is `http.DetectContentType`. -/
def GS.gzWrite (detect : Str → Str) (g : GS C) (p : Str) : GS C :=
  match g.gz with
  | some st =>
    let (st', out) := C.write st p
    { g.rawWrite out with gz := some st' }
  | none =>
    let hdr := g.hdr.set b!"Content-Length" []
    let hdr := if hdr b!"Content-Type" = [] then hdr.set b!"Content-Type" (detect p) else hdr
    let (st', out) := C.write C.init p
    { ({ g with hdr := hdr } : GS C).rawWrite out with gz := some st' }

/-- The operations that are not overridden by the gzip writer (`gzip.go:43-47`, `response.go:55-60`,
`:116-121`). -/
def GS.common (g : GS C) : GOp → GS C
  | .write _ => g
  | .writeHeader s => { g with rw := (g.rw.op (.writeHeader s)).1 }
  | .flush =>
    { g with rw := (g.rw.op .flush).1
             sent := g.sent.or (some g.hdr) }
  | .setHeader k v => { g with hdr := g.hdr.set k v }

/-- One operation through the gzip writer (gzip/gzip.go:49-70 and the methods promoted from gzip/gzip.go:44). -/
def GS.gzOp (detect : Str → Str) (g : GS C) (o : GOp) : GS C :=
  match o with
  | .write p => g.gzWrite detect p
  | o => g.common o

/-- One operation on the plain writer (response.go:55-121). -/
def GS.rawOp (g : GS C) (o : GOp) : GS C :=
  match o with
  | .write p => g.rawWrite p
  | o => g.common o

/-- `gzip.go:72-76` `close`. -/
def GS.close (g : GS C) : GS C :=
  match g.gz with
  | some st => g.rawWrite (C.close st)
  | none => g

/-- `strings.Contains` (gzip/gzip.go:26). -/
def contains (s sub : Str) : Bool :=
  sub.isPrefixOf s || match s with | [] => false | _ :: s => contains s sub

/-- `gzip.go:23-41` `All`. `ops` are the operations of the later handlers, up to their end or to a
panic (the close is deferred). -/
def filter (detect : Str → Str) (accept : Str) (g : GS C) (ops : List GOp) : GS C :=
  if contains accept b!"gzip" then
    let g := { g with hdr := (g.hdr.set b!"Content-Encoding" b!"gzip").set b!"Vary" b!"Accept-Encoding" }
    (ops.foldl (GS.gzOp detect) g).close
  else ops.foldl GS.rawOp g

end Verif.Gz
