import Verif.Model.Static
import Verif.Model.Gzip
import Verif.Go.Strconv
/-!
# Answers with files: static-serve/static.go:148 with `http.ServeContent`, behind the gzip filter

`http.ServeContent`, `http.NotFound` and `http.Redirect` are standard library (trusted base, see DESIGN.md): this is a model of what they do
with the response writer they are given (as in Go 1.13 to 1.22; some details for empty files differ between these). The headers If-Match, If-None-Match and If-Unmodified-Since are added in
Model/CondFile.lean. Not modelled: the text of an answer with several ranges, errors while a file is read, other filters.
-/
namespace Verif.Down
open Verif.Go Verif.Gz

/-- A regular file: its time of modification in nanoseconds since 1970 (static-serve/static.go:148 `fi.ModTime()`) and its contents. -/
structure File where
  mtime : Nat
  data : Str
deriving DecidableEq, Repr

/-- What is found under a path (static-serve/static.go:46, 57, 119, 125). -/
inductive Node where
  | dir
  | file (f : File)
deriving DecidableEq, Repr

/-- The files of the server, by path (static-serve/static.go:33 `http.Dir`). -/
abbrev Disk := Str → Option Node

/-- What the filter sees of them; `Stat` does not fail (static-serve/static.go:46, 57). -/
def fsOf (d : Disk) : Static.FS := fun p =>
  match d p with
  | none => none
  | some .dir => some (some true)
  | some (.file _) => some (some false)

/-- A request. Dates are given in seconds since 1970. `ifModifiedSince`: the date in that header, `none` if there is none that can be read;
`ifRange`: `none`, no such header, `some none`: it is not a date (static-serve/static.go:64, 148). -/
structure Req where
  method : Str
  path : Str
  accept : Str := []
  range : Str := []
  ifModifiedSince : Option Nat := none
  ifRange : Option (Option Nat) := none

/-- What is below the filter (static-serve/static.go:148): how dates are written, the media type of a file (by its name, or its first
bytes), the pieces in which `io.CopyN` reads it, and the answer with several ranges. -/
structure Net where
  date : Nat → Str
  ctype : Str → Str → Str
  cut : Str → List Str
  multi : List (Nat × Nat) → Str → List GOp

/-- The time of modification in seconds (static-serve/static.go:148). -/
def File.unix (f : File) : Nat := f.mtime / 1000000000

/-- net/http `setLastModified`: not for the time 0 (static-serve/static.go:148). -/
def lastModified (N : Net) (f : File) : List GOp :=
  if f.mtime = 0 then [] else [.setHeader b!"Last-Modified" (N.date f.unix)]

/-- net/http: the conditions are looked at for these methods only (static-serve/static.go:148). -/
def reads (m : Str) : Bool := m = b!"GET" || m = b!"HEAD"

/-- net/http `checkIfModifiedSince`: 304 is sent (static-serve/static.go:148). -/
def notModified (r : Req) (f : File) : Bool :=
  reads r.method && f.mtime ≠ 0 && (match r.ifModifiedSince with | none => false | some t => f.unix ≤ t)

/-- net/http `checkIfRange`: the ranges are not looked at (static-serve/static.go:148). -/
def rangeOff (r : Req) (f : File) : Bool :=
  reads r.method && (match r.ifRange with | none => false | some none => true | some (some t) => f.unix ≠ t)

/-- Outcome of net/http `parseRange` (static-serve/static.go:148). -/
inductive Ranges where
  | bad
  | beyond
  | ok (l : List (Nat × Nat))
deriving DecidableEq, Repr

/-- One element of a range header (net/http `parseRange`): `none`, it is not valid; `some none`, it begins behind the end; otherwise the
first byte and the length (static-serve/static.go:148). -/
def oneRange (size : Nat) (start stop : Str) : Option (Option (Nat × Nat)) :=
  if start = [] then
    if stop.head? = some 45 ∨ (parseInt 64 stop).2 ≠ none then none
    else some (some (size - (parseInt 64 stop).1.toNat, size - (size - (parseInt 64 stop).1.toNat)))
  else if (parseInt 64 start).2 ≠ none ∨ (parseInt 64 start).1 < 0 then none
  else if size ≤ (parseInt 64 start).1.toNat then some none
  else if stop = [] then some (some ((parseInt 64 start).1.toNat, size - (parseInt 64 start).1.toNat))
  else if (parseInt 64 stop).2 ≠ none ∨ (parseInt 64 stop).1 < (parseInt 64 start).1 then none
  else some (some ((parseInt 64 start).1.toNat,
    (if size ≤ (parseInt 64 stop).1.toNat then size - 1 else (parseInt 64 stop).1.toNat) - (parseInt 64 start).1.toNat + 1))

/-- The loop of net/http `parseRange`: the ranges, and whether one began behind the end; `none`: not valid (static-serve/static.go:148). -/
def rangesGo (size : Nat) : List Str → Option (List (Nat × Nat) × Bool)
  | [] => some ([], false)
  | ra :: l =>
    if trimSpace ra = [] then rangesGo size l
    else if ¬ (trimSpace ra).contains 45 then none
    else
      match oneRange size (trimSpace ((trimSpace ra).takeWhile (· != 45))) (trimSpace (((trimSpace ra).dropWhile (· != 45)).drop 1)),
        rangesGo size l with
      | some (some x), some (xs, b) => some (x :: xs, b)
      | some none, some (xs, _) => some (xs, true)
      | _, _ => none

/-- net/http `parseRange` (static-serve/static.go:148). -/
def parseRange (s : Str) (size : Nat) : Ranges :=
  if s = [] then .ok []
  else if ¬ hasPrefix s b!"bytes=" then .bad
  else
    match rangesGo size (splitOn1 44 (s.drop 6)) with
    | none => .bad
    | some ([], true) => .beyond
    | some (l, _) => .ok l

/-- net/http `contentRange` (static-serve/static.go:148). -/
def contentRange (start length size : Nat) : Str := b!"bytes " ++ natDec start ++ b!"-" ++ fmtInt ((start : Int) + length - 1) ++ b!"/" ++
  natDec size

/-- net/http `Error`, before Go 1.23 (static-serve/static.go:77, 148). -/
def httpError (code : Nat) (text : Str) : List GOp :=
  [.setHeader b!"Content-Type" b!"text/plain; charset=utf-8", .setHeader b!"X-Content-Type-Options" b!"nosniff", .writeHeader code,
    .write (text ++ b!"\n")]

/-- The end of net/http `serveContent`: `enc`, there is a Content-Encoding already (static-serve/static.go:148). -/
def send (N : Net) (enc : Bool) (r : Req) (code : Nat) (hs : List GOp) (d : Str) : List GOp :=
  hs ++ [.setHeader b!"Accept-Ranges" b!"bytes"] ++ (if enc then [] else [.setHeader b!"Content-Length" (natDec d.length)]) ++
    [.writeHeader code] ++ (if r.method = b!"HEAD" then [] else (N.cut d).map .write)

/-- net/http `serveContent` behind the conditions: `s` is the range header (static-serve/static.go:148). -/
def sendRanges (N : Net) (enc : Bool) (r : Req) (s d : Str) : List GOp :=
  match parseRange s d.length with
  | .bad => httpError 416 b!"invalid range"
  | .beyond => .setHeader b!"Content-Range" (b!"bytes */" ++ natDec d.length) :: httpError 416 b!"invalid range: failed to overlap"
  | .ok l =>
    if d.length < (l.map Prod.snd).sum then send N enc r 200 [] d
    else
      match l with
      | [] => send N enc r 200 [] d
      | [(a, n)] => send N enc r 206 [.setHeader b!"Content-Range" (contentRange a n d.length)] ((d.drop a).take n)
      | l => N.multi l d

/-- net/http `ServeContent` (static-serve/static.go:148). -/
def serveContent (N : Net) (enc : Bool) (r : Req) (name : Str) (f : File) : List GOp :=
  if notModified r f then
    lastModified N f ++ [.setHeader b!"Content-Type" [], .setHeader b!"Content-Length" [], .writeHeader 304]
  else
    lastModified N f ++ [.setHeader b!"Content-Type" (N.ctype name f.data)] ++
      sendRanges N enc r (if r.range ≠ [] ∧ rangeOff r f then [] else r.range) f.data

/-- A site: is the gzip filter before the static one? The arguments of `ServeFilter` (static-serve/static.go:21), what `http.Redirect` does
(114), and what the rest of the application does with a request that is passed on. -/
structure Site where
  gz : Bool
  pre : Str
  root : Str
  opt : Static.Opt
  detect : Str → Str
  redirect : Str → List GOp
  rest : Req → List GOp

/-- static-serve/static.go:64-149: the calls on the response writer the filter is given. Simplified: a directory as the file of
`TryFilesThen` is answered with 500 (`Seek` fails). -/
def ops (N : Net) (S : Site) (enc : Bool) (d : Disk) (r : Req) : List GOp :=
  match Static.serve (fsOf d) S.pre S.root S.opt r.method r.path with
  | (_, .pass) => S.rest r
  | (_, .notFound) => httpError 404 b!"404 page not found"
  | (_, .redirect p) => S.redirect p
  | (st, .content name h) =>
    match st.opened[h]?.bind d with
    | some (.file f) => serveContent N enc r name f
    | _ => httpError 500 b!"seeker can't seek"

/-- Is there a Content-Encoding when the static filter runs (gzip/gzip.go:26-31)? -/
def Site.enc (S : Site) (r : Req) : Bool := S.gz && contains r.accept b!"gzip"

/-- A request to the application: the filters, and the final `Write(nil)` of app.go:123. -/
def respond (C : Codec) (N : Net) (S : Site) (d : Disk) (r : Req) : GS C :=
  GS.rawWrite (if S.gz then filter S.detect r.accept {} (ops N S (S.enc r) d r) else (ops N S (S.enc r) d r).foldl GS.rawOp {}) []

end Verif.Down
