import Verif.Model.Download
/-!
# Conditional requests for files: static-serve/static.go:148 with net/http `checkPreconditions`

`http.ServeContent` with the headers If-Match, If-None-Match and If-Unmodified-Since, which Model/Download.lean leaves out (as in Go 1.14 to 1.22).
The filter gives files no entity tag, and nothing else here sets the header Etag: no entity tag matches.
-/
namespace Verif.Down
open Verif.Go Verif.Gz

/-- A request with these headers (empty: it has none; `ifUnmodifiedSince`: the date in that header, `none` if there is none that can be
read) (static-serve/static.go:148). -/
structure CReq extends Req where
  ifMatch : Str := []
  ifNoneMatch : Str := []
  ifUnmodifiedSince : Option Nat := none

/-- net/textproto `isASCIISpace` (static-serve/static.go:148). -/
def blank (c : UInt8) : Bool := c = 32 || c = 9 || c = 10 || c = 13

/-- net/textproto `TrimString` (static-serve/static.go:148). -/
def trimText (s : Str) : Str := ((s.dropWhile blank).reverse.dropWhile blank).reverse

/-- net/http `scanETag`: the loop, behind the first quotation mark; what is left behind the last one (static-serve/static.go:148). -/
def scanTag : Str → Option Str
  | [] => none
  | c :: s =>
    if c = 33 ∨ (35 ≤ c ∧ c ≤ 126) ∨ 128 ≤ c then scanTag s
    else if c = 34 then some s
    else none

/-- net/http `scanETag`: what is left behind the entity tag that the text begins with (static-serve/static.go:148). -/
def scanETag (s : Str) : Option Str :=
  match trimText s with
  | 87 :: 47 :: 34 :: s => scanTag s
  | 34 :: s => scanTag s
  | _ => none

/-- The loops of net/http `checkIfMatch` and `checkIfNoneMatch`: is there a `*` before the first thing that is no entity tag? (The first
argument counts the rounds.) (static-serve/static.go:148) -/
def hasStar : Nat → Str → Bool
  | 0, _ => false
  | n + 1, s =>
    match trimText s with
    | [] => false
    | c :: s =>
      if c = 44 then hasStar n s
      else if c = 42 then true
      else
        match scanETag (c :: s) with
        | none => false
        | some s => hasStar n s

/-- net/http `checkIfMatch` and `checkIfUnmodifiedSince`: 412 is sent (static-serve/static.go:148). -/
def matchFails (r : CReq) (f : File) : Bool :=
  if r.ifMatch ≠ [] then !hasStar (r.ifMatch.length + 1) r.ifMatch
  else
    match r.ifUnmodifiedSince with
    | none => false
    | some t => f.mtime ≠ 0 && !(f.unix ≤ t)

/-- net/http `ServeContent`, with `checkPreconditions` (static-serve/static.go:148). -/
def serveCond (N : Net) (enc : Bool) (r : CReq) (name : Str) (f : File) : List GOp :=
  if matchFails r f then lastModified N f ++ [.writeHeader 412]
  else if r.ifNoneMatch = [] then serveContent N enc r.toReq name f
  else if hasStar (r.ifNoneMatch.length + 1) r.ifNoneMatch then
    if reads r.method then lastModified N f ++ [.setHeader b!"Content-Type" [], .setHeader b!"Content-Length" [], .writeHeader 304]
    else lastModified N f ++ [.writeHeader 412]
  else serveContent N enc { r.toReq with ifModifiedSince := none } name f

/-- static-serve/static.go:64-149, as `ops`. Simplified: what is behind the filter does not look at these headers. -/
def opsCond (N : Net) (S : Site) (enc : Bool) (d : Disk) (r : CReq) : List GOp :=
  match Static.serve (fsOf d) S.pre S.root S.opt r.method r.path with
  | (_, .pass) => S.rest r.toReq
  | (_, .notFound) => httpError 404 b!"404 page not found"
  | (_, .redirect p) => S.redirect p
  | (st, .content name h) =>
    match st.opened[h]?.bind d with
    | some (.file f) => serveCond N enc r name f
    | _ => httpError 500 b!"seeker can't seek"

/-- A request to the application, as `respond` (app.go:102-124). -/
def respondCond (C : Codec) (N : Net) (S : Site) (d : Disk) (r : CReq) : GS C :=
  GS.rawWrite (if S.gz then filter S.detect r.accept {} (opsCond N S (S.enc r.toReq) d r)
    else (opsCond N S (S.enc r.toReq) d r).foldl GS.rawOp {}) []

end Verif.Down
