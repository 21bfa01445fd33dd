import Verif.Model.Params
import Verif.Go.Enc
/-!
# From the bytes of a request to its parameters: params/params.go:44-81 with net/url and net/http
-/
namespace Verif.Params
open Verif.Go

/-- Bytes at which `url.ParseQuery` cuts: `&`, and `;` for Go before 1.17 (`semi`) (params/params.go:47). -/
def isSep (semi : Bool) (c : UInt8) : Bool := c == 38 || (semi && c == 59)

/-- `strings.Index(key, "=")` and the two halves; the value is empty without `=` (net/url `parseQuery`, called from
params/params.go:47). -/
def cutEq (p : Str) : Str × Str := (p.takeWhile (· != 61), (p.dropWhile (· != 61)).drop 1)

/-- One round of the loop of net/url `parseQuery` on a piece: pieces that are empty, hold `;` (newer Go) or do
not unescape are skipped, all but the empty ones with an error (params/params.go:47). -/
def addPiece (semi : Bool) (p : Str) (m : Values) (ok : Bool) : Values × Bool :=
  if p = [] then (m, ok)
  else if semi = false ∧ (59 : UInt8) ∈ p then (m, false)
  else match queryUnescape (cutEq p).1 with
    | none => (m, false)
    | some k => match queryUnescape (cutEq p).2 with
      | none => (m, false)
      | some v => (appendAt m k [v], ok)

/-- The loop of net/url `parseQuery`, `n` bounds the rounds (params/params.go:47). -/
def queryLoop (semi : Bool) : Nat → Str → Values → Bool → Values × Bool
  | 0, _, m, ok => (m, ok)
  | n + 1, s, m, ok =>
    if s = [] then (m, ok)
    else queryLoop semi n ((s.dropWhile (fun c => !isSep semi c)).drop 1)
      (addPiece semi (s.takeWhile (fun c => !isSep semi c)) m ok).1
      (addPiece semi (s.takeWhile (fun c => !isSep semi c)) m ok).2

/-- `url.ParseQuery`: the values and whether no error is reported. Each round consumes a byte, so the length bounds
the rounds. `req.URL.Query()` is the values alone (params/params.go:47). -/
def parseQuery (semi : Bool) (s : Str) : Values × Bool := queryLoop semi s.length s [] true

/-- What ParseParams reads of a request. `mimeOk`: `mime.ParseMediaType` accepts the parameters of the content type;
`body`: what `ioutil.ReadAll` reads, `none` on a read error; `multipart`: what reading the multipart form gives
(params/params.go:44-77). -/
structure RawReq where
  method : Str
  contentType : Str
  mimeOk : Bool
  rawQuery : Str
  body : Option Str
  multipart : Option Values

/-- net/http `ParseForm` looks at the body of these methods only (params/params.go:60). -/
def hasForm (method : Str) : Bool := method = b!"POST" ∨ method = b!"PUT" ∨ method = b!"PATCH"

/-- net/http `parsePostForm` for a url-encoded body: an error for bad media parameters, a failing read, more than
10 MB or a malformed body (params/params.go:60). -/
def postForm (semi : Bool) (r : RawReq) : Option Values :=
  if hasForm r.method = true then
    if r.mimeOk = false then none
    else match r.body with
      | none => none
      | some b =>
        if b.length > 10485760 then none
        else if (parseQuery semi b).2 = true then some (parseQuery semi b).1 else none
  else some []

/-- net/http `ParseMultipartForm` calls `ParseForm` first, which reports malformed queries and media parameters
(params/params.go:72). -/
def multipartForm (semi : Bool) (r : RawReq) : Option Values :=
  if (hasForm r.method = true ∧ r.mimeOk = false) ∨ (parseQuery semi r.rawQuery).2 = false then none else r.multipart

/-- params/params.go:44-81 `ParseParams` from the bytes of the request; `none`: it returns an error and leaves
`Values` nil. -/
def requestParams (semi : Bool) (route : Values) (r : RawReq) : Option Values :=
  parseParams r.contentType (parseQuery semi r.rawQuery).1 route
    ⟨if (parseQuery semi r.rawQuery).2 = true then postForm semi r else none, multipartForm semi r⟩

end Verif.Params
