import Verif.Model.Static
import Verif.Go.Url
/-!
# Where the static file filter sends a client that asks for a directory: static-serve/static.go:108-116

`url.URL.String`, `url.Parse` and `http.Redirect` are standard library (Go 1.13 semantics, trusted base, see DESIGN.md).
Request paths begin with '/'; the fragment of a request's URL is empty (a server's requests never have one).  The
authority of a URL is parsed by a function that is a parameter of the model (as in `Go/Url.lean`): the user information and
the host, or an error.
-/
namespace Verif.Static
open Verif.Go

/-- static.go:109-114 `dest.String()`: the escaped path (`dest.RawPath` is empty) and the query. -/
def destText (path query : Str) : Str := pathEscape path ++ (if query ≠ [] then 63 :: query else [])

/-- `url.Parse(s)` for an `s` that begins with '/': the host, `none` for an error (called by `http.Redirect`,
static.go:114).  The fragment is cut off first and unescaped last. -/
def parsedHost (authority : Str → Option (Str × Str)) (s : Str) : Option Str :=
  if (s.takeWhile (· != 35)).any ctlByte then none
  else if (pathUnescape ((s.dropWhile (· != 35)).drop 1)).isNone then none
  else
    if hasPrefix (cutQuery (s.takeWhile (· != 35))).1 b!"//" && !hasPrefix (cutQuery (s.takeWhile (· != 35))).1 b!"///" then
      match authority (((cutQuery (s.takeWhile (· != 35))).1.drop 2).takeWhile (· != 47)) with
      | none => none
      | some (_, host) =>
        if (pathUnescape (((cutQuery (s.takeWhile (· != 35))).1.drop 2).dropWhile (· != 47))).isNone then none
        else some host
    else if (pathUnescape (cutQuery (s.takeWhile (· != 35))).1).isNone then none
    else some []

/-- `http.Redirect`: `path.Clean` of the part before the query, keeping a trailing slash (static.go:114). -/
def tidy (s : Str) : Str :=
  (if hasSuffix (s.takeWhile (· != 63)) b!"/" && !hasSuffix (cleanRooted (s.takeWhile (· != 63))) b!"/" then
    cleanRooted (s.takeWhile (· != 63)) ++ b!"/"
  else cleanRooted (s.takeWhile (· != 63))) ++ s.dropWhile (· != 63)

/-- `hexEscapeNonASCII`, with lower case digits (`strconv.AppendInt(b, int64(s[i]), 16)`) (static.go:114). -/
def hexEscapeNonASCII : Str → Str
  | [] => []
  | c :: cs =>
    if c < 128 then c :: hexEscapeNonASCII cs
    else 37 :: digitLower (c.toNat / 16) :: digitLower (c.toNat % 16) :: hexEscapeNonASCII cs
where
  /-- a hexadecimal digit (strconv) -/
  digitLower (n : Nat) : UInt8 := if n < 10 then UInt8.ofNat (48 + n) else UInt8.ofNat (87 + n)

/-- `http.Redirect(rw, req, s, http.StatusFound)`: the `Location` header it sends (static.go:114).  A URL without a host
(and without a scheme, as here) is tidied; one with a host, or one that cannot be parsed, is sent as it is. -/
def redirectTo (authority : Str → Option (Str × Str)) (s : Str) : Str :=
  hexEscapeNonASCII (if parsedHost authority s = some [] then tidy s else s)

/-- static.go:64-149 with 108-116: the `Location` the filter answers with, `none` if it does not redirect. -/
def location (authority : Str → Option (Str × Str)) (fs : FS) (pre root : Str) (opt : Opt)
    (method path query : Str) : Option Str :=
  match (serve fs pre root opt method path).2 with
  | .redirect d => some (redirectTo authority (destText d query))
  | .pass => none
  | .notFound => none
  | .content _ _ => none

end Verif.Static
