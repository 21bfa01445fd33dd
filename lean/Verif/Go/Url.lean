import Verif.Go.Enc
/-!
# Go's `net/url`: `ParseRequestURI`, `EscapedPath`, `RequestURI`, `String`

Models of standard-library functions (trusted base, see DESIGN.md), Go 1.13 semantics.  The authority (user and
host) of an absolute URL is parsed by a function that is a parameter of the model; fragments do not occur, since
`ParseRequestURI` never makes one.
-/
namespace Verif.Go

/-- bytes that `escape(s, encodePath)` leaves alone: letters, digits, `-_.~` and `$&+,/:;=@` -/
def pathKeep (c : UInt8) : Bool :=
  unreserved c || c == 36 || c == 38 || c == 43 || c == 44 || c == 47 || c == 58 || c == 59 || c == 61 || c == 64

/-- `url.escape(s, encodePath)`. -/
def pathEscape : Str → Str
  | [] => []
  | c :: cs =>
    if pathKeep c then c :: pathEscape cs
    else 37 :: hexUpper (c.toNat / 16) :: hexUpper (c.toNat % 16) :: pathEscape cs

/-- `url.unescape(s, encodePath)`; `none` is an `EscapeError`. -/
def pathUnescape : Str → Option Str
  | [] => some []
  | 37 :: a :: b :: cs =>
    match unhex a, unhex b with
    | some x, some y => (pathUnescape cs).map (UInt8.ofNat (x * 16 + y) :: ·)
    | _, _ => none
  | c :: cs => if c = 37 then none else (pathUnescape cs).map (c :: ·)

/-- `validEncodedPath`, one byte: the bytes `escape` leaves alone, `!'()*`, `[]` and `%`. -/
def pathByte (c : UInt8) : Bool :=
  pathKeep c || c == 33 || c == 39 || c == 40 || c == 41 || c == 42 || c == 91 || c == 93 || c == 37

/-- `stringContainsCTLByte`, one byte. -/
def ctlByte (c : UInt8) : Bool := c < 32 || c == 127

/-- `url.URL`, without the fragment; `user` is the text of the user information with its `@`. -/
structure URL where
  scheme : Str
  opaq : Str
  user : Str
  host : Str
  path : Str
  rawPath : Str
  forceQuery : Bool
  rawQuery : Str
deriving DecidableEq, Repr

/-- The zero `url.URL`. -/
def URL.empty : URL := ⟨[], [], [], [], [], [], false, []⟩

/-- `isAlpha`, the bytes a scheme may begin with. -/
def schemeAlpha (c : UInt8) : Bool := (97 ≤ c && c ≤ 122) || (65 ≤ c && c ≤ 90)

/-- the other bytes of a scheme: digits and `+-.` -/
def schemeOther (c : UInt8) : Bool := (48 ≤ c && c ≤ 57) || c == 43 || c == 45 || c == 46

/-- `getscheme` after its first byte; `pre` is what has been passed: the scheme (without the colon) and the rest, or
no scheme and everything. -/
def schemeLoop (whole : Str) : Str → Str → Str × Str
  | _, [] => ([], whole)
  | pre, c :: cs =>
    if schemeAlpha c || schemeOther c then schemeLoop whole (pre ++ [c]) cs
    else if c = 58 then (pre, cs)
    else ([], whole)

/-- `getscheme`; `none`: missing protocol scheme. -/
def getScheme : Str → Option (Str × Str)
  | [] => some ([], [])
  | c :: cs =>
    if schemeAlpha c then some (schemeLoop (c :: cs) [c] cs)
    else if c = 58 then none
    else some ([], c :: cs)

/-- `split(s, c, true)`, and the case of a lone `?` at the end: path part, query, `ForceQuery`. -/
def cutQuery (s : Str) : Str × Str × Bool :=
  (s.takeWhile (· != 63), (s.dropWhile (· != 63)).drop 1, s.dropWhile (· != 63) == [63])

/-- `(*URL).setPath`. -/
def URL.setPath (u : URL) (p : Str) : Option URL :=
  (pathUnescape p).map (fun path => { u with path := path, rawPath := if p = pathEscape path then [] else p })

/-- `url.ParseRequestURI`; `none` is an error. -/
def parseRequestURI (authority : Str → Option (Str × Str)) (raw : Str) : Option URL :=
  if raw.any ctlByte then none
  else if raw = [] then none
  else if raw = b!"*" then some { URL.empty with path := b!"*" }
  else match getScheme raw with
    | none => none
    | some (sch, rest) =>
      match cutQuery rest with
      | (p, q, force) =>
        if hasPrefix p b!"/" then
          if sch ≠ [] ∧ hasPrefix p b!"//" then
            match authority ((p.drop 2).takeWhile (· != 47)) with
            | none => none
            | some (user, host) =>
              URL.setPath ⟨toLower sch, [], user, host, [], [], force, q⟩ ((p.drop 2).dropWhile (· != 47))
          else URL.setPath ⟨toLower sch, [], [], [], [], [], force, q⟩ p
        else if sch ≠ [] then some ⟨toLower sch, p, [], [], [], [], force, q⟩
        else none

/-- `(*URL).EscapedPath`. -/
def URL.escapedPath (u : URL) : Str :=
  if u.rawPath ≠ [] ∧ u.rawPath.all pathByte ∧ pathUnescape u.rawPath = some u.path then u.rawPath
  else if u.path = b!"*" then b!"*"
  else pathEscape u.path

/-- `"?" + RawQuery`, when there is one. -/
def URL.querySuffix (u : URL) : Str := if u.forceQuery ∨ u.rawQuery ≠ [] then 63 :: u.rawQuery else []

/-- `(*URL).RequestURI`. -/
def URL.requestURI (u : URL) : Str :=
  (if u.opaq = [] then (if u.escapedPath = [] then b!"/" else u.escapedPath)
   else if hasPrefix u.opaq b!"//" then u.scheme ++ b!":" ++ u.opaq
   else u.opaq) ++ u.querySuffix

/-- bytes that `escape(s, encodeHost)` leaves alone: letters, digits, `-_.~` and `!$&'()*+,;=:[]<>"` -/
def hostKeep (c : UInt8) : Bool :=
  unreserved c || c == 33 || c == 36 || c == 38 || c == 39 || c == 40 || c == 41 || c == 42 || c == 43 || c == 44 ||
    c == 59 || c == 61 || c == 58 || c == 91 || c == 93 || c == 60 || c == 62 || c == 34

/-- `url.escape(s, encodeHost)`. -/
def hostEscape : Str → Str
  | [] => []
  | c :: cs =>
    if hostKeep c then c :: hostEscape cs
    else 37 :: hexUpper (c.toNat / 16) :: hexUpper (c.toNat % 16) :: hostEscape cs

/-- `(*URL).String`, for a URL with a scheme (RealURL always sets one). -/
def URL.text (u : URL) : Str :=
  u.scheme ++ b!":" ++
    (if u.opaq ≠ [] then u.opaq
     else (if u.host ≠ [] ∨ u.path ≠ [] ∨ u.user ≠ [] then b!"//" else []) ++ u.user ++ hostEscape u.host ++
      (if u.escapedPath ≠ [] ∧ !hasPrefix u.escapedPath b!"/" ∧ u.host ≠ [] then b!"/" else []) ++ u.escapedPath) ++
    u.querySuffix

end Verif.Go
