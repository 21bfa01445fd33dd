import Verif.Model.Jar
/-!
# Cookies on the wire

The text of a `Set-Cookie` header (`http.SetCookie`), the reading of it by a browser (RFC 6265, section 5.2), the
`Cookie` header of a request, `r.AddCookie` and `r.Cookies()`: what lies between sessions/manager.go,
sessions/remember.go and the browser of `Model/Jar`.  Models of the standard library (Go 1.13).

Simplifications: the date of the `Expires` attribute is an arbitrary text; header lines that contain empty parts
(`a=b;;c=d`) are split at every semicolon, while some versions of Go skip the rest of such a line; `net.ParseIP` is a parameter.
-/
namespace Verif.Sess
open Verif.Go

/-- An RFC 7230 token byte (names of sessions/manager.go:83, 142, sessions/remember.go:85, 97). -/
def tokenByte (c : UInt8) : Bool :=
  (97 ≤ c && c ≤ 122) || (65 ≤ c && c ≤ 90) || (48 ≤ c && c ≤ 57) || b!"!#$%&'*+-.^_`|~".contains c

/-- `isCookieNameValid` (called by `http.SetCookie`, sessions/manager.go:92, 156). -/
def validName (n : Str) : Bool := n ≠ [] && n.all tokenByte

/-- `validCookieValueByte` (called by `http.SetCookie`, sessions/manager.go:156, and `r.Cookies()`, sessions/manager.go:171). -/
def valueByte (c : UInt8) : Bool := 32 ≤ c && c < 127 && c != 34 && c != 59 && c != 92

/-- `sanitizeCookieValue` (sessions/manager.go:156, 157). -/
def sanitizeValue (v : Str) : Str :=
  if (v.filter valueByte).contains 32 ∨ (v.filter valueByte).contains 44 then [34] ++ v.filter valueByte ++ [34]
  else v.filter valueByte

/-- `isCookieDomainName` after the leading dot: `last` is the byte before, `seen` whether there was a letter, `n` the length
of the label so far (`CookieDomain`, sessions/manager.go:89, 147). -/
def domainLoop (last : UInt8) (seen : Bool) (n : Nat) : Str → Bool
  | [] => last != 45 && n ≤ 63 && seen
  | c :: cs =>
    if (97 ≤ c && c ≤ 122) || (65 ≤ c && c ≤ 90) then domainLoop c true (n + 1) cs
    else if 48 ≤ c && c ≤ 57 then domainLoop c seen (n + 1) cs
    else if c = 45 then last != 46 && domainLoop c seen (n + 1) cs
    else if c = 46 then last != 46 && last != 45 && 0 < n && n ≤ 63 && domainLoop c seen 0 cs
    else false

/-- `validCookieDomain`; `isIP` is `net.ParseIP(v) != nil` (sessions/manager.go:89, 147). -/
def validDomain (isIP : Str → Bool) (d : Str) : Bool :=
  (d ≠ [] && d.length ≤ 255 && domainLoop 46 false 0 (wireDomain d)) || (isIP d && !d.contains 58)

/-- An `http.Cookie` made by the code; `expires` is the text of its date, empty without one
(sessions/manager.go:82-90, 141-152, sessions/remember.go:84-91, 96-102). -/
structure GoCookie where
  name : Str
  value : Str
  path : Str
  domain : Str
  expires : Str
  maxAge : Int
  secure : Bool
  httpOnly : Bool

/-- the attributes of `(*http.Cookie).String`, in order (sessions/manager.go:92, 156) -/
def GoCookie.attrs (isIP : Str → Bool) (c : GoCookie) : List Str :=
  (if c.path ≠ [] then [b!"Path=" ++ c.path.filter (fun b => 32 ≤ b && b < 127 && b != 59)] else []) ++
  (if validDomain isIP c.domain then [b!"Domain=" ++ wireDomain c.domain] else []) ++
  (if c.expires ≠ [] then [b!"Expires=" ++ c.expires] else []) ++
  (if c.maxAge > 0 then [b!"Max-Age=" ++ fmtInt c.maxAge] else if c.maxAge < 0 then [b!"Max-Age=0"] else []) ++
  (if c.httpOnly then [b!"HttpOnly"] else []) ++
  (if c.secure then [b!"Secure"] else [])

/-- `http.SetCookie`: the `Set-Cookie` header it adds; `none`: no header, for a name that is no token
(sessions/manager.go:92, 156, sessions/remember.go:84, 96). -/
def setCookieText (isIP : Str → Bool) (c : GoCookie) : Option Str :=
  if validName c.name then
    some (c.name ++ b!"=" ++ sanitizeValue c.value ++ ((c.attrs isIP).map (b!"; " ++ ·)).flatten)
  else none

/-- sessions/manager.go:82-90, 141-152: the session cookie, `date` is the text of `Expires` (line 88). -/
def sessionCookie (at' : Attrs) (date : Str) (c : SetCookie) : GoCookie :=
  { name := c.name, value := c.value, path := b!"/", domain := at'.domain, expires := date, maxAge := c.maxAge,
    secure := at'.secure, httpOnly := true }

/-- sessions/remember.go:84-91, 96-102: the remember cookie. -/
def rememberCookie (at' : Attrs) (c : SetCookie) : GoCookie :=
  { name := c.name, value := c.value, path := b!"/", domain := [], expires := [], maxAge := c.maxAge,
    secure := at'.secure, httpOnly := true }

/-! ## The browser reads the header -/

/-- RFC 6265, 5.2: remove blanks and tabs at both ends (the header of sessions/manager.go:92, 156). -/
def trimWsp (s : Str) : Str :=
  ((s.dropWhile (fun c => c == 32 || c == 9)).reverse.dropWhile (fun c => c == 32 || c == 9)).reverse

/-- RFC 6265, 5.2: the texts before and after the first `=` (the header of sessions/manager.go:92, 156). -/
def cutEquals (s : Str) : Str × Str := (trimWsp (s.takeWhile (· != 61)), trimWsp ((s.dropWhile (· != 61)).drop 1))

/-- RFC 6265, 5.2.2: the number of seconds; one that is not positive is given as -1: the cookie has expired
(the attribute of sessions/manager.go:89, 151). -/
def uaMaxAge (v : Str) : Option Int :=
  match v with
  | [] => none
  | c :: ds =>
    if ds.all (fun d => 48 ≤ d && d ≤ 57) then
      if c = 45 then some (-1)
      else if 48 ≤ c && c ≤ 57 then
        some (if (c :: ds).foldl (fun n d => n * 10 + (d.toNat - 48)) 0 = 0 then -1
          else ((c :: ds).foldl (fun n d => n * 10 + (d.toNat - 48)) 0 : Nat))
      else none
    else none

/-- RFC 6265, 5.2.1-5.2.6: one attribute, the last of a name counts (the attributes of sessions/manager.go:82-90, 141-152). -/
def uaAttr (c : HttpCookie) (av : Str) : HttpCookie :=
  if toLower (cutEquals av).1 = b!"max-age" then { c with maxAge := (uaMaxAge (cutEquals av).2).getD c.maxAge }
  else if toLower (cutEquals av).1 = b!"domain" then
    if (cutEquals av).2 = [] then c else { c with domain := toLower (wireDomain (cutEquals av).2) }
  else if toLower (cutEquals av).1 = b!"path" then
    if hasPrefix (cutEquals av).2 b!"/" then { c with path := (cutEquals av).2 } else c
  else if toLower (cutEquals av).1 = b!"secure" then { c with secure := true }
  else if toLower (cutEquals av).1 = b!"httponly" then { c with httpOnly := true }
  else c

/-- RFC 6265, 5.2: a browser reads a `Set-Cookie` header; `none`: it ignores it
(the header of sessions/manager.go:92, 156). -/
def uaRead (text : Str) : Option HttpCookie :=
  match splitOn1 59 text with
  | [] => none
  | p :: avs =>
    if p.contains 61 then
      if (cutEquals p).1 = [] then none
      else some (avs.foldl uaAttr ⟨(cutEquals p).1, (cutEquals p).2, [], [], 0, false, false⟩)
    else none

/-! ## The request -/

/-- RFC 6265, 5.4: the `Cookie` header a browser sends (read at sessions/manager.go:171, sessions/remember.go:13). -/
def cookieHeader (cs : Cookies) : Str :=
  match cs with
  | [] => []
  | c :: cs => c.1 ++ b!"=" ++ c.2 ++ (cs.map (fun d => b!"; " ++ d.1 ++ b!"=" ++ d.2)).flatten

/-- `parseCookieValue` (called by `r.Cookies()`, sessions/manager.go:171). -/
def parseValue (raw : Str) : Option Str :=
  if raw.length > 1 ∧ raw.head? = some 34 ∧ raw.getLast? = some 34 then
    if ((raw.drop 1).dropLast).all valueByte then some ((raw.drop 1).dropLast) else none
  else if raw.all valueByte then some raw else none

/-- one part of a `Cookie` header (`r.Cookies()`, sessions/manager.go:171) -/
def readPart (part : Str) : Option (Str × Str) :=
  if validName ((trimSpace part).takeWhile (· != 61)) then
    (parseValue (((trimSpace part).dropWhile (· != 61)).drop 1)).map (fun v => ((trimSpace part).takeWhile (· != 61), v))
  else none

/-- `r.Cookies()`, given the `Cookie` header lines (sessions/manager.go:171, sessions/remember.go:13). -/
def readCookies (lines : List Str) : Cookies :=
  lines.flatMap (fun line => (splitOn1 59 (trimSpace line)).filterMap readPart)

/-- `r.AddCookie` (sessions/manager.go:157): the first line with the cookie appended replaces all lines. -/
def addCookie (lines : List Str) (name value : Str) : List Str :=
  [(if lines.headD [] = [] then [] else lines.headD [] ++ b!"; ") ++
    name.map (fun c => if c = 10 ∨ c = 13 then 45 else c) ++ b!"=" ++ sanitizeValue value]

/-! ## The requests of one browser, over the wire -/

/-- What the browser makes of an `http.SetCookie` (sessions/manager.go:92, 156, sessions/remember.go:84, 96). -/
def received (isIP : Str → Bool) (c : GoCookie) : List HttpCookie := ((setCookieText isIP c).bind uaRead).toList

section
variable {σ V : Type} (C : CacheApi σ) (K : Conv V) (cfg : Config) (H : Hmac) (cc : CookieConfig) (at' : Attrs)
variable (isIP : Str → Bool) (date : Int → Str)

/-- `visit` of `Model/Jar` with the headers in between: the manager reads the `Cookie` header, the browser the `Set-Cookie`
headers (sessions/manager.go:49-127, sessions/remember.go:74-103). -/
def visitWire (p : Place) (v : Visit V) (jar : List Entry) (s : σ) : List Entry × σ × Got :=
  match v with
  | .start n f =>
    match start C K cfg H cc f p.now n (readCookies [cookieHeader (send p jar)]) s with
    | (s', .done r set _) =>
      (storeAll p.host p.now (set.flatMap fun c => received isIP (sessionCookie at' [] c)) jar, s', gotOf r)
    | (s', .panic) => (jar, s', .panic)
  | .destroy f =>
    match managerDestroy C cfg H cc f p.now (readCookies [cookieHeader (send p jar)]) s with
    | (s', set) =>
      (storeAll p.host p.now (set.flatMap fun c => received isIP (sessionCookie at' (date p.now) c)) jar, s', .unit)
  | .regenerate n ps fg fs fd fr =>
    match managerRegenerate C K cfg H cc fg fs fd fr p.now n ps (readCookies [cookieHeader (send p jar)]) s with
    | (s', .done r set _) =>
      (storeAll p.host p.now (set.flatMap fun c => received isIP (sessionCookie at' [] c)) jar, s', gotOf r)
    | (s', .panic) => (jar, s', .panic)
  | .remember psk salt =>
    (storeAll p.host p.now ((writeRemember H cfg cc psk salt p.now).toList.flatMap fun c => received isIP (rememberCookie at' c)) jar,
      s, .unit)
  | .forget => (storeAll p.host p.now (received isIP (rememberCookie at' (destroyRemember cc))) jar, s, .unit)

/-- A sequence of requests (sessions/manager.go:49-127). -/
def visitsWire : List (Place × Visit V) → List Entry → σ → List Entry × σ × List Got
  | [], jar, s => (jar, s, [])
  | (p, v) :: vs, jar, s =>
    match visitWire C K cfg H cc at' isIP date p v jar s with
    | (jar', s', g) =>
      match visitsWire vs jar' s' with
      | (jar'', s'', gs) => (jar'', s'', g :: gs)

end

end Verif.Sess
