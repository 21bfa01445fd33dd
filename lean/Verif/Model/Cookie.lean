import Verif.Go.Strconv
import Verif.Go.Enc
/-!
# Secure cookie values, session cookies and remember-me cookies

Models sessions/utils.go, sessions/remember.go and the cookie half of sessions/manager.go.

Simplifications, for the whole file:
* HMAC-SHA1 is an arbitrary function `mac key message` with 20-byte results (`Hmac`);
* a `time.Time` is the number of nanoseconds since 1970 (`Int`); the wall clock is a parameter `now`;
* the cookies of a request are the list of name/value pairs that `r.Cookies()` returns, and a cookie set
  on a response comes back in later requests with the same name and value.  (`net/http` transports the
  values written here unchanged: they are base64 text; cookie names are assumed to be valid tokens.)
* cookie attributes other than name, value and max-age are added in `Model/Jar`.
-/
namespace Verif.Sess
open Verif.Go

/-- `hmac.New(sha1.New, key)` followed by `Write(msg)` and `Sum(nil)` (sessions/utils.go:54-60, 77-82). -/
structure Hmac where
  sum : Str → Str → Str
  len : ∀ k m, (sum k m).length = 20

/-- sessions/sessions.go:11 `COOKIE_VALUE_SPLIT = ","` -/
def comma : UInt8 := 44

/-- sessions/sessions.go:12 `COOKIE_VALUE_PARTS_SPLIT = "|"` -/
def bar : UInt8 := 124

/-- sessions/utils.go:70-90 `EncodeSecureValue`; `none` is `ok = false`. -/
def encodeSecure (H : Hmac) (raw key : Str) (created : Int) : Option Str :=
  if raw = [] ∨ key = [] then none
  else
    let timeValue := fmtInt created
    let hash := hexEncode (H.sum key (raw ++ timeValue))
    some (b64Encode (queryEscape raw ++ comma :: (timeValue ++ comma :: hash)))

/-- sessions/utils.go:27-68 `DecodeSecureValue`; `none` is `ok = false`. The error of the base64 decoder
(line 28) and of `ParseInt` (line 45) are ignored, as in the code. -/
def decodeSecure (H : Hmac) (value key : Str) : Option (Str × Int) :=
  match splitN1 comma 3 (b64Decode value).1 with
  | [p0, p1, p2] =>
    let vRaw := trimSpace p0
    let vCreated := trimSpace p1
    let vHash := trimSpace p2
    if vRaw = [] ∨ vCreated = [] ∨ vHash = [] then none
    else
      let vTime := (parseInt 64 vCreated).1
      if vTime ≤ 0 then none
      else match queryUnescape vRaw with
        | none => none
        | some raw =>
          if hexEncode (H.sum key (raw ++ vCreated)) ≠ vHash then none else some (raw, vTime)
  | _ => none

/-- sessions/utils.go:92-107 `GetRawFromSecureValue`. -/
def getRaw (value : Str) : Str :=
  match b64Decode value with
  | (_, true) => []
  | (b, false) =>
    match splitN1 comma 3 b with
    | [] => []
    | p :: _ => (queryUnescape p).getD []

/-- sessions/utils.go:126-128 `int2SecsDuration`: `time.Duration(t) * time.Second`, 64-bit wrap-around. -/
def secsDuration (t : Int) : Int := wrapS 64 (t * 1000000000)

/-- sessions/utils.go:109-111 `isExpired` at wall-clock time `now`. -/
def isExpired (created expired now : Int) : Bool := created + expired < now

/-- The cookies of a request, in order (`r.Cookies()`, sessions/manager.go:171). -/
abbrev Cookies := List (Str × Str)

/-- sessions/utils.go:115-124 `getCookie`: the last cookie of that name. -/
def getCookie (cs : Cookies) (name : Str) : Option Str :=
  (cs.reverse.find? (fun c => c.1 == name)).map (·.2)

/-- sessions/config.go:9-16 `CookieConfig` (the fields used here). -/
structure CookieConfig where
  cookieName : Str
  rememberName : Str
  cookieExpire : Int
  rememberExpire : Int

/-- sessions/config.go:18-21 `Config`. -/
structure Config where
  secretKey : Str
  sessionExpire : Int

/-- A cookie set on the response. `maxAge = 0` means the attribute is absent.
(sessions/manager.go:82-92, 141-154, sessions/remember.go:84-91, 96-102). -/
structure SetCookie where
  name : Str
  value : Str
  maxAge : Int
deriving DecidableEq

/-- sessions/manager.go:166-195 `ReadSidFromRequest`. -/
def readSid (H : Hmac) (cfg : Config) (cs : Cookies) (name : Str) (now : Int) : Option (Str × Int) :=
  match getCookie cs name with
  | none => none
  | some cv =>
    match queryUnescape cv with
    | none => none
    | some value =>
      match decodeSecure H value cfg.secretKey with
      | none => none
      | some (sid, t) =>
        if isExpired t (secsDuration cfg.sessionExpire) now then none else some (sid, t)

/-- sessions/manager.go:130-158 `WriteSessionCookie`: the cookies set on the response, and the request's
cookies afterwards (`r.AddCookie`). -/
def writeSessionCookie (H : Hmac) (cfg : Config) (cc : CookieConfig) (cs : Cookies) (sid : Str)
    (created : Int) : List SetCookie × Cookies :=
  match encodeSecure H sid cfg.secretKey created with
  | none => ([], cs)
  | some v =>
    ([{ name := cc.cookieName, value := v, maxAge := if cc.cookieExpire ≥ 0 then cc.cookieExpire else 0 }],
     cs ++ [(cc.cookieName, v)])

/-- sessions/remember.go:105-118 `createRememberCookieValue`. -/
def createRemember (H : Hmac) (sk psk salt : Str) (created : Int) : Option Str :=
  if sk = [] ∨ psk = [] ∨ salt = [] then none
  else match encodeSecure H psk (sk ++ salt) created with
    | none => none
    | some saltHash =>
      encodeSecure H (queryEscape psk ++ bar :: queryEscape saltHash) sk created

/-- sessions/remember.go:74-93 `WriteRemember`. -/
def writeRemember (H : Hmac) (cfg : Config) (cc : CookieConfig) (psk salt : Str) (now : Int) :
    Option SetCookie :=
  (createRemember H cfg.secretKey psk salt now).map fun v =>
    { name := cc.rememberName, value := v, maxAge := cc.rememberExpire }

/-- sessions/remember.go:10-47 `HasRemember`; `none` is `ok = false`. A value without `|` returns
`ok = true` with empty strings (lines 29-32), as in the code. -/
def hasRemember (H : Hmac) (cfg : Config) (cc : CookieConfig) (cs : Cookies) (now : Int) :
    Option (Str × Str) :=
  match getCookie cs cc.rememberName with
  | none => none
  | some cv =>
    match decodeSecure H cv cfg.secretKey with
    | none => none
    | some (value, t) =>
      if isExpired t (secsDuration cc.rememberExpire) now then none
      else match splitN1 bar 2 value with
        | [a, b] =>
          match queryUnescape a, queryUnescape b with
          | some psk, some saltHash => some (psk, saltHash)
          | _, _ => none
        | _ => some ([], [])

/-- sessions/remember.go:49-72 `ValidRemember`. -/
def validRemember (H : Hmac) (cfg : Config) (cc : CookieConfig) (psk salt saltHash : Str) (now : Int) :
    Bool :=
  if psk = [] ∨ salt = [] ∨ saltHash = [] then false
  else match decodeSecure H saltHash (cfg.secretKey ++ salt) with
    | none => false
    | some (uPsk, t) =>
      if isExpired t (secsDuration cc.rememberExpire) now then false
      else uPsk == psk

end Verif.Sess
