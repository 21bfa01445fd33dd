import Verif.Model.Session
/-!
# Cookies with their attributes, and the browser that keeps them

The cookies of sessions/manager.go and sessions/remember.go with all their attributes, the browser's cookie store
(RFC 6265, section 5), and the sequence of requests of one browser.

Simplifications: cookie names are valid tokens and `CookieDomain` is empty or a valid domain name; host and domain names are
in lower case and not IP addresses; browsers reject no public suffixes and evict nothing. The `Expires` attribute of
manager.go:88 is not modelled (`Max-Age` has precedence).
-/
namespace Verif.Sess
open Verif.Go

/-- sessions/config.go:12-13: `CookieSecure` and `CookieDomain`. -/
structure Attrs where
  secure : Bool
  domain : Str

/-- `http.Cookie` as sent in a `Set-Cookie` header (sessions/manager.go:82-92, 141-156, sessions/remember.go:84-91, 96-102). -/
structure HttpCookie where
  name : Str
  value : Str
  path : Str
  domain : Str
  maxAge : Int
  secure : Bool
  httpOnly : Bool
deriving DecidableEq

/-- The `Domain` attribute `http.SetCookie` writes for `CookieDomain`: a leading dot is dropped (called at
sessions/manager.go:92, 156). -/
def wireDomain (d : Str) : Str :=
  match d with
  | 46 :: t => t
  | _ => d

/-- sessions/manager.go:82-92, 141-156: the attributes of the session cookie. -/
def sessionAttrs (at' : Attrs) (c : SetCookie) : HttpCookie :=
  { name := c.name, value := c.value, path := b!"/", domain := wireDomain at'.domain, maxAge := c.maxAge, secure := at'.secure,
    httpOnly := true }

/-- sessions/remember.go:84-91, 96-102: the attributes of the remember cookie, which has no domain. -/
def rememberAttrs (at' : Attrs) (c : SetCookie) : HttpCookie :=
  { name := c.name, value := c.value, path := b!"/", domain := [], maxAge := c.maxAge, secure := at'.secure, httpOnly := true }

/-- sessions/remember.go:95-103 `DestroyRemember`. -/
def destroyRemember (cc : CookieConfig) : SetCookie := { name := cc.rememberName, value := [], maxAge := -1 }

/-! ## The browser -/

/-- A stored cookie (RFC 6265, 5.3; the receiver of sessions/manager.go:156). -/
structure Entry where
  name : Str
  domain : Str
  path : Str
  value : Str
  hostOnly : Bool
  expires : Option Int
  secure : Bool
  httpOnly : Bool
deriving DecidableEq

/-- RFC 6265, 5.1.3: `host` is `d` or a subdomain of it (hosts of sessions/manager.go:147). -/
def within (host d : Str) : Bool := host == d || (46 :: d).isSuffixOf host

/-- RFC 6265, 5.1.4: the request path `q` is `p` or below it (paths of sessions/manager.go:144). -/
def pathMatch (p q : Str) : Bool :=
  p == q || (p.isPrefixOf q && (p.getLast? == some 47 || (q.drop p.length).head? == some 47))

/-- RFC 6265, 5.3 step 11: the cookies are the same one (name, domain, path) (set at sessions/manager.go:92, 156). -/
def Entry.same (a b : Entry) : Bool := a.name == b.name && a.domain == b.domain && a.path == b.path

/-- RFC 6265, 5.3: the entry for a cookie received from `host` at time `now` (nanoseconds) (set at sessions/manager.go:156). -/
def entryOf (host : Str) (now : Int) (c : HttpCookie) : Entry :=
  { name := c.name, domain := if c.domain = [] then host else c.domain, path := c.path, value := c.value,
    hostOnly := c.domain == [], expires := if c.maxAge > 0 then some (now + c.maxAge * 1000000000) else none,
    secure := c.secure, httpOnly := c.httpOnly }

/-- RFC 6265, 5.3: a cookie received from `host`: for a foreign domain it is ignored, with a negative max-age it removes the
stored one, otherwise it replaces it (set at sessions/manager.go:92, 156, sessions/remember.go:84, 96). -/
def store (host : Str) (now : Int) (c : HttpCookie) (jar : List Entry) : List Entry :=
  if c.domain ≠ [] ∧ within host c.domain = false then jar
  else if c.maxAge < 0 then jar.filter fun e => !e.same (entryOf host now c)
  else if jar.any fun e => e.same (entryOf host now c) then
    jar.map fun e => if e.same (entryOf host now c) then entryOf host now c else e
  else jar ++ [entryOf host now c]

/-- The cookies of one response, in order (sessions/manager.go:92, 156). -/
def storeAll (host : Str) (now : Int) (cs : List HttpCookie) (jar : List Entry) : List Entry :=
  cs.foldl (fun j c => store host now c j) jar

/-- Where and when a request is made (sessions/manager.go:49 `r`). -/
structure Place where
  host : Str
  https : Bool
  path : Str
  now : Int

/-- RFC 6265, 5.3: not past its expiry time (of sessions/manager.go:150-152). -/
def unexpired (now : Int) : Option Int → Bool
  | none => true
  | some t => decide (now < t)

/-- RFC 6265, 5.4: the stored cookie is sent with a request (read at sessions/manager.go:171). -/
def Entry.sent (p : Place) (e : Entry) : Bool :=
  (if e.hostOnly then e.domain == p.host else within p.host e.domain) && pathMatch e.path p.path &&
    (!e.secure || p.https) && unexpired p.now e.expires

/-- The cookies of a request (`r.Cookies()`, sessions/manager.go:171, sessions/remember.go:13). -/
def send (p : Place) (jar : List Entry) : Cookies := (jar.filter (Entry.sent p)).map fun e => (e.name, e.value)

/-! ## The requests of one browser -/

/-- What the application does with the session in a request: the calls of sessions/manager.go:49, 73, 98 and
sessions/remember.go:74, 95. `newSid` is what `CreateSid()` returns; the faults are those of the cache. -/
inductive Visit (V : Type) where
  | start (newSid : Str) (f : Fault)
  | destroy (f : Fault)
  | regenerate (newSid : Str) (params : List (Str → Option V)) (fg fs fd fr : Fault)
  | remember (psk salt : Str)
  | forget

/-- What a visit gave: the session id (`Start` and `Regenerate`), an error, a panic, or nothing (sessions/manager.go:49-127). -/
inductive Got where
  | sid (s : Str)
  | err
  | panic
  | unit
deriving DecidableEq

section
variable {σ V : Type} (C : CacheApi σ) (K : Conv V) (cfg : Config) (H : Hmac) (cc : CookieConfig) (at' : Attrs)

/-- The session id of a result (sessions/manager.go:49, 98). -/
def gotOf : Except SErr (Handle V) → Got
  | .ok h => .sid h.sid
  | .error _ => .err

/-- One request of the browser: the cookies it sends, the call (sessions/manager.go:49-127, sessions/remember.go:74-103) and the
cookies it stores. A panicking request sets no cookies (they are set after line 124). -/
def visit (p : Place) (v : Visit V) (jar : List Entry) (s : σ) : List Entry × σ × Got :=
  match v with
  | .start n f =>
    match start C K cfg H cc f p.now n (send p jar) s with
    | (s', .done r set _) => (storeAll p.host p.now (set.map (sessionAttrs at')) jar, s', gotOf r)
    | (s', .panic) => (jar, s', .panic)
  | .destroy f =>
    match managerDestroy C cfg H cc f p.now (send p jar) s with
    | (s', set) => (storeAll p.host p.now (set.map (sessionAttrs at')) jar, s', .unit)
  | .regenerate n ps fg fs fd fr =>
    match managerRegenerate C K cfg H cc fg fs fd fr p.now n ps (send p jar) s with
    | (s', .done r set _) => (storeAll p.host p.now (set.map (sessionAttrs at')) jar, s', gotOf r)
    | (s', .panic) => (jar, s', .panic)
  | .remember psk salt =>
    (storeAll p.host p.now ((writeRemember H cfg cc psk salt p.now).toList.map (rememberAttrs at')) jar, s, .unit)
  | .forget => (storeAll p.host p.now [rememberAttrs at' (destroyRemember cc)] jar, s, .unit)

/-- A sequence of requests, with their outcomes (sessions/manager.go:49-127). -/
def visits : List (Place × Visit V) → List Entry → σ → List Entry × σ × List Got
  | [], jar, s => (jar, s, [])
  | (p, v) :: vs, jar, s =>
    match visit C K cfg H cc at' p v jar s with
    | (jar', s', g) =>
      match visits vs jar' s' with
      | (jar'', s'', gs) => (jar'', s'', g :: gs)

end

end Verif.Sess
