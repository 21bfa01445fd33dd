import Verif.Model.Cache
import Verif.Model.Cookie
import Verif.Model.Rand
/-!
# Sessions

Models sessions/provider.go (the session store and the provider on top of a cache) and sessions/manager.go.
The cache is any of the providers of `Model/Cache.lean`, behind the interface the Go code uses
(`caches.CacheProvider`); every call to it may fail.

Simplifications, for the whole file:
* session values are an arbitrary type `V`; the BSON converter is a parameter (`Conv`);
* a session's values are a function from keys to optional values; the map given to `Create` is copied
  (the code keeps the caller's map);
* the clock is read once per operation; cookies as in `Model/Cookie.lean`.
-/
namespace Verif.Sess
open Verif.Go
open Verif.Cache (Op Out Val)

/-- A cache provider (`caches.CacheProvider`), as a state machine (caches/caches.go:18-28). -/
structure CacheApi (σ : Type) where
  step : Int → Op → σ → σ × Out

/-- What happens to one call over the network: it works; it fails before the server sees it; or the
server carries it out but the answer is an error (timeout).
(calls of caches/caches.go:18-28 from sessions/provider.go:128, 153, 173, 181, 191, 216). -/
inductive Fault where
  | none
  | lost
  | late
deriving DecidableEq, Repr

/-- One cache call under a fault (sessions/provider.go:128, 153, 173, 181, 191, 216). -/
def call {σ : Type} (C : CacheApi σ) (f : Fault) (now : Int) (o : Op) (s : σ) : σ × Out :=
  match f with
  | .none => C.step now o s
  | .lost => (s, .failed)
  | .late => ((C.step now o s).1, .failed)

/-- sessions/provider.go:14-17 `converter`, on the values of a session. -/
structure Conv (V : Type) where
  marshal : (Str → Option V) → Option Str
  unmarshal : Str → Option (Str → Option V)

/-- Errors a session operation may return (sessions/sessions.go:15-18). -/
inductive SErr where
  | notFound   -- ErrNotFoundSession
  | missed     -- caches.ErrMissedKey, passed through
  | cache      -- any other cache error
  | conv       -- converter error
deriving DecidableEq, Repr

/-- sessions/provider.go:39-45 `sessData` with its `sessStore` (19-22). -/
structure Handle (V : Type) where
  sid : Str
  values : Str → Option V
  changed : Bool
  closed : Bool

/-- The error in a cache result (sessions/provider.go:154-157, 174-177). -/
def outErr : Out → Option SErr
  | .missed => some .missed
  | .failed => some .cache
  | _ => none

section
variable {σ V : Type} (C : CacheApi σ) (K : Conv V) (cfg : Config)

/-- sessions/provider.go:67-70 `Set`. -/
def Handle.set (h : Handle V) (k : Str) (v : V) : Handle V :=
  { h with changed := true, values := Cache.upd h.values k (some v) }

/-- sessions/provider.go:72-77 `Get` (`none` is `ValueTo(nil)`). -/
def Handle.get (h : Handle V) (k : Str) : Option V := h.values k

/-- sessions/provider.go:79-82 `Delete`. -/
def Handle.delete (h : Handle V) (k : Str) : Handle V :=
  { h with changed := true, values := Cache.upd h.values k none }

/-- sessions/provider.go:84-87 `Has`. -/
def Handle.has (h : Handle V) (k : Str) : Bool := (h.values k).isSome

/-- sessions/provider.go:99-102 `Clean`. -/
def Handle.clean (h : Handle V) : Handle V := { h with changed := true, values := fun _ => none }

/-- sessions/provider.go:211-218 `save`. -/
def save (f : Fault) (now : Int) (h : Handle V) (s : σ) : σ × Option SErr :=
  match K.marshal h.values with
  | none => (s, some .conv)
  | some b =>
    let r := call C f now (.set h.sid (.bytes b) [cfg.sessionExpire]) s
    (r.1, outErr r.2)

/-- sessions/provider.go:105-118 `Flush`: the changed flag is cleared before the save (116-117). -/
def flush (f : Fault) (now : Int) (h : Handle V) (s : σ) : Handle V × σ × Option SErr :=
  if h.closed then (h, s, none)
  else if h.changed = false then (h, s, none)
  else
    let r := save C K cfg f now h s
    ({ h with changed := false }, r.1, r.2)

/-- sessions/provider.go:190-193 the provider's `Destroy`. -/
def destroySid (f : Fault) (now : Int) (sid : Str) (s : σ) : σ × Option SErr :=
  let r := call C f now (.delete sid) s
  (r.1, outErr r.2)

/-- sessions/provider.go:121-125 `Destroy` of a handle. -/
def destroy (f : Fault) (now : Int) (h : Handle V) (s : σ) : Handle V × σ × Option SErr :=
  let r := destroySid C f now h.sid s
  ({ h with closed := true, values := fun _ => none }, r.1, r.2)

/-- sessions/provider.go:127-129 `Touch`. -/
def touch (f : Fault) (now : Int) (h : Handle V) (s : σ) : σ × Option SErr :=
  let r := call C f now (.touch h.sid [cfg.sessionExpire]) s
  (r.1, outErr r.2)

/-- sessions/provider.go:147-150, 205-209 `Create`: changed exactly when values are given. -/
def create (sid : Str) (params : List (Str → Option V)) : Handle V :=
  { sid := sid, values := params.head?.getD (fun _ => none), changed := !params.isEmpty, closed := false }

/-- sessions/provider.go:152-169 `Read`. -/
def read (f : Fault) (now : Int) (sid : Str) (s : σ) : σ × Except SErr (Handle V) :=
  match call C f now (.get sid) s with
  | (s', .val b) =>
    match K.unmarshal b with
    | none => (s', .error .conv)
    | some vs => (s', .ok { sid := sid, values := vs, changed := false, closed := false })
  | (s', .missed) => (s', .error .notFound)
  | (s', _) => (s', .error .cache)

/-- sessions/provider.go:172-188 `Regenerate`: get, set under the new id, destroy the old id (its error is
ignored), read. Four cache calls, four faults. -/
def regenerate (fg fs fd fr : Fault) (now : Int) (old sid : Str) (s : σ) : σ × Except SErr (Handle V) :=
  match call C fg now (.get old) s with
  | (s1, .val b) =>
    match call C fs now (.set sid (.text b) [cfg.sessionExpire]) s1 with
    | (s2, .ok) => read C K fr now sid (destroySid C fd now old s2).1
    | (s2, _) => (s2, .error .cache)
  | (s1, .missed) => (s1, .error .notFound)
  | (s1, _) => (s1, .error .cache)

/-- What a manager call gives back: the session (or an error), the cookies it set, the request's cookies
afterwards; or a panic (sessions/manager.go:49, 73, 98). -/
inductive MOut (V : Type) where
  | done (r : Except SErr (Handle V)) (set : List SetCookie) (cookies : Cookies)
  | panic

/-- sessions/manager.go:49-70 `Start`. `newSid` is what `CreateSid()` returns. -/
def start (H : Hmac) (cc : CookieConfig) (f : Fault) (now : Int) (newSid : Str) (cs : Cookies) (s : σ) :
    σ × MOut V :=
  match readSid H cfg cs cc.cookieName now with
  | none =>
    let h : Handle V := create newSid []
    let w := writeSessionCookie H cfg cc cs h.sid now
    (s, .done (.ok h) w.1 w.2)
  | some (sid, _) =>
    match read C K f now sid s with
    | (s', .error .notFound) => (s', .done (.ok (create sid [])) [] cs)
    | (s', r) => (s', .done r [] cs)

/-- sessions/manager.go:73-95 `Destroy`: the provider's error is ignored. -/
def managerDestroy (H : Hmac) (cc : CookieConfig) (f : Fault) (now : Int) (cs : Cookies) (s : σ) :
    σ × List SetCookie :=
  match readSid H cfg cs cc.cookieName now with
  | none => (s, [])
  | some (sid, _) =>
    ((destroySid C f now sid s).1, [{ name := cc.cookieName, value := [], maxAge := -1 }])

/-- sessions/manager.go:98-127 `Regenerate`. When the provider fails with an error other than
`ErrNotFoundSession` the nil session is used (line 125): a panic. -/
def managerRegenerate (H : Hmac) (cc : CookieConfig) (fg fs fd fr : Fault) (now : Int) (newSid : Str)
    (params : List (Str → Option V)) (cs : Cookies) (s : σ) : σ × MOut V :=
  match readSid H cfg cs cc.cookieName now with
  | none =>
    let h : Handle V := create newSid params
    let w := writeSessionCookie H cfg cc cs h.sid now
    (s, .done (.ok h) w.1 w.2)
  | some (old, _) =>
    match regenerate C K cfg fg fs fd fr now old newSid s with
    | (s', .ok h) =>
      let w := writeSessionCookie H cfg cc cs h.sid now
      (s', .done (.ok h) w.1 w.2)
    | (s', .error .notFound) =>
      let h : Handle V := create newSid params
      let w := writeSessionCookie H cfg cc cs h.sid now
      (s', .done (.ok h) w.1 w.2)
    | (s', .error _) => (s', .panic)

end

end Verif.Sess
