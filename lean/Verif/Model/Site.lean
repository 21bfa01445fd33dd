import Verif.Model.Wire
/-!
# A site: many browsers, many requests under way, one session cache

Any number of browsers send requests to one application. A request reads the `Cookie` header, calls the session manager
and uses the session it got; its response, with the `Set-Cookie` headers, reaches the browser at some later time, perhaps
after further requests, perhaps never. Everything is interleaved in any order: a history is a list of events.

Simplifications: each call of the manager or of a session store is one step (its cache calls are not interleaved with those
of other requests, except as `Model/Session` faults); a browser stores all cookies of a response at once.
-/
namespace Verif.Sess
open Verif.Go

/-- A browser: its cookies, the responses under way to it (host and `Set-Cookie` headers), and the sessions that requests
of it have opened in the application (sessions/manager.go:49-127). -/
structure Browser (V : Type) where
  jar : List Entry
  answers : List (Str × List Str)
  stores : List (Handle V)

/-- A new browser (the client of sessions/manager.go:49). -/
def Browser.new {V : Type} : Browser V := ⟨[], [], []⟩

/-- What the application does with a session it opened (sessions/provider.go:67-129). -/
inductive Use (V : Type) where
  | set (k : Str) (v : V)
  | delete (k : Str)
  | clean
  | get (k : Str)
  | has (k : Str)
  | flush (f : Fault)
  | touch (f : Fault)
  | destroy (f : Fault)

/-- What a step shows (results of sessions/manager.go:49-127, sessions/provider.go:67-129). -/
inductive Obs (V : Type) where
  | got (g : Got)
  | value (v : Option V)
  | bool (b : Bool)
  | result (e : Option SErr)
  | nothing
deriving DecidableEq

/-- An event: a request of a browser calls the manager; a response reaches its browser; the application uses the `i`-th
session opened for the browser; the sessions are collected (sessions/manager.go:25-127, sessions/provider.go:67-129). -/
inductive Event (B V : Type) where
  | call (b : B) (p : Place) (v : Visit V)
  | answer (b : B) (i : Nat) (now : Int)
  | use (b : B) (i : Nat) (now : Int) (u : Use V)
  | collect (now : Int) (f : Fault)

/-- The site: all browsers, and the cache (sessions/manager.go:10-13). -/
structure Site (B σ V : Type) where
  browsers : B → Browser V
  cache : σ

section
variable {B σ V : Type} [DecidableEq B] (C : CacheApi σ) (K : Conv V) (cfg : Config) (H : Hmac) (cc : CookieConfig) (at' : Attrs)
variable (isIP : Str → Bool) (date : Int → Str)

/-- The `Set-Cookie` headers for the cookies set (sessions/manager.go:92, 156, sessions/remember.go:84, 96). -/
def texts (f : SetCookie → GoCookie) (set : List SetCookie) : List Str := set.filterMap fun c => setCookieText isIP (f c)

/-- The session of a result, if there is one (sessions/manager.go:49, 98). -/
def storeOf : Except SErr (Handle V) → List (Handle V)
  | .ok h => [h]
  | .error _ => []

/-- A request of the browser: the cookies it sends are read and the manager is called; the response is under way
(sessions/manager.go:49-127, sessions/remember.go:74-103). -/
def callStep (p : Place) (v : Visit V) (br : Browser V) (s : σ) : σ × Browser V × Got :=
  match v with
  | .start n f =>
    match start C K cfg H cc f p.now n (readCookies [cookieHeader (send p br.jar)]) s with
    | (s', .done r set _) =>
      (s', ⟨br.jar, br.answers ++ [(p.host, texts isIP (sessionCookie at' []) set)], br.stores ++ storeOf r⟩, gotOf r)
    | (s', .panic) => (s', br, .panic)
  | .destroy f =>
    match managerDestroy C cfg H cc f p.now (readCookies [cookieHeader (send p br.jar)]) s with
    | (s', set) =>
      (s', ⟨br.jar, br.answers ++ [(p.host, texts isIP (sessionCookie at' (date p.now)) set)], br.stores⟩, .unit)
  | .regenerate n ps fg fs fd fr =>
    match managerRegenerate C K cfg H cc fg fs fd fr p.now n ps (readCookies [cookieHeader (send p br.jar)]) s with
    | (s', .done r set _) =>
      (s', ⟨br.jar, br.answers ++ [(p.host, texts isIP (sessionCookie at' []) set)], br.stores ++ storeOf r⟩, gotOf r)
    | (s', .panic) => (s', br, .panic)
  | .remember psk salt =>
    (s, ⟨br.jar, br.answers ++ [(p.host, texts isIP (rememberCookie at') (writeRemember H cfg cc psk salt p.now).toList)],
      br.stores⟩, .unit)
  | .forget => (s, ⟨br.jar, br.answers ++ [(p.host, texts isIP (rememberCookie at') [destroyRemember cc])], br.stores⟩, .unit)

/-- The `i`-th response reaches the browser (cookies of sessions/manager.go:92, 156, sessions/remember.go:84, 96). -/
def answerStep (i : Nat) (now : Int) (br : Browser V) : Browser V :=
  match br.answers[i]? with
  | none => br
  | some a => { br with jar := storeAll a.1 now (a.2.filterMap uaRead) br.jar }

/-- The application uses the `i`-th session opened for the browser (sessions/provider.go:67-129). -/
def useStep (i : Nat) (now : Int) (u : Use V) (br : Browser V) (s : σ) : σ × Browser V × Obs V :=
  match br.stores[i]? with
  | none => (s, br, .nothing)
  | some h =>
    match u with
    | .set k v => (s, { br with stores := br.stores.set i (h.set k v) }, .nothing)
    | .delete k => (s, { br with stores := br.stores.set i (h.delete k) }, .nothing)
    | .clean => (s, { br with stores := br.stores.set i h.clean }, .nothing)
    | .get k => (s, br, .value (h.get k))
    | .has k => (s, br, .bool (h.has k))
    | .flush f =>
      match flush C K cfg f now h s with
      | (h', s', e) => (s', { br with stores := br.stores.set i h' }, .result e)
    | .touch f =>
      match touch C cfg f now h s with
      | (s', e) => (s', br, .result e)
    | .destroy f =>
      match destroy C f now h s with
      | (h', s', e) => (s', { br with stores := br.stores.set i h' }, .result e)

/-- One event; what is seen, and by whom (sessions/manager.go:25-127, sessions/provider.go:67-129). -/
def siteStep (e : Event B V) (w : Site B σ V) : Site B σ V × List (B × Obs V) :=
  match e with
  | .call b p v =>
    match callStep C K cfg H cc at' isIP date p v (w.browsers b) w.cache with
    | (s', br, g) => (⟨fun x => if x = b then br else w.browsers x, s'⟩, [(b, .got g)])
  | .answer b i now => (⟨fun x => if x = b then answerStep i now (w.browsers b) else w.browsers x, w.cache⟩, [])
  | .use b i now u =>
    match useStep C K cfg i now u (w.browsers b) w.cache with
    | (s', br, o) => (⟨fun x => if x = b then br else w.browsers x, s'⟩, [(b, o)])
  | .collect now f => (⟨w.browsers, (call C f now .gc w.cache).1⟩, [])

/-- A history: everything that is seen, in order (sessions/manager.go:25-127). -/
def siteRun : List (Event B V) → Site B σ V → Site B σ V × List (B × Obs V)
  | [], w => (w, [])
  | e :: es, w =>
    match siteStep C K cfg H cc at' isIP date e w with
    | (w', o) =>
      match siteRun es w' with
      | (w'', os) => (w'', o ++ os)

end

end Verif.Sess
