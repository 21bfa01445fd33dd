import Verif.Model.Session
/-!
# Requests whose cache calls interleave

`Model/Session.lean` runs each session operation in one piece. Here any number of requests are at work at the same time and
the unit of interleaving is the single call of the cache provider: between two calls of one `Regenerate` any other request may
make calls of its own, at later times. Faults as in `Model/Session.lean`.

Simplifications: what a request does between its cache calls is not visible to the others (the stores of a session are private
to the request); the manager's part, which makes no cache calls, is left out.
-/
namespace Verif.Sess
open Verif.Go

/-- An operation of a request that uses the cache: reading a session (sessions/provider.go:152-169), saving the values of a
changed store (105-118, 211-218), destroying (121-125, 190-193), touching (127-129), regenerating (172-188). -/
inductive Job (V : Type) where
  | read (sid : Str)
  | save (sid : Str) (vs : Str → Option V)
  | destroy (sid : Str)
  | touch (sid : Str)
  | regenerate (old new : Str)

/-- How far a request has come: nothing to do; about to begin; within `Regenerate` (sessions/provider.go:172-188) about to
store the value it got (181), about to destroy the old session (186), about to read the new one (187); finished. -/
inductive Pc (V : Type) where
  | idle
  | go (j : Job V)
  | copy (old new : Str) (b : Str)
  | drop (old new : Str)
  | reread (new : Str)
  | done (r : Except SErr (Option (Handle V)))

/-- The end of an operation that gives back a session (sessions/provider.go:152, 172). -/
def Pc.opened {V : Type} : Except SErr (Handle V) → Pc V
  | .ok h => .done (.ok (some h))
  | .error e => .done (.error e)

/-- The end of an operation that gives back an error or nothing (sessions/provider.go:117, 124, 128). -/
def Pc.ended {V : Type} : Option SErr → Pc V
  | none => .done (.ok none)
  | some e => .done (.error e)

section
variable {P σ V : Type} [DecidableEq P] (C : CacheApi σ) (K : Conv V) (cfg : Config)

/-- After the first call of `Regenerate` (sessions/provider.go:173-179). -/
def afterGet (old new : Str) : Cache.Out → Pc V
  | .val b => .copy old new b
  | .missed => .done (.error .notFound)
  | _ => .done (.error .cache)

/-- After the second call of `Regenerate` (sessions/provider.go:181-184). -/
def afterSet (old new : Str) : Cache.Out → Pc V
  | .ok => .drop old new
  | _ => .done (.error .cache)

/-- One cache call of a request (sessions/provider.go:105-129, 152-193, 211-218). -/
def pcStep (f : Fault) (now : Int) (pc : Pc V) (s : σ) : σ × Pc V :=
  match pc with
  | .go (.read sid) => ((read C K f now sid s).1, Pc.opened (read C K f now sid s).2)
  | .go (.save sid vs) =>
    ((save C K cfg f now ⟨sid, vs, true, false⟩ s).1, Pc.ended (save C K cfg f now ⟨sid, vs, true, false⟩ s).2)
  | .go (.destroy sid) => ((destroySid C f now sid s).1, Pc.ended (destroySid C f now sid s).2)
  | .go (.touch sid) =>
    ((call C f now (.touch sid [cfg.sessionExpire]) s).1, Pc.ended (outErr (call C f now (.touch sid [cfg.sessionExpire]) s).2))
  | .go (.regenerate old new) => ((call C f now (.get old) s).1, afterGet old new (call C f now (.get old) s).2)
  | .copy old new b =>
    ((call C f now (.set new (.text b) [cfg.sessionExpire]) s).1,
      afterSet old new (call C f now (.set new (.text b) [cfg.sessionExpire]) s).2)
  | .drop old new => ((destroySid C f now old s).1, .reread new)
  | .reread new => ((read C K f now new s).1, Pc.opened (read C K f now new s).2)
  | .idle => (s, .idle)
  | .done r => (s, .done r)

/-- What happens: request `p` begins an operation; it makes its next cache call; the sessions are collected
(sessions/provider.go:105-218, sessions/manager.go:25-46). -/
inductive FEvent (P V : Type) where
  | start (p : P) (j : Job V)
  | run (p : P) (now : Int) (f : Fault)
  | collect (now : Int) (f : Fault)

/-- All requests, and the cache they share (sessions/provider.go:131-135). -/
structure FWorld (P σ V : Type) where
  procs : P → Pc V
  cache : σ

/-- One event (sessions/provider.go:105-218). -/
def fineStep (e : FEvent P V) (w : FWorld P σ V) : FWorld P σ V :=
  match e with
  | .start p j => ⟨fun q => if q = p then .go j else w.procs q, w.cache⟩
  | .run p now f =>
    ⟨fun q => if q = p then (pcStep C K cfg f now (w.procs p) w.cache).2 else w.procs q, (pcStep C K cfg f now (w.procs p) w.cache).1⟩
  | .collect now f => ⟨w.procs, (call C f now .gc w.cache).1⟩

/-- A history (sessions/provider.go:105-218). -/
def fineRun : List (FEvent P V) → FWorld P σ V → FWorld P σ V
  | [], w => w
  | e :: es, w => fineRun es (fineStep C K cfg e w)

end

end Verif.Sess
