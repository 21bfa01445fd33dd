import Verif.Model.Session
/-!
# The cache providers and their drivers: errors and connections

`Model/Cache.lean` merges a provider, its driver and the server into one step that cannot fail. Here they are apart: the provider sends a command
through the driver, anything may fail on the way, and the provider turns the driver's answer into its result. The redis provider takes a
connection out of a pool for every call. Drivers (radix.v2, mgo.v2, gomemcache) are trusted base.
-/
namespace Verif.Driver
open Verif.Go Verif.Cache

/-- What goes wrong with one call: nothing; there is no connection; the command does not reach the server; its answer does not come back
(the error paths of caches/provider_redis.go:29-32, 36-40, provider_mgo.go:89-101, provider_memcache.go:27-31). -/
inductive Trouble where
  | none
  | noConn
  | lost
  | late
deriving DecidableEq, Repr

/-! ## redis -/

/-- A redis command; `ex` and `expire` with the duration in nanoseconds (caches/provider_redis.go:35, 55-59, 74, 95, 120, 139, 154, 170). -/
inductive Cmd where
  | get (k : Str)
  | set (k v : Str) (ex : Option Int)
  | expire (k : Str) (t : Int)
  | del (k : Str)
  | incrby (k : Str) (n : Int)
  | decrby (k : Str) (n : Int)
  | «exists» (k : Str)
  | flushdb

/-- A reply as radix.v2 gives it (caches/provider_redis.go:35-36): a text or a status, a number, nil, an error of the server, or an error of the
connection. -/
inductive Reply where
  | str (s : Str)
  | int (i : Int)
  | nil
  | err
  | io
deriving DecidableEq, Repr

/-- `redis.ErrRespNil` or another error (caches/provider_redis.go:179-184). -/
inductive DErr where
  | respNil
  | other
deriving DecidableEq, Repr

/-- radix.v2 `Resp.Str` (caches/provider_redis.go:36). -/
def Reply.toText : Reply → Except DErr Str
  | .str s => .ok s
  | .nil => .error .respNil
  | _ => .error .other

/-- radix.v2 `Resp.Int` (caches/provider_redis.go:75, 96, 155); texts are not expected here. -/
def Reply.toInt : Reply → Except DErr Int
  | .int i => .ok i
  | .nil => .error .respNil
  | _ => .error .other

/-- radix.v2 `Resp.Err` (caches/provider_redis.go:60, 121, 140, 171): nil is no error there. -/
def Reply.toErr : Reply → Option DErr
  | .err => some .other
  | .io => some .other
  | _ => none

/-- caches/provider_redis.go:179-184 `handleError`. -/
def redisError : DErr → Out
  | .respNil => .missed
  | .other => .failed

/-- redis `INCRBY` (caches/provider_redis.go:120, 139). -/
def execIncr (s : Server) (now : Int) (k : Str) (n : Int) : Server × Reply :=
  match live s now k with
  | none => (upd s k (some (fmtInt n, none)), .int n)
  | some (v, d) =>
    match canonInt v with
    | none => (s, .err)
    | some i => if fits64 (i + n) then (upd s k (some (fmtInt (i + n), d)), .int (i + n)) else (s, .err)

/-- The redis server (caches/provider_redis.go:35, 59, 74, 95, 120, 139, 154, 170). -/
def exec (now : Int) (c : Cmd) (s : Server) : Server × Reply :=
  match c with
  | .get k => (s, match live s now k with | some it => .str it.1 | none => .nil)
  | .set k v none => (upd s k (some (v, none)), .str b!"OK")
  | .set k v (some t) => if t % second ≠ 0 then (s, .err) else (upd s k (some (v, some (now + t / second * second))), .str b!"OK")
  | .expire k t =>
    if t % second ≠ 0 then (s, .err) else
    match live s now k with
    | none => (s, .int 0)
    | some it => if t / second ≤ 0 then (upd s k none, .int 1) else (upd s k (some (it.1, some (now + t / second * second))), .int 1)
  | .del k =>
    match live s now k with
    | none => (s, .int 0)
    | some _ => (upd s k none, .int 1)
  | .incrby k n => execIncr s now k n
  | .decrby k n => if fits64 (-n) then execIncr s now k (-n) else (s, .err)
  | .exists k => (s, .int (if (live s now k).isSome then 1 else 0))
  | .flushdb => (fun _ => none, .str b!"OK")

/-- The command of a call; `GC` has none (caches/provider_redis.go:26-177). -/
def redisCmd (pre : Str) : Op → Option Cmd
  | .get k => some (.get (pre ++ k))
  | .set k v ps => some (.set (pre ++ k) (toStr v) (if timeoutDur ps > 0 then some (timeoutDur ps) else none))
  | .touch k ps => some (.expire (pre ++ k) (timeoutDur ps))
  | .delete k => some (.del (pre ++ k))
  | .incr k ps => some (.incrby (pre ++ k) (delta ps))
  | .decr k ps => some (.decrby (pre ++ k) (delta ps))
  | .has k => some (.exists (pre ++ k))
  | .clean => some .flushdb
  | .gc => none

/-- caches/provider_redis.go:36-41: `Get`. -/
def textResult : Except DErr Str → Out
  | .ok s => .val s
  | .error e => redisError e

/-- caches/provider_redis.go:75-83, 96-104: `Touch`, `Delete`. -/
def countResult : Except DErr Int → Out
  | .ok i => if i = 0 then .missed else .ok
  | .error e => redisError e

/-- caches/provider_redis.go:155-160: `Has`. -/
def hasResult : Except DErr Int → Out
  | .ok i => .bool (i = 1)
  | .error .respNil => .bool false
  | .error .other => .failed

/-- caches/provider_redis.go:60-61, 171-172: `Set`, `Clean`. -/
def plainResult : Option DErr → Out
  | none => .ok
  | some _ => .failed

/-- caches/provider_redis.go:121-123, 140-142: `Incr`, `Decr`. -/
def handledResult : Option DErr → Out
  | none => .ok
  | some e => redisError e

/-- The result of a call from the reply to its command (caches/provider_redis.go:26-177). -/
def redisOut (op : Op) (r : Reply) : Out :=
  match op with
  | .get _ => textResult r.toText
  | .set .. => plainResult r.toErr
  | .touch .. => countResult r.toInt
  | .delete _ => countResult r.toInt
  | .incr .. => handledResult r.toErr
  | .decr .. => handledResult r.toErr
  | .has _ => hasResult r.toInt
  | .clean => plainResult r.toErr
  | .gc => .ok

/-- What the pool of connections sees (caches/provider_redis.go:29, 33). -/
inductive PoolEv where
  | take
  | refuse
  | put
deriving DecidableEq, Repr

/-- The server and the history of the pool (caches/provider_redis.go:29-33). -/
structure RWorld where
  server : Server
  pool : List PoolEv := []

/-- One call of the redis provider: `Client.Get()`, return on an error, the deferred `Put`, the command
(caches/provider_redis.go:26-177). -/
def redisCall (pre : Str) (tr : Trouble) (now : Int) (op : Op) (w : RWorld) : RWorld × Out :=
  match redisCmd pre op with
  | none => (w, .ok)
  | some c =>
    match tr with
    | .noConn => (⟨w.server, w.pool ++ [.refuse]⟩, .failed)
    | .lost => (⟨w.server, w.pool ++ [.take, .put]⟩, redisOut op .io)
    | .late => (⟨(exec now c w.server).1, w.pool ++ [.take, .put]⟩, redisOut op .io)
    | .none => (⟨(exec now c w.server).1, w.pool ++ [.take, .put]⟩, redisOut op (exec now c w.server).2)

/-! ## memcached -/

/-- What gomemcache returns: the text of an item, nothing, `ErrCacheMiss`, or another error (caches/provider_memcache.go:27-31, 102-107). -/
inductive MRes where
  | item (s : Str)
  | done
  | miss
  | err
deriving DecidableEq, Repr

/-- gomemcache with its server: keys that are not legal are refused before anything is sent (caches/provider_memcache.go:27, 39, 50, 57, 68, 79, 95). -/
def mcExec (pre : Str) (now : Int) (op : Op) (s : Server) : Server × MRes :=
  match memcache pre now op s with
  | (s', .val v) => (s', .item v)
  | (s', .bool true) => (s', .item [])
  | (s', .bool false) => (s', .miss)
  | (s', .missed) => (s', .miss)
  | (s', .ok) => (s', .done)
  | (s', .failed) => (s', .err)

/-- caches/provider_memcache.go:102-107 `handleError`, and the results without an error (25-96). -/
def mcHandled : MRes → Out
  | .item s => .val s
  | .done => .ok
  | .miss => .missed
  | .err => .failed

/-- caches/provider_memcache.go:84-92 `Has`: a `Get` at the driver. -/
def mcHas : MRes → Out
  | .item _ => .bool true
  | .done => .bool true
  | .miss => .bool false
  | .err => .failed

/-- caches/provider_memcache.go:36-45, 94-96: `Set` and `Clean` pass the error on. -/
def mcPlain : MRes → Out
  | .item _ => .ok
  | .done => .ok
  | .miss => .failed
  | .err => .failed

/-- caches/provider_memcache.go:25-100. -/
def mcOut (op : Op) (r : MRes) : Out :=
  match op with
  | .set .. => mcPlain r
  | .clean => mcPlain r
  | .has _ => mcHas r
  | .gc => .ok
  | _ => mcHandled r

/-- One call of the memcached provider (caches/provider_memcache.go:25-100). -/
def mcCall (pre : Str) (tr : Trouble) (now : Int) (op : Op) (s : Server) : Server × Out :=
  match op with
  | .gc => (s, .ok)
  | op =>
    match tr with
    | .none => ((mcExec pre now op s).1, mcOut op (mcExec pre now op s).2)
    | .late => ((mcExec pre now op s).1, mcOut op .err)
    | _ => (s, mcOut op .err)

/-! ## MongoDB -/

/-- What mgo returns: a document (its value and deadline), nothing, `ErrNotFound`, or another error (caches/provider_mgo.go:210-218, 238-243). -/
inductive GRes where
  | doc (v : Val) (expiredAt : Int)
  | done
  | notFound
  | err
deriving DecidableEq, Repr

/-- The server's `$inc` (caches/provider_mgo.go:141-147, 161-167). -/
def incExec (c : Coll) (k : Str) (n : Int) : Coll × GRes :=
  match c k with
  | none => (c, .notFound)
  | some (.int i, d) => if fits64 (i + n) then (upd c k (some (.int (i + n), d)), .done) else (c, .err)
  | some _ => (c, .err)

/-- mgo with its server (caches/provider_mgo.go:93-99, 110-117, 125-128, 141-147, 161-167, 189, 200-204, 212-214). -/
def mgoExec (now : Int) (op : Op) (c : Coll) : Coll × GRes :=
  match op with
  | .get k => (c, match c k with | some (v, d) => .doc v d | none => .notFound)
  | .has k => (c, match c k with | some (v, d) => .doc v d | none => .notFound)
  | .set k v ps => (upd c k (some (v, now + timeoutDurEx ps)), .done)
  | .touch k ps =>
    match c k with
    | none => (c, .notFound)
    | some (v, _) => (upd c k (some (v, now + timeoutDurEx ps)), .done)
  | .delete k =>
    match c k with
    | none => (c, .notFound)
    | some _ => (upd c k none, .done)
  | .incr k ps => incExec c k (delta ps)
  | .decr k ps => incExec c k (wrapS 64 (-(delta ps)))
  | .clean => (fun _ => none, .done)
  | .gc => (fun k => (c k).filter (fun it => now < it.2), .done)

/-- caches/provider_mgo.go:238-243 `handleError` (`Touch`, `Delete`, `Incr`, `Decr`). -/
def mgoHandled : GRes → Out
  | .notFound => .missed
  | .err => .failed
  | _ => .ok

/-- caches/provider_mgo.go:72-86 `Get`, with 220-236 `getValue`. -/
def mgoGet (now : Int) : GRes → Out
  | .doc v d => if now < d then .val (toStr v) else .missed
  | .done => .missed
  | .notFound => .missed
  | .err => .failed

/-- caches/provider_mgo.go:174-185 `Has`, with 220-236 `getValue`. -/
def mgoHas (now : Int) : GRes → Out
  | .doc _ d => .bool (now < d)
  | .done => .bool false
  | .notFound => .bool false
  | .err => .failed

/-- caches/provider_mgo.go:88-103, 187-208: `Set`, `Clean` and `GC` pass the error on. -/
def mgoPlain : GRes → Out
  | .notFound => .failed
  | .err => .failed
  | _ => .ok

/-- caches/provider_mgo.go:72-208. -/
def mgoOut (now : Int) (op : Op) (r : GRes) : Out :=
  match op with
  | .get _ => mgoGet now r
  | .has _ => mgoHas now r
  | .set .. => mgoPlain r
  | .clean => mgoPlain r
  | .gc => mgoPlain r
  | _ => mgoHandled r

/-- One call of the MongoDB provider; `Connect` fails for `noConn` (caches/provider_mgo.go:72-208). -/
def mgoCall (autoExpire : Bool) (tr : Trouble) (now : Int) (op : Op) (c : Coll) : Coll × Out :=
  if op = .gc ∧ autoExpire = true then (c, .ok)
  else
    match tr with
    | .none => ((mgoExec now op c).1, mgoOut now op (mgoExec now op c).2)
    | .late => ((mgoExec now op c).1, mgoOut now op .err)
    | _ => (c, mgoOut now op .err)

end Verif.Driver
