import Verif.Go.Strconv
/-!
# The cache providers: redis, MongoDB, memcached

Models caches/caches.go, caches/provider_redis.go, caches/provider_mgo.go, caches/provider_memcache.go and
`utils.ToStr` (utils/converter.go:160-184).  Each provider method is one command of a server; the servers'
documented command semantics are modelled here too (trusted base).

Simplifications, for the whole file:
* the clock is a number of nanoseconds since 1970, read once per operation;
* connections do not fail (failures are added where they matter, in `Model/Session.lean`);
* servers do not evict, and a key whose deadline is reached is gone at that very instant;
* MongoDB stores one collection per cache (`Connect`), keyed by the key field; date truncation to
  milliseconds is ignored;
* floating-point values are not modelled; `time.Duration.Seconds()` is integer division, which is exact
  for the whole-second durations the providers build (a duration that overflows 64 bits may have a fraction,
  which redis would reject; it is cut off here).
-/
namespace Verif.Cache
open Verif.Go

/-- The values a caller may store: text (a string or a named string type; a boolean is treated like its text, which is
what every backend gives back for it), bytes, an integer, or a value of another kind; floats are not modelled
(caches/caches.go:20, the parameter `value` of `Set`). -/
inductive Val where
  | text (s : Str)
  | bytes (s : Str)
  | int (i : Int)
  | other
deriving DecidableEq, Repr

/-- utils/converter.go:160-184 `ToStr`. For a value that is none of the handled kinds line 180 formats the
shadowed, nil `[]byte`, so the result is always the same text. -/
def toStr : Val → Str
  | .text s => s
  | .bytes s => s
  | .int i => fmtInt i
  | .other => b!"[]byte(nil)"

/-- A call of the `CacheProvider` interface (caches/caches.go:18-28). -/
inductive Op where
  | get (key : Str)
  | set (key : Str) (val : Val) (params : List Int)
  | touch (key : Str) (params : List Int)
  | delete (key : Str)
  | incr (key : Str) (params : List Int)
  | decr (key : Str) (params : List Int)
  | has (key : Str)
  | clean
  | gc
deriving DecidableEq, Repr

/-- What a call returns: no error, a value, a boolean, `ErrMissedKey`, or another error.
(the results of caches/caches.go:18-28; caches/caches.go:15 `ErrMissedKey`). -/
inductive Out where
  | ok
  | val (s : Str)
  | bool (b : Bool)
  | missed
  | failed
deriving DecidableEq, Repr

/-- One second in nanoseconds (`time.Second`, caches/caches.go:35). -/
def second : Int := 1000000000

/-- caches/caches.go:30-49 `getTimeoutDur` (64-bit wrap-around of the multiplication included). -/
def timeoutDur (params : List Int) : Int :=
  match params with
  | [] => 60 * second
  | p :: _ =>
    if p > 0 then wrapS 64 (p * second)
    else if p = 0 then 60 * second
    else 0

/-- caches/caches.go:51-57 `getTimeoutDurEx`. -/
def timeoutDurEx (params : List Int) : Int :=
  if timeoutDur params = 0 then 9999 * 24 * 3600 * second else timeoutDur params

/-- The delta of `Incr`/`Decr`: `1`, or the first parameter (caches/provider_redis.go:109-112). -/
def delta (params : List Int) : Int := params.head?.getD 1

/-- A stored item: its text and, unless it lives for ever, its deadline.
(the server behind caches/provider_redis.go and caches/provider_memcache.go). -/
abbrev Item := Str × Option Int

/-- A key/value server with deadlines (redis, memcached).
(the server behind caches/provider_redis.go:11 and caches/provider_memcache.go:10). -/
abbrev Server := Str → Option Item

/-- replace one key (the server's store, caches/provider_redis.go:59, caches/provider_memcache.go:39). -/
def upd {α β : Type} [DecidableEq α] (f : α → β) (k : α) (v : β) : α → β := fun x => if x = k then v else f x

/-- Has the deadline passed? (the server's expiry, caches/provider_redis.go:57, caches/provider_memcache.go:42). -/
def alive (now : Int) : Option Int → Bool
  | none => true
  | some d => now < d

/-- What the server shows for a key at time `now`.
(the server's `GET`, caches/provider_redis.go:35, caches/provider_memcache.go:27). -/
def live (s : Server) (now : Int) (k : Str) : Option Item := (s k).filter (fun it => alive now it.2)

/-- A strict 64-bit integer text, as redis `INCRBY` accepts it (the server's `INCRBY`, caches/provider_redis.go:120). -/
def canonInt (s : Str) : Option Int :=
  match parseInt 64 s with
  | (i, none) => if fmtInt i = s then some i else none
  | _ => none

/-- Fits a signed 64-bit integer (the server's `INCRBY`, caches/provider_redis.go:120). -/
def fits64 (i : Int) : Bool := -(2 ^ 63) ≤ i && i < 2 ^ 63

/-- redis `INCRBY k n`: a missing key counts as 0 and gets no expiry; an existing key keeps its expiry.
(caches/provider_redis.go:120, 139). -/
def redisIncrBy (s : Server) (now : Int) (k : Str) (n : Int) : Server × Out :=
  match live s now k with
  | none => (upd s k (some (fmtInt n, none)), .ok)
  | some (v, d) =>
    match canonInt v with
    | none => (s, .failed)
    | some i => if fits64 (i + n) then (upd s k (some (fmtInt (i + n), d)), .ok) else (s, .failed)

/-- caches/provider_redis.go:26-184: one provider method at clock `now` (`pre` is `KeyPrefix`).
`Get` 26-43, `Set` 45-62, `Touch` 64-84, `Delete` 86-105, `Incr` 107-124, `Decr` 126-143, `Has` 145-161,
`Clean` 163-173, `GC` 175-177. Server commands: `SET k v [EX s]`,
`EXPIRE k s` (0 or less deletes an existing key and answers 1; the number of seconds is sent as a decimal fraction
and one that is not whole is an error: only timeouts that overflowed are not whole; simplification: fractions
that the floating-point number of seconds cannot hold count as not whole), `DECRBY` (refuses the number it cannot
negate), `DEL`, `EXISTS`, `FLUSHDB`. -/
def redis (pre : Str) (now : Int) (op : Op) (s : Server) : Server × Out :=
  match op with
  | .get k =>
    match live s now (pre ++ k) with
    | some it => (s, .val it.1)
    | none => (s, .missed)
  | .set k v ps =>
    let t := timeoutDur ps
    if t > 0 then
      if t % second ≠ 0 then (s, .failed)
      else (upd s (pre ++ k) (some (toStr v, some (now + t / second * second))), .ok)
    else (upd s (pre ++ k) (some (toStr v, none)), .ok)
  | .touch k ps =>
    let t := timeoutDur ps
    if t % second ≠ 0 then (s, .failed) else
    match live s now (pre ++ k) with
    | none => (s, .missed)
    | some it =>
      if t / second ≤ 0 then (upd s (pre ++ k) none, .ok)
      else (upd s (pre ++ k) (some (it.1, some (now + t / second * second))), .ok)
  | .delete k =>
    match live s now (pre ++ k) with
    | none => (s, .missed)
    | some _ => (upd s (pre ++ k) none, .ok)
  | .incr k ps => redisIncrBy s now (pre ++ k) (delta ps)
  | .decr k ps => if fits64 (-(delta ps)) then redisIncrBy s now (pre ++ k) (-(delta ps)) else (s, .failed)
  | .has k => (s, .bool (live s now (pre ++ k)).isSome)
  | .clean => (fun _ => none, .ok)
  | .gc => (s, .ok)

/-- A MongoDB collection: per key the stored value and the `expiredAt` date.
(the collection of caches/provider_mgo.go:12-18). -/
abbrev Coll := Str → Option (Val × Int)

/-- caches/provider_mgo.go:220-236 `getValue`: the value, unless expired. -/
def mgoValue (now : Int) : Option (Val × Int) → Option Val
  | none => none
  | some (v, d) => if now < d then some v else none

/-- `$inc` on a document: the value must be an integer (caches/provider_mgo.go:141-147, 161-167). -/
def mgoInc (c : Coll) (k : Str) (n : Int) : Coll × Out :=
  match c k with
  | none => (c, .missed)
  | some (.int i, d) => if fits64 (i + n) then (upd c k (some (.int (i + n), d)), .ok) else (c, .failed)
  | some _ => (c, .failed)

/-- caches/provider_mgo.go:72-208: `Get` 72-86, `Set` 88-103, `Touch` 105-121, `Delete` 123-132, `Incr` 134-152,
`Decr` 154-172, `Has` 174-185, `Clean` 187-193, `GC` 195-208. `Touch`, `Delete`, `Incr` and `Decr` act on
the document whether or not it has expired, as in the code. `Decr` negates a 64-bit `int`. -/
def mgo (autoExpire : Bool) (now : Int) (op : Op) (c : Coll) : Coll × Out :=
  match op with
  | .get k =>
    match mgoValue now (c k) with
    | some v => (c, .val (toStr v))
    | none => (c, .missed)
  | .set k v ps => (upd c k (some (v, now + timeoutDurEx ps)), .ok)
  | .touch k ps =>
    match c k with
    | none => (c, .missed)
    | some (v, _) => (upd c k (some (v, now + timeoutDurEx ps)), .ok)
  | .delete k =>
    match c k with
    | none => (c, .missed)
    | some _ => (upd c k none, .ok)
  | .incr k ps => mgoInc c k (delta ps)
  | .decr k ps => mgoInc c k (wrapS 64 (-(delta ps)))
  | .has k => (c, .bool (mgoValue now (c k)).isSome)
  | .clean => (fun _ => none, .ok)
  | .gc =>
    if autoExpire then (c, .ok)
    else (fun k => (c k).filter (fun it => now < it.2), .ok)

/-- The MongoDB server's own TTL monitor with the index of caches/provider_mgo.go:47-61 (`ExpireAfter` one
minute): at some later time it removes documents that expired at least a minute ago. `keep` is which of
them it has not got to yet. -/
def mgoReap (now : Int) (keep : Str → Bool) (c : Coll) : Coll :=
  fun k => (c k).filter (fun it => keep k || now < it.2 + 60 * second)

/-- gomemcache `legalKey`: at most 250 bytes, no blanks or control bytes.
(the client called in caches/provider_memcache.go:27, 39, 50, 57, 68, 79). -/
def legalKey (k : Str) : Bool := k.length ≤ 250 && k.all (fun c => 33 ≤ c && c != 127)

/-- memcached's reading of an expiration time `e` (seconds): 0 never expires, a negative one is already
expired, at most 30 days is relative, more is an absolute unix time (caches/provider_memcache.go:42, 50). -/
def mcDeadline (now e : Int) : Option Int :=
  if e = 0 then none
  else if e < 0 then some now
  else if e ≤ 2592000 then some (now + e * second)
  else some (e * second)

/-- `int32(timeout.Seconds())`; out of range the result depends on the platform, here it wraps; no theorem depends on it (caches/provider_memcache.go:42, 50). -/
def mcSeconds (t : Int) : Int := wrapS 32 (t / second)

/-- A decimal unsigned 64-bit text, as memcached `incr` accepts it. (memcached uses `strtoull`, which allows
trailing blanks such as the ones it writes itself.) (caches/provider_memcache.go:68, 79). -/
def mcNumber (v : Str) : Option Nat :=
  match parseUint 64 ((v.reverse.dropWhile (· == 32)).reverse) with
  | (n, none) => some n
  | _ => none

/-- memcached stores the new number in place, padded with blanks to the old length.
(caches/provider_memcache.go:68, 79). -/
def padTo (n : Nat) (s : Str) : Str := s ++ List.replicate (n - s.length) 32

/-- memcached `incr`/`decr`: `incr` wraps at 64 bits, `decr` stops at 0 (caches/provider_memcache.go:68, 79). -/
def mcArith (s : Server) (now : Int) (k : Str) (f : Nat → Nat) : Server × Out :=
  match live s now k with
  | none => (s, .missed)
  | some (v, d) =>
    match mcNumber v with
    | none => (s, .failed)
    | some n => (upd s k (some (padTo v.length (natDec (f n)), d)), .ok)

/-- caches/provider_memcache.go:25-100: `Get` 25-34, `Set` 36-45, `Touch` 47-53, `Delete` 55-60, `Incr` 62-71,
`Decr` 73-82, `Has` 84-92, `Clean` 94-96, `GC` 98-100. -/
def memcache (pre : Str) (now : Int) (op : Op) (s : Server) : Server × Out :=
  match op with
  | .get k =>
    if legalKey (pre ++ k) then
      match live s now (pre ++ k) with
      | some it => (s, .val it.1)
      | none => (s, .missed)
    else (s, .failed)
  | .set k v ps =>
    if legalKey (pre ++ k) then
      (upd s (pre ++ k) (some (toStr v, mcDeadline now (mcSeconds (timeoutDur ps)))), .ok)
    else (s, .failed)
  | .touch k ps =>
    if legalKey (pre ++ k) then
      match live s now (pre ++ k) with
      | none => (s, .missed)
      | some it => (upd s (pre ++ k) (some (it.1, mcDeadline now (mcSeconds (timeoutDur ps)))), .ok)
    else (s, .failed)
  | .delete k =>
    if legalKey (pre ++ k) then
      match live s now (pre ++ k) with
      | none => (s, .missed)
      | some _ => (upd s (pre ++ k) none, .ok)
    else (s, .failed)
  | .incr k ps =>
    if legalKey (pre ++ k) then
      mcArith s now (pre ++ k) (fun n => (n + (wrapU 64 (delta ps)).toNat) % 2 ^ 64)
    else (s, .failed)
  | .decr k ps =>
    if legalKey (pre ++ k) then
      mcArith s now (pre ++ k) (fun n => n - (wrapU 64 (delta ps)).toNat)
    else (s, .failed)
  | .has k =>
    if legalKey (pre ++ k) then (s, .bool (live s now (pre ++ k)).isSome)
    else (s, .failed)
  | .clean => (fun _ => none, .ok)
  | .gc => (s, .ok)

/-- A history: calls with the time each is made. Running it collects the results.
(a sequence of calls of caches/caches.go:18-28). -/
def run {σ : Type} (op : Int → Op → σ → σ × Out) : List (Int × Op) → σ → List Out
  | [], _ => []
  | (t, o) :: h, s => (op t o s).2 :: run op h (op t o s).1

/-- The state a history leads to (a sequence of calls of caches/caches.go:18-28). -/
def final {σ : Type} (op : Int → Op → σ → σ × Out) : List (Int × Op) → σ → σ
  | [], s => s
  | (t, o) :: h, s => final op h (op t o s).1

end Verif.Cache
