import Verif.Model.Session
import Verif.Model.ValueConv
/-!
# The converter of sessions: BSON

sessions/provider_mgo.go:30-38 hands the values of a session to `bson.Marshal` and `bson.Unmarshal` of globalsign/mgo; all three
providers use it (provider_redis.go:22, provider_memcache.go:22, provider_mgo.go:26). The library is not in the sandbox: it is modelled
from the BSON format and its documented rules for Go types. Left out: object ids, structs, pointers, named types (encoded by
their kind), `float32`; documents of 2 GiB and more (the length is written as 32 bits).
-/
namespace Verif.Bson
open Verif.Go
open Verif.Conv (IntKind Src Any)

/-- The values a program puts into a session: `nil`, `bool`, the integer types, `float64` (its 64 bits), `string`, `[]byte`, `[]string`, `time.Time`
(an instant: whole seconds since 1970 and nanoseconds; its zone is not stored),
`[]interface{}`, `map[string]interface{}` (its keys in the order in which they are visited, with their values), and values BSON cannot
represent: functions, channels (sessions/provider.go:19-22, `Values`). -/
inductive GV where
  | nil
  | bool (b : Bool)
  | int (k : IntKind) (i : Int)
  | float (bits : UInt64)
  | str (s : Str)
  | bytes (s : Str)
  | time (sec : Int) (nsec : Nat)
  | strings (l : List Str)
  | list (l : List GV)
  | doc (ks : List Str) (vs : List GV)
  | bad
deriving Repr

/-! ## Marshal -/

/-- `k` bytes, the lowest first (bson `addInt32`, `addInt64`; sessions/provider_mgo.go:33). -/
def leBytes : Nat → Nat → Str
  | 0, _ => []
  | k + 1, n => UInt8.ofNat (n % 256) :: leBytes k (n / 256)

/-- Two's complement of `w` bytes (bson `addInt32`, `addInt64`; sessions/provider_mgo.go:33). -/
def leInt (w : Nat) (i : Int) : Str := leBytes w (i % (2 ^ (8 * w) : Nat)).toNat

/-- The types whose values are written in 32 bits if they fit: all but `int64` and `uint64` (bson `addElem`;
sessions/provider_mgo.go:33). -/
def small (k : IntKind) (i : Int) : Bool := decide (k ≠ .int64) && decide (k ≠ .uint64) && decide (-2147483648 ≤ i) && decide (i < 2147483648)

/-- A document: its length, its elements, a zero byte (bson `addDoc`; sessions/provider_mgo.go:33). -/
def frame (b : Str) : Str := leBytes 4 (b.length + 5) ++ b ++ [0]

/-- A text: its length with the zero byte, the bytes, a zero byte (bson `addStr`; sessions/provider_mgo.go:33). -/
def encStr (s : Str) : Str := leBytes 4 (s.length + 1) ++ s ++ [0]

/-- The names of the elements of an array: 0, 1, … (bson `addSlice`; sessions/provider_mgo.go:33). -/
def indexNames (n : Nat) (len : Nat) : List Str := (List.range len).map (fun i => fmtInt ((n + i : Nat) : Int))

/-- The elements of a `[]string` (bson `addSlice`; sessions/provider_mgo.go:33). -/
def encStrings : List Str → List Str → Str
  | k :: ks, s :: l => 2 :: (k ++ 0 :: encStr s) ++ encStrings ks l
  | _, _ => []

mutual
/-- The type and the bytes of a value; `none`: `Marshal` returns an error (bson `addElem`: an unsigned number of 2^63 or more, a
function or channel; sessions/provider_mgo.go:33). -/
def enc : GV → Option (UInt8 × Str)
  | .nil => some (0x0A, [])
  | .bool b => some (0x08, [if b then 1 else 0])
  | .int k i =>
    if k.signed = false ∧ 9223372036854775808 ≤ i then none
    else if small k i then some (0x10, leInt 4 i)
    else some (0x12, leInt 8 i)
  | .float b => some (0x01, leBytes 8 b.toNat)
  | .str s => some (0x02, encStr s)
  | .bytes s => some (0x05, leBytes 4 s.length ++ 0 :: s)
  | .time sec nsec => some (0x09, leInt 8 (sec * 1000 + (nsec / 1000000 : Nat)))
  | .strings l => some (0x04, frame (encStrings (indexNames 0 l.length) l))
  | .list l => (encElems (indexNames 0 l.length) l).map (fun b => (0x04, frame b))
  | .doc ks vs => (encElems ks vs).map (fun b => (0x03, frame b))
  | .bad => none
/-- The elements of a document: type, name, zero byte, value (bson `addMap`, `addSlice`; sessions/provider_mgo.go:33). -/
def encElems : List Str → List GV → Option Str
  | ks, v :: vs =>
    match ks with
    | [] => some []
    | k :: ks =>
      match enc v, encElems ks vs with
      | some (t, p), some r => some (t :: (k ++ 0 :: p) ++ r)
      | _, _ => none
  | _, [] => some []
end

/-- sessions/provider_mgo.go:32-34 `Marshal`, of a map visited in this order. -/
def marshal (ks : List Str) (vs : List GV) : Option Str := (encElems ks vs).map frame

/-! ## Unmarshal -/

/-- (bson `readInt32`; sessions/provider_mgo.go:37) -/
def leVal : Str → Nat
  | [] => 0
  | b :: r => b.toNat + 256 * leVal r

/-- `w` bytes as a number in two's complement, and the rest (bson `readInt32`, `readInt64`; sessions/provider_mgo.go:37). -/
def readInt (w : Nat) (s : Str) : Option (Int × Str) :=
  if s.length < w then none else some (wrapS (8 * w) (leVal (s.take w)), s.drop w)

/-- Up to the zero byte, and what follows it (bson `readCStr`; sessions/provider_mgo.go:37). -/
def cutNul : Str → Option (Str × Str)
  | [] => none
  | b :: r => if b = 0 then some ([], r) else (cutNul r).map (fun p => (b :: p.1, p.2))

/-- (bson `readBytes`; sessions/provider_mgo.go:37) -/
def takeN (n : Nat) (s : Str) : Option (Str × Str) := if s.length < n then none else some (s.take n, s.drop n)

/-- (bson `readStr`; sessions/provider_mgo.go:37) -/
def readStr (s : Str) : Option (Str × Str) :=
  match readInt 4 s with
  | none => none
  | some (n, r) =>
    if n < 1 then none
    else
      match takeN n.toNat r with
      | none => none
      | some (b, r2) => if b.getLast? = some 0 then some (b.dropLast, r2) else none

/-- (bson `readBool`; sessions/provider_mgo.go:37) -/
def readBool : Str → Option (GV × Str)
  | [] => none
  | b :: r => if b = 1 then some (.bool true, r) else if b = 0 then some (.bool false, r) else none

/-- (bson `readBinary`; sessions/provider_mgo.go:37): of the generic subtype; the others do not occur. -/
def readBinary (s : Str) : Option (GV × Str) :=
  match readInt 4 s with
  | none => none
  | some (len, r) =>
    if len < 0 then none
    else
      match r with
      | [] => none
      | k :: r => if k = 0 then (takeN len.toNat r).map (fun p => (.bytes p.1, p.2)) else none

/-- `time.Unix(sec, nsec)` for nanoseconds between -10^9 and 10^9 (bson `readElemTo`; sessions/provider_mgo.go:37). -/
def timeUnix (sec nsec : Int) : GV := if nsec < 0 then .time (sec - 1) (nsec + 1000000000).toNat else .time sec nsec.toNat

/-- Milliseconds as a time; those of the zero time are the zero time (bson `readElemTo`; sessions/provider_mgo.go:37). -/
def readTime (i : Int) : GV :=
  if i = -62135596800000 then .time (-62135596800) 0 else timeUnix (i.tdiv 1000) (i.tmod 1000 * 1000000)

mutual
/-- A value of the given type, for a variable of type `interface{}`, and the rest: 32-bit numbers become `int`, 64-bit numbers `int64`,
arrays `[]interface{}`, documents `map[string]interface{}` (bson `readElemTo`; sessions/provider_mgo.go:37). The first argument bounds
the depth and length; the length of the input suffices. -/
def decVal : Nat → UInt8 → Str → Option (GV × Str)
  | 0, _, _ => none
  | n + 1, t, s =>
    if t = 0x0A then some (.nil, s)
    else if t = 0x08 then readBool s
    else if t = 0x10 then (readInt 4 s).map (fun p => (.int .int p.1, p.2))
    else if t = 0x12 then (readInt 8 s).map (fun p => (.int .int64 p.1, p.2))
    else if t = 0x01 then (takeN 8 s).map (fun p => (.float (UInt64.ofNat (leVal p.1)), p.2))
    else if t = 0x02 then (readStr s).map (fun p => (.str p.1, p.2))
    else if t = 0x05 then readBinary s
    else if t = 0x04 then (decDoc n s).map (fun p => (.list (p.1.map Prod.snd), p.2))
    else if t = 0x03 then (decDoc n s).map (fun p => (.doc (p.1.map Prod.fst) (p.1.map Prod.snd), p.2))
    else if t = 0x09 then (readInt 8 s).map (fun p => (readTime p.1, p.2))
    else none
/-- A document: it must end exactly where its length says (bson `readDocTo`; sessions/provider_mgo.go:37). -/
def decDoc : Nat → Str → Option (List (Str × GV) × Str)
  | 0, _ => none
  | n + 1, s =>
    match readInt 4 s with
    | none => none
    | some (len, _) =>
      if len < 5 ∨ (s.length : Int) < len then none
      else
        match decElems n ((s.take len.toNat).drop 4) with
        | none => none
        | some (es, r) => if r = [] then some (es, s.drop len.toNat) else none
/-- The elements of a document, up to the zero byte (bson `readDocTo`; sessions/provider_mgo.go:37). -/
def decElems : Nat → Str → Option (List (Str × GV) × Str)
  | 0, _ => none
  | _ + 1, [] => none
  | n + 1, t :: r =>
    if t = 0 then some ([], r)
    else
      match cutNul r with
      | none => none
      | some (name, r1) =>
        match decVal n t r1 with
        | none => none
        | some (v, r2) =>
          match decElems n r2 with
          | none => none
          | some (es, r3) => some ((name, v) :: es, r3)
end

/-- The elements of a document as a map: a later element replaces an earlier one of the same name (sessions/provider_mgo.go:36-38). -/
def toMap : Option (List (Str × GV) × Str) → Option (Str → Option GV)
  | none => none
  | some (es, r) =>
    if r = [] then some (fun k => (es.reverse.find? (fun e => decide (e.1 = k))).map Prod.snd) else none

/-- sessions/provider_mgo.go:36-38 `Unmarshal` into a `map[string]interface{}`. -/
def unmarshal (s : Str) : Option (Str → Option GV) := toMap (decDoc (s.length + 1) s)

/-! ## As the converter of the session model -/

/-- The keys of a map, in the order in which `MapKeys` yields them (sessions/provider_mgo.go:33): `order` gives some order for every
map (a map has finitely many keys). -/
structure Order where
  keys : (Str → Option GV) → List Str
  listed : ∀ vs, (∃ l : List Str, ∀ k, vs k ≠ none → k ∈ l) → (keys vs).Nodup ∧ ∀ k, k ∈ keys vs ↔ vs k ≠ none

/-- sessions/provider_mgo.go:30-38 `bsonConverter` -/
def conv (o : Order) : Sess.Conv GV where
  marshal vs := marshal (o.keys vs) ((o.keys vs).filterMap vs)
  unmarshal := unmarshal

/-- What `Get` wraps (sessions/provider.go:72-77; utils/converter_value_to.go:10-12), as the methods of `Value` see it; the texts of
floats and times are not modelled. -/
def GV.src : GV → Option Src
  | .nil => some (.plain .nil)
  | .bool b => some (.plain (.bool b))
  | .int k i => some (.plain (.int k i))
  | .str s => some (.plain (.str s))
  | .bytes s => some (.plain (.bytes s))
  | .strings l => some (.strings l)
  | .float _ => none
  | .time _ _ => none
  | .list _ | .doc _ _ | .bad => some (.plain .other)

end Verif.Bson
