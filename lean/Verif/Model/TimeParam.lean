import Verif.Model.Binder
/-!
# Time parameters: params/binder.go:48-53, 60-62, 147-171, 203-205

The time binder with the formats the package registers. `time.Parse` and `time.ParseInLocation` are modelled for the chunks these formats
contain (Go 1.13 and later); a time is what the text says: its calendar date, its clock and its zone.
-/
namespace Verif.Params
open Verif.Go

/-- The zone of a time: the process's own (`time.Local`), or an offset from UTC in seconds (params/binder.go:154, 158). -/
inductive Zone where
  | local
  | offset (secs : Int)
deriving DecidableEq, Repr

/-- A bound time: the result of `time.Date` (within params/binder.go:154, 158) or of `time.Unix` (params/binder.go:164). -/
inductive TimeV where
  | date (year month day hour min sec nsec : Nat) (zone : Zone)
  | unix (secs : Int)
deriving DecidableEq, Repr

/-- The chunks of a layout (`time.nextStdChunk`, called through params/binder.go:154, 158): `2006`, `01`, `02`, `15`, `04`, `05`,
`Z07:00`. -/
inductive Chunk where
  | year | month | day | hour | minute | second | zone
deriving DecidableEq, Repr

/-- The chunk at the head of a layout, and what follows it. Chunks that do not occur in the formats of params/binder.go:49-51 and
RFC 3339 are not modelled (they are taken as text). -/
def chunkAt (s : Str) : Option (Chunk × Str) :=
  if s.take 4 = b!"2006" then some (.year, s.drop 4)
  else if s.take 2 = b!"01" then some (.month, s.drop 2)
  else if s.take 2 = b!"02" then some (.day, s.drop 2)
  else if s.take 2 = b!"15" then some (.hour, s.drop 2)
  else if s.take 2 = b!"04" then some (.minute, s.drop 2)
  else if s.take 2 = b!"05" then some (.second, s.drop 2)
  else if s.take 6 = b!"Z07:00" then some (.zone, s.drop 6)
  else none

/-- `time.nextStdChunk`: the text before the first chunk, the chunk and the rest (params/binder.go:154, 158). -/
def nextChunk : Str → Str × Option (Chunk × Str)
  | [] => ([], none)
  | c :: s =>
    match chunkAt (c :: s) with
    | some e => ([], some e)
    | none => (c :: (nextChunk s).1, (nextChunk s).2)

/-- `time.isDigit(s, 0)` (params/binder.go:154, 158). -/
def digit0 (s : Str) : Bool := match s with | [] => false | c :: _ => 48 ≤ c && c ≤ 57

/-- `time.skip`: the text of the layout against the value; a blank stands for any number of blanks (params/binder.go:154, 158). The number
bounds the length. -/
def skipText : Nat → Str → Str → Option Str
  | 0, _, _ => none
  | _ + 1, [], v => some v
  | n + 1, c :: p, v =>
    if c = 32 then
      (if v ≠ [] ∧ v.head? ≠ some 32 then none else skipText n (p.dropWhile (· = 32)) (v.dropWhile (· = 32)))
    else if v.head? = some c then skipText n p (v.drop 1)
    else none

/-- the value of a digit (`time.getnum`, `time.atoi`; params/binder.go:154, 158) -/
def dig (c : UInt8) : Nat := c.toNat - 48

/-- `time.getnum`: two digits, or one if `fixed` is false (params/binder.go:154, 158). -/
def getnum (fixed : Bool) (s : Str) : Option (Nat × Str) :=
  if digit0 s = false then none
  else if digit0 (s.drop 1) = false then (if fixed then none else some (dig (s.headD 0), s.drop 1))
  else some (dig (s.headD 0) * 10 + dig ((s.drop 1).headD 0), s.drop 2)

/-- What depends on the version of Go in reading a time (params/binder.go:154): the number in two bytes of a zone's hour and of its
minute, the nanoseconds of the digits of a fraction, and whether a comma may stand for its period (Go 1.17). -/
structure TimeExt where
  comma : Bool
  zoneHour : Str → Option Int
  zoneMin : Str → Option Int
  fraction : Str → Option Nat

/-- What was read so far (`time.parse`, params/binder.go:154, 158); `zone`: the offset, if there was one. -/
structure Clock where
  year : Nat := 0
  month : Nat := 1
  day : Nat := 1
  hour : Nat := 0
  min : Nat := 0
  sec : Nat := 0
  nsec : Nat := 0
  zone : Option Int := none

/-- `time.parse`, the chunk `2006`: four digits (params/binder.go:154, 158). -/
def readYear (v : Str) (k : Clock) : Option (Str × Clock) :=
  if v.length < 4 ∨ (v.take 4).all (fun c => 48 ≤ c && c ≤ 57) = false then none
  else some (v.drop 4, { k with year := (v.take 4).foldl (fun a c => a * 10 + dig c) 0 })

/-- The fraction of a second that a value may have although its layout has none: a period (or comma) and digits
(`time.parse`, params/binder.go:154, 158). -/
def readFraction (x : TimeExt) (v : Str) (k : Clock) : Option (Str × Clock) :=
  if (v.head? = some 46 ∨ (x.comma = true ∧ v.head? = some 44)) ∧ digit0 (v.drop 1) = true then
    (x.fraction ((v.drop 1).takeWhile fun c => 48 ≤ c && c ≤ 57)).map fun n =>
      ((v.drop 1).dropWhile (fun c => 48 ≤ c && c ≤ 57), { k with nsec := n })
  else some (v, k)

/-- `time.parse`, the chunk `Z07:00` (params/binder.go:154). -/
def readZone (x : TimeExt) (v : Str) (k : Clock) : Option (Str × Clock) :=
  if v.head? = some 90 then some (v.drop 1, { k with zone := some 0 })
  else if v.length < 6 ∨ (v.drop 3).head? ≠ some 58 then none
  else if v.head? ≠ some 43 ∧ v.head? ≠ some 45 then none
  else
    match x.zoneHour ((v.drop 1).take 2), x.zoneMin ((v.drop 4).take 2) with
    | some h, some m => some (v.drop 6, { k with zone := some (if v.head? = some 45 then -((h * 60 + m) * 60) else (h * 60 + m) * 60) })
    | _, _ => none

/-- `time.parse`: one chunk, with its range check (params/binder.go:154, 158). -/
def readChunk (x : TimeExt) (c : Chunk) (v : Str) (k : Clock) : Option (Str × Clock) :=
  match c with
  | .year => readYear v k
  | .month => (getnum true v).bind fun e => if e.1 = 0 ∨ 12 < e.1 then none else some (e.2, { k with month := e.1 })
  | .day => (getnum true v).bind fun e => some (e.2, { k with day := e.1 })
  | .hour => (getnum false v).bind fun e => if 24 ≤ e.1 then none else some (e.2, { k with hour := e.1 })
  | .minute => (getnum true v).bind fun e => if 60 ≤ e.1 then none else some (e.2, { k with min := e.1 })
  | .second => (getnum true v).bind fun e => if 60 ≤ e.1 then none else readFraction x e.2 { k with sec := e.1 }
  | .zone => readZone x v k

/-- the loop of `time.parse`; the number bounds the chunks (params/binder.go:154, 158). -/
def parseLoop (x : TimeExt) : Nat → Str → Str → Clock → Option Clock
  | 0, _, _, _ => none
  | n + 1, layout, v, k =>
    match skipText (layout.length + 1) (nextChunk layout).1 v, (nextChunk layout).2 with
    | some v, some (c, rest) => (readChunk x c v k).bind fun e => parseLoop x n rest e.1 e.2
    | some v, none => if v = [] then some k else none
    | none, _ => none

/-- `time.isLeap`, `time.daysIn` (params/binder.go:154, 158). -/
def daysIn (month year : Nat) : Nat :=
  if month = 2 ∧ year % 4 = 0 ∧ (year % 100 ≠ 0 ∨ year % 400 = 0) then 29
  else [31, 28, 31, 30, 31, 30, 31, 31, 30, 31, 30, 31].getD (month - 1) 0

/-- `strings.Contains` (params/binder.go:153). -/
def contains (sub : Str) : Str → Bool
  | [] => sub = []
  | c :: s => (c :: s).take sub.length = sub || contains sub s

/-- The zone of the result: what the text says; else UTC or the local zone, by the letters of the format (params/binder.go:153-158:
`time.Parse` or `time.ParseInLocation`). -/
def zoneOf (format : Str) : Option Int → Zone
  | some o => .offset o
  | none => if contains b!"07" format || contains b!"MST" format then .offset 0 else .local

/-- params/binder.go:153-160: one format; `none`: the value does not have it. -/
def parseTime (x : TimeExt) (format v : Str) : Option TimeV :=
  match parseLoop x (format.length + 1) format v {} with
  | none => none
  | some k =>
    if k.day < 1 ∨ daysIn k.month k.year < k.day then none
    else some (.date k.year k.month k.day k.hour k.min k.sec k.nsec
      (zoneOf format k.zone))

/-- params/binder.go:148-161: the first format the value has; empty ones are passed over. -/
def tryFormats (x : TimeExt) (v : Str) : List Str → Option TimeV
  | [] => none
  | f :: fs =>
    if f = [] then tryFormats x v fs
    else
      match parseTime x f v with
      | some t => some t
      | none => tryFormats x v fs

/-- params/binder.go:49-51, 205: the formats registered by the package. -/
def timeFormats : List Str := [b!"2006-01-02", b!"2006-01-02 15:0", b!"2006-01-02 15:04:05", b!"2006-01-02T15:04:05Z07:00"]

/-- params/binder.go:147-170 `TimeBinder`; `none`: the zero time. -/
def bindTime (x : TimeExt) (formats : List Str) (v : Str) : Option TimeV :=
  match tryFormats x v formats with
  | some t => some t
  | none =>
    match parseInt 64 v with
    | (n, none) => some (.unix n)
    | _ => none

end Verif.Params
