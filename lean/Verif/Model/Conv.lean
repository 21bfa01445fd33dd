import Verif.Go.Strconv
/-!
# String/number converters: app_util.go, utils/converter.go, utils/converter_value_to.go

Integer kinds on a 64-bit platform. Floats are not modelled here.
-/
namespace Verif.Conv
open Verif.Go

/-- The integer kinds the converters know (app_util.go:47-135, utils/converter.go:30-78). -/
inductive IntKind where
  | int | int8 | int16 | int32 | int64 | uint | uint8 | uint16 | uint32 | uint64
deriving DecidableEq, Repr

/-- Width of the Go type (64-bit platform) (app_util.go:47-135). -/
def IntKind.width : IntKind → Nat
  | .int => 64 | .int8 => 8 | .int16 => 16 | .int32 => 32 | .int64 => 64
  | .uint => 64 | .uint8 => 8 | .uint16 => 16 | .uint32 => 32 | .uint64 => 64

/-- Is the Go type signed? (app_util.go:47-135). -/
def IntKind.signed : IntKind → Bool
  | .int | .int8 | .int16 | .int32 | .int64 => true
  | _ => false

/-- Go's conversion `T(v)` to an integer type (app_util.go:53, 62, 71, 80, 89, 98, 107, 116, 125, 134). -/
def IntKind.conv (k : IntKind) (i : Int) : Int := if k.signed then wrapS k.width i else wrapU k.width i

/-- app_util.go:47-135: `if err != nil { return 0, err }; return T(v), nil`. -/
def zeroOnErr (k : IntKind) (r : Int × Option NumErr) : Int × Option NumErr :=
  match r.2 with
  | some e => (0, some e)
  | none => (k.conv r.1, none)

/-- `strconv.ParseUint` with its result as an integer (app_util.go:94, 103, 112, 121, 130). -/
def parseUintI (bits : Nat) (s : Str) : Int × Option NumErr := ((parseUint bits s).1, (parseUint bits s).2)

/-- app_util.go:47-135: the integer methods of the root package's `StrTo`. -/
def rootStrTo : IntKind → Str → Int × Option NumErr
  | .int, s => zeroOnErr .int (parseInt 64 s)
  | .int8, s => zeroOnErr .int8 (parseInt 8 s)
  | .int16, s => zeroOnErr .int16 (parseInt 16 s)
  | .int32, s => zeroOnErr .int32 (parseInt 32 s)
  | .int64, s => zeroOnErr .int64 (parseInt 64 s)
  | .uint, s => zeroOnErr .uint (parseUintI 32 s)
  | .uint8, s => zeroOnErr .uint8 (parseUintI 8 s)
  | .uint16, s => zeroOnErr .uint16 (parseUintI 16 s)
  | .uint32, s => zeroOnErr .uint32 (parseUintI 32 s)
  | .uint64, s => zeroOnErr .uint64 (parseUintI 64 s)

/-- `return T(v), err` (utils/converter.go:32, 37, 42, 47, 52, 57, 62, 67, 72, 77). -/
def convBoth (k : IntKind) (r : Int × Option NumErr) : Int × Option NumErr := (k.conv r.1, r.2)

/-- utils/converter.go:30-78: the integer methods of `utils.StrTo`. -/
def utilsStrTo : IntKind → Str → Int × Option NumErr
  | .int, s => convBoth .int (parseInt 64 s)
  | .int8, s => convBoth .int8 (parseInt 8 s)
  | .int16, s => convBoth .int16 (parseInt 16 s)
  | .int32, s => convBoth .int32 (parseInt 32 s)
  | .int64, s => convBoth .int64 (parseInt 64 s)
  | .uint, s => convBoth .uint (parseUintI 64 s)
  | .uint8, s => convBoth .uint8 (parseUintI 8 s)
  | .uint16, s => convBoth .uint16 (parseUintI 16 s)
  | .uint32, s => convBoth .uint32 (parseUintI 32 s)
  | .uint64, s => convBoth .uint64 (parseUintI 64 s)

/-- utils/converter.go:95-143: the `Must…` methods drop the error. -/
def utilsMust (k : IntKind) (s : Str) : Int := (utilsStrTo k s).1

/-- The dynamic values given to `ValueTo`/`ToStr`/`ToInt64` that are modelled: integers of a kind, strings,
booleans, byte slices, nil and anything else (utils/converter_value_to.go:10-12). -/
inductive Any where
  | int (k : IntKind) (i : Int)
  | str (s : Str)
  | bool (b : Bool)
  | bytes (s : Str)
  | nil
  | other
deriving DecidableEq, Repr

/-- utils/converter.go:160-184 `ToStr` without extra arguments. In the last case the code prints the
shadowed `v`, a nil `[]byte` (185). -/
def toStr : Any → Str
  | .int _ i => fmtInt i
  | .str s => s
  | .bool b => if b then b!"true" else b!"false"
  | .bytes s => s
  | .nil | .other => b!"[]byte(nil)"

/-- utils/converter.go:187-198 `ToInt64`; the flag is whether there is no error. -/
def toInt64 : Any → Int × Bool
  | .int k i => if k.signed then (i, true) else (wrapS 64 i, true)
  | _ => (0, false)

/-- utils/converter_value_to.go:119-127 `Value.String`. -/
def valueString : Any → Str
  | .str s => s
  | .nil => []
  | v => toStr v

/-- utils/converter_value_to.go:39-117: the integer methods of `Value` (for a value of the very kind it is
returned as it is; otherwise its string is parsed). `Uint` parses 32 bits (90). -/
def valueTo (k : IntKind) (v : Any) : Int × Option NumErr :=
  match v with
  | .int k' i => if k' = k then (i, none) else go (valueString (.int k' i))
  | v => go (valueString v)
where
  go (s : Str) : Int × Option NumErr :=
    match k with
    | .int => convBoth .int (parseInt 64 s)
    | .int8 => convBoth .int8 (parseInt 8 s)
    | .int16 => convBoth .int16 (parseInt 16 s)
    | .int32 => convBoth .int32 (parseInt 32 s)
    | .int64 => convBoth .int64 (parseInt 64 s)
    | .uint => convBoth .uint (parseUintI 32 s)
    | .uint8 => convBoth .uint8 (parseUintI 8 s)
    | .uint16 => convBoth .uint16 (parseUintI 16 s)
    | .uint32 => convBoth .uint32 (parseUintI 32 s)
    | .uint64 => convBoth .uint64 (parseUintI 64 s)

/-- `strconv.ParseBool` (standard library): the value and whether it parsed (app_util.go:26, utils/converter.go:18). -/
def parseBool (s : Str) : Bool × Bool :=
  if s = b!"1" ∨ s = b!"t" ∨ s = b!"T" ∨ s = b!"true" ∨ s = b!"TRUE" ∨ s = b!"True" then (true, true)
  else if s = b!"0" ∨ s = b!"f" ∨ s = b!"F" ∨ s = b!"false" ∨ s = b!"FALSE" ∨ s = b!"False" then (false, true)
  else (false, false)

/-- app_util.go:21-27, utils/converter.go:14-19: `StrTo.Bool`. -/
def strToBool (s : Str) : Bool × Bool := if s = b!"on" then (true, true) else parseBool s

/-- app_util.go:138-148 `StrTo.Strings` for a one-byte delimiter (`,` when none is given): parts are trimmed,
empty parts are kept. -/
def strToStrings (s : Str) (delim : UInt8) : List Str := (splitOn1 delim s).map trimSpace

end Verif.Conv
