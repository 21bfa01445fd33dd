import Verif.Model.ReqTime
import Verif.Model.Binder
import Verif.Model.ConfigBind
/-!
# Floating-point parameters and settings: params/binder.go:93-106, app_util.go:30-45, 197-208, utils/converter.go:21-28

A float that is not NaN is a sign and the remaining bits of its IEEE 754 representation, read as a number; the value of the bits is a whole
number of units, the unit being the least positive float of the format. `strconv.ParseFloat` is modelled exactly for decimal numbers,
infinities and NaN: that its three algorithms all give the correctly rounded result is trusted base (it is what `strconv` documents).
Texts with `x` or `_` (hexadecimal numbers, separated digits) are left to a parameter.
-/
namespace Verif.Flt
open Verif.Go Verif.ReqLog

/-- A binary format: bits of the mantissa, the exponent field of infinity, and `e` where the unit is `2^-e`
(`float64` and `float32`, params/binder.go:98, 103; utils/converter.go:22, 27). -/
structure Fmt where
  mb : Nat
  top : Nat
  e : Nat

/-- `float64` (params/binder.go:98). -/
def f64 : Fmt := ⟨52, 2047, 1074⟩

/-- `float32` (utils/converter.go:22). -/
def f32 : Fmt := ⟨23, 255, 149⟩

/-- The bits of positive infinity (params/binder.go:98). -/
def Fmt.inf (f : Fmt) : Nat := f.top * 2 ^ f.mb

/-- The value of the bits `b`, in units of the format (params/binder.go:98). -/
def units (f : Fmt) (b : Nat) : Nat := if b < 2 ^ f.mb then b else (2 ^ f.mb + b % 2 ^ f.mb) * 2 ^ (b / 2 ^ f.mb - 1)

/-- The exponent of a value of `p / q` units: how many low bits do not fit into the mantissa (params/binder.go:98). -/
def shift (f : Fmt) (p q : Nat) : Nat := (p / q).log2 - f.mb

/-- The bits of `p / q` units rounded to the nearest, ties to even, as if the exponent had no end (params/binder.go:98). -/
def roundUnits (f : Fmt) (p q : Nat) : Nat := shift f p q * 2 ^ f.mb + rne p (q * 2 ^ shift f p q)

/-- A float (params/binder.go:98). -/
inductive F where
  | nan
  | num (neg : Bool) (mag : Nat)
deriving DecidableEq, Repr

/-- What `ParseFloat` complains about (params/binder.go:99). -/
inductive Err where
  | syntax
  | range
deriving DecidableEq, Repr

/-- The value `p / q` as a float, and whether it is too large (strconv's `floatBits`; params/binder.go:98). -/
def roundF (f : Fmt) (neg : Bool) (p q : Nat) : F × Option Err :=
  if roundUnits f (p * 2 ^ f.e) q < f.inf then (.num neg (roundUnits f (p * 2 ^ f.e) q), none) else (.num neg f.inf, some .range)

/-- A byte is a decimal digit (strconv's `readFloat`; params/binder.go:98). -/
def digit (c : UInt8) : Bool := decide (48 ≤ c.toNat ∧ c.toNat ≤ 57)

/-- The mantissa: digits with at most one point. `dot`: digits seen after the point (strconv's `readFloat`; params/binder.go:98). -/
def mantissa : Str → Nat → Bool → Option Nat → Nat × Bool × Nat × Str
  | [], n, seen, dot => (n, seen, dot.getD 0, [])
  | c :: s, n, seen, dot =>
    if c = 46 ∧ dot = none then mantissa s n seen (some 0)
    else if digit c = true then mantissa s (10 * n + (c.toNat - 48)) true (dot.map (· + 1))
    else (n, seen, dot.getD 0, c :: s)

/-- The digits of the exponent; more are dropped once it has reached 10000 (strconv's `readFloat`; params/binder.go:98). -/
def expDigits (s : Str) : Option Nat :=
  if s ≠ [] ∧ s.all digit = true then
    some (s.foldl (fun e c => if e < 10000 then 10 * e + (c.toNat - 48) else e) 0)
  else none

/-- The exponent after `e` (strconv's `readFloat`; params/binder.go:98). -/
def expSigned : Str → Option Int
  | 43 :: s => (expDigits s).map Int.ofNat
  | 45 :: s => (expDigits s).map (fun n => -Int.ofNat n)
  | s => (expDigits s).map Int.ofNat

/-- The exponent, if there is one, to the end of the text (strconv's `readFloat`; params/binder.go:98). -/
def exponent : Str → Option Int
  | [] => some 0
  | c :: s => if c = 101 ∨ c = 69 then expSigned s else none

/-- A decimal number without its sign: `mantissa * 10^(exponent - digits after the point)`, as numerator and denominator
(strconv's `readFloat`; params/binder.go:98). -/
def decimal (s : Str) : Option (Nat × Nat) :=
  match mantissa s 0 false none with
  | (n, true, d, rest) => (exponent rest).map (fun x => (n * 10 ^ x.toNat, 10 ^ d * 10 ^ (-x).toNat))
  | _ => none

/-- An optional sign (strconv's `readFloat`, `special`; params/binder.go:98). -/
def signed : Str → Bool × Str
  | 43 :: s => (false, s)
  | 45 :: s => (true, s)
  | s => (false, s)

/-- `inf`, `infinity` with a sign or none, `nan` without, in any case (strconv's `special`; params/binder.go:98). -/
def special (f : Fmt) (s : Str) : Option F :=
  if toLower (signed s).2 = b!"inf" ∨ toLower (signed s).2 = b!"infinity" then some (.num (signed s).1 f.inf)
  else if toLower s = b!"nan" then some .nan
  else none

/-- Texts left to the parameter: hexadecimal numbers and digits separated by underscores (strconv's `readFloat`; params/binder.go:98). -/
def exotic (s : Str) : Bool := s.any (fun c => c = 95 ∨ c = 120 ∨ c = 88)

/-- What `ParseFloat` does with an exotic text (params/binder.go:98). -/
abbrev Exotic := Fmt → Str → F × Option Err

/-- `strconv.ParseFloat(s, bits)` (params/binder.go:98; utils/converter.go:22, 27). -/
def parseFloat (g : Exotic) (f : Fmt) (s : Str) : F × Option Err :=
  if exotic s = true then g f s
  else match special f s with
    | some v => (v, none)
    | none =>
      match decimal (signed s).2 with
      | some (p, q) => roundF f (signed s).1 p q
      | none => (.num false 0, some .syntax)

/-- `float32(v)` of a `float64` that is not NaN: rounded again, too large becomes infinite (`reflect.Value.SetFloat`, params/binder.go:103). -/
def narrowMag (b : Nat) : Nat :=
  if b < f64.inf then min (roundUnits f32 (units f64 b * 2 ^ f32.e) (2 ^ f64.e)) f32.inf else f32.inf

/-- `float32(v)` (`reflect.Value.SetFloat`, params/binder.go:103). -/
def narrow : F → F
  | .nan => .nan
  | .num neg b => .num neg (narrowMag b)

/-- `SetFloat` into a field of 32 or 64 bits (params/binder.go:103). -/
def setFloat (bits : Nat) (v : F) : F := if bits = 32 then narrow v else v

/-- `FloatBinder` on a text (params/binder.go:93-106). -/
def bindFloat (g : Exotic) (bits : Nat) (s : Str) : F :=
  if s = [] then .num false 0
  else match parseFloat g f64 s with
    | (v, none) => setFloat bits v
    | (_, some _) => .num false 0

/-- The bits of a float, as a number; NaN is the one `math.NaN()` gives (params/binder.go:103). -/
def code (bits : Nat) : F → Nat
  | .nan => if bits = 32 then 0x7fc00000 else 0x7ff8000000000001
  | .num neg m => (if neg then 2 ^ (if bits = 32 then 31 else 63) else 0) + m

/-- The binder of parameters with this `ParseFloat` (params/binder.go:93-106). -/
def withFloats (g : Exotic) (x : Params.Ext) : Params.Ext := { x with float := fun bits s => code bits (bindFloat g bits s) }

/-- The format of the bits (app_util.go:30-45; utils/converter.go:21-28). -/
def fmtOf (bits : Nat) : Fmt := if bits = 32 then f32 else f64

/-- `StrTo.Float32`, `StrTo.Float64` of the root package, as settings are read: 0 on an error (app_util.go:30-45, 205-208). -/
def settingFloat (g : Exotic) : Conf.FloatParser F := fun bits s =>
  match parseFloat g (fmtOf bits) s with
  | (v, none) => v
  | (_, some _) => .num false 0

/-- `StrTo.Float32`, `StrTo.Float64` of the package utils: with the error (utils/converter.go:21-28; `float32(v)` is exact here). -/
def utilsFloat (g : Exotic) (bits : Nat) (s : Str) : F × Option Err := parseFloat g (fmtOf bits) s

end Verif.Flt
