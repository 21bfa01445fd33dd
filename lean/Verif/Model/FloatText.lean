import Verif.Model.Float
import Verif.Model.ValueConv
/-!
# Floats as texts: utils/converter.go:165-168, utils/converter_value_to.go:24-37, 39-117

`ToStr` prints a float with `strconv.FormatFloat(v, 'f', -1, bits)`: the shortest decimal number that rounds to the float, of two equally
short ones the nearer; or, with a precision, with that many decimals. That the algorithms of `strconv` compute this is trusted base.
Negative precisions other than -1 and a width given as a second argument are not modelled.
-/
namespace Verif.Flt
open Verif.Go Verif.ReqLog

/-- `n * 10^x` rounds to the float with bits `b` (strconv's `roundShortest`; utils/converter.go:166, 168). -/
def hits (f : Fmt) (b : Nat) (x : Int) (n : Nat) : Bool := roundUnits f (n * 10 ^ x.toNat * 2 ^ f.e) (10 ^ (-x).toNat) == b

/-- The float in multiples of `10^x`, numerator (utils/converter.go:166, 168). -/
def gridP (f : Fmt) (b : Nat) (x : Int) : Nat := units f b * 10 ^ (-x).toNat

/-- The denominator (utils/converter.go:166, 168). -/
def gridQ (f : Fmt) (x : Int) : Nat := 2 ^ f.e * 10 ^ x.toNat

/-- The multiple of `10^x` to print, if one next to the float rounds to it (strconv's `roundShortest`; utils/converter.go:166, 168). -/
def pick (f : Fmt) (b : Nat) (x : Int) : Option Nat :=
  if hits f b x (gridP f b x / gridQ f x) = true ∧ hits f b x (gridP f b x / gridQ f x + 1) = true then some (rne (gridP f b x) (gridQ f x))
  else if hits f b x (gridP f b x / gridQ f x) = true then some (gridP f b x / gridQ f x)
  else if hits f b x (gridP f b x / gridQ f x + 1) = true then some (gridP f b x / gridQ f x + 1)
  else none

/-- The shortest decimal number that rounds to the float: `n * 10^x` with the largest `x`; the search begins above the largest `float64`
and ends where every float is exact (strconv's `roundShortest`; utils/converter.go:166, 168). -/
def shortest (f : Fmt) (b : Nat) : Int × Nat :=
  ((List.range 1400).findSome? (fun i : Nat => (pick f b (310 - (i : Int))).map (fun n => ((310 - (i : Int) : Int), n)))).getD (0, 0)

/-- The last `k` digits of a number (strconv's `fmtF`; utils/converter.go:166, 168). -/
def lastDigits : Nat → Nat → Str
  | 0, _ => []
  | k + 1, m => lastDigits k (m / 10) ++ [Go.digit (m % 10)]

/-- `n / 10^k` with `k` decimals; no point when `k = 0` (strconv's `fmtF`; utils/converter.go:166, 168). -/
def withDecimals (n k : Nat) : Str := if k = 0 then natDec n else natDec (n / 10 ^ k) ++ (46 :: lastDigits k n)

/-- A minus sign (strconv's `fmtF`; utils/converter.go:166, 168). -/
def minus (neg : Bool) : Str := if neg then [45] else []

/-- `FormatFloat(v, 'f', -1, bits)` (utils/converter.go:166, 168). -/
def toStrF (f : Fmt) : F → Str
  | .nan => b!"NaN"
  | .num neg b =>
    if b < f.inf then minus neg ++ withDecimals ((shortest f b).2 * 10 ^ (shortest f b).1.toNat) (-(shortest f b).1).toNat
    else if neg then b!"-Inf" else b!"+Inf"

/-- `FormatFloat(v, 'f', prec, bits)`, `prec ≥ 0`: rounded to the nearest, ties to even (utils/converter.go:166, 168). -/
def toStrPrec (f : Fmt) (prec : Nat) : F → Str
  | .nan => b!"NaN"
  | .num neg b =>
    if b < f.inf then minus neg ++ withDecimals (rne (units f b * 10 ^ prec) (2 ^ f.e)) prec
    else if neg then b!"-Inf" else b!"+Inf"

/-- A number given to `ValueTo`: a float of 32 or 64 bits, or an integer (utils/converter_value_to.go:10-12). -/
inductive Num where
  | float (bits : Nat) (v : F)
  | int (k : Conv.IntKind) (i : Int)

/-- utils/converter_value_to.go:119-127 `String`. -/
def Num.string : Num → Str
  | .float bits v => toStrF (fmtOf bits) v
  | .int _ i => fmtInt i

/-- utils/converter_value_to.go:24-37 `Float32`, `Float64`: a value of the type itself, or its text read. -/
def Num.toFloat (g : Exotic) (bits : Nat) : Num → F × Option Err
  | .float b v => if b = bits then (v, none) else parseFloat g (fmtOf bits) (toStrF (fmtOf b) v)
  | .int _ i => parseFloat g (fmtOf bits) (fmtInt i)

/-- utils/converter_value_to.go:39-117 `Int`, …, `Uint64` of a float: its text read. -/
def floatToInt (k : Conv.IntKind) (bits : Nat) (v : F) : Int × Option NumErr := Conv.valueTo.go k (toStrF (fmtOf bits) v)

end Verif.Flt
