import Verif.Model.FloatText
/-! How encoding/json writes floats (`floatEncoder`), as utils/apires/res.go:49-79 uses it. -/
namespace Verif.Json
open Verif.Go

/-- The digits of a number, a point behind the first one if there are more (strconv's `fmtE`; utils/apires/res.go:58). -/
def sciDigits (n : Nat) : Str :=
  match natDec n with
  | [] => []
  | d :: ds => if ds = [] then [d] else d :: 46 :: ds

/-- The exponent, at least two digits (strconv's `fmtE`; utils/apires/res.go:58). -/
def sciExp (x : Int) : Str :=
  (if x < 0 then 45 else 43) :: (if x.natAbs < 10 then 48 :: natDec x.natAbs else natDec x.natAbs)

/-- `n * 10^x` in scientific notation (`FormatFloat(v, 'e', -1, bits)` without the sign; utils/apires/res.go:58). -/
def sci (n : Nat) (x : Int) : Str := sciDigits n ++ 101 :: sciExp (x + (natDec n).length - 1)

/-- encoding/json `floatEncoder`: "clean up e-09 to e-9" (utils/apires/res.go:58). -/
def cleanExp (t : Str) : Str :=
  match t.reverse with
  | d :: 48 :: 45 :: 101 :: r => (d :: 45 :: 101 :: r).reverse
  | _ => t

/-- encoding/json `floatEncoder`: scientific notation below `1e-6` and from `1e21` on, in the format of the value; the numbers are the
bits of these floats (utils/apires/res.go:58). -/
def sciRange (bits b : Nat) : Bool :=
  b != 0 && (if bits = 32 then decide (b < 0x358637bd) || decide (0x6258d727 ≤ b)
    else decide (b < 0x3eb0c6f7a0b5ed8d) || decide (0x444b1ae4d6e2ef50 ≤ b))

/-- encoding/json `floatEncoder`; `none`: an error, for infinities and NaN (utils/apires/res.go:58). -/
def jsonFloat (bits : Nat) : Flt.F → Option Str
  | .nan => none
  | .num neg b =>
    if b < (Flt.fmtOf bits).inf then
      some (if sciRange bits b then
          cleanExp (Flt.minus neg ++ sci (Flt.shortest (Flt.fmtOf bits) b).2 (Flt.shortest (Flt.fmtOf bits) b).1)
        else Flt.toStrF (Flt.fmtOf bits) (.num neg b))
    else none

end Verif.Json
