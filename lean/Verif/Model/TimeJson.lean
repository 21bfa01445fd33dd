import Verif.Model.TimeParam
/-!
# Times in the JSON of answers: utils/apires/res.go:49-79 with `time.Time.MarshalJSON`

`encoding/json` writes a `time.Time` through its method `MarshalJSON` (layout `2006-01-02T15:04:05.999999999Z07:00`); standard library: trusted
base. From Go 1.20 on offsets of 24 hours and more are an error too.
-/
namespace Verif.Params
open Verif.Go

/-- `time.appendInt(n, w)` for numbers of at most `w` digits (utils/apires/res.go:57). -/
def padded : Nat → Nat → Str
  | 0, _ => []
  | w + 1, n => padded w (n / 10) ++ [digit (n % 10)]

/-- `time.formatNano` with `.999999999`: no zeros at the end, and nothing for a whole second (utils/apires/res.go:57). -/
def fractionText (nsec : Nat) : Str :=
  if nsec = 0 then [] else 46 :: ((padded 9 nsec).reverse.dropWhile (· = 48)).reverse

/-- `time.AppendFormat`, the chunk `Z07:00`: the offset in whole minutes, cut towards zero (utils/apires/res.go:57). -/
def zoneText (off : Int) : Str :=
  if off = 0 then b!"Z"
  else (if off.tdiv 60 < 0 then 45 else 43) :: (padded 2 ((off.tdiv 60).natAbs / 60) ++ 58 :: padded 2 ((off.tdiv 60).natAbs % 60))

/-- The text of a time with this calendar date, clock and offset from UTC (utils/apires/res.go:57). -/
def rfc3339 (year month day hour min sec nsec : Nat) (off : Int) : Str :=
  padded 4 year ++ 45 :: (padded 2 month ++ 45 :: (padded 2 day ++ 84 :: (padded 2 hour ++ 58 :: (padded 2 min ++ 58 :: (padded 2 sec ++
    (fractionText nsec ++ zoneText off))))))

/-- `Time.MarshalJSON`; `none` is the error, for years of more than four digits (utils/apires/res.go:57). -/
def timeJson (year month day hour min sec nsec : Nat) (off : Int) : Option Str :=
  if 10000 ≤ year then none else some (34 :: (rfc3339 year month day hour min sec nsec off ++ [34]))

end Verif.Params
