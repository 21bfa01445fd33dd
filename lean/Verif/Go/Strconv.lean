import Verif.Go.Bytes
/-!
# Go's `strconv` (decimal), fixed-width integers

Models of standard-library functions (trusted base, see DESIGN.md), Go 1.13 semantics.
-/
namespace Verif.Go

/-- The byte of a decimal digit (`n < 10`). -/
def digit (n : Nat) : UInt8 := UInt8.ofNat (48 + n)

def natDecF : Nat → Nat → Str
  | 0, n => [digit (n % 10)]
  | f + 1, n => if n < 10 then [digit n] else natDecF f (n / 10) ++ [digit (n % 10)]

/-- `strconv.FormatUint(n, 10)`; also `(*big.Int).String()` for a natural number. -/
def natDec (n : Nat) : Str := natDecF n n

/-- `strconv.FormatInt(i, 10)`; also `(*big.Int).String()`. -/
def fmtInt : Int → Str
  | .ofNat n => natDec n
  | .negSucc n => 45 :: natDec (n + 1)

/-- The two kinds of `*strconv.NumError`. -/
inductive NumErr where
  | syn
  | rng
deriving DecidableEq, Repr

/-- Value of a decimal digit byte. -/
def digitVal? (c : UInt8) : Option Nat :=
  if 48 ≤ c ∧ c ≤ 57 then some (c.toNat - 48) else none

/-- The digit loop of `strconv.ParseUint(_, 10, bits)` with `max = 2^bits - 1`: it stops at the first
bad byte (value 0, syntax error) or at the first overflow (value `max`, range error) — whichever
comes first. -/
def parseUintLoop (max : Nat) : Nat → Str → Nat × Option NumErr
  | acc, [] => (acc, none)
  | acc, c :: cs =>
    match digitVal? c with
    | none => (0, some .syn)
    | some d => if acc * 10 + d > max then (max, some .rng) else parseUintLoop max (acc * 10 + d) cs

/-- `strconv.ParseUint(s, 10, bits)`. -/
def parseUint (bits : Nat) (s : Str) : Nat × Option NumErr :=
  if s = [] then (0, some .syn) else parseUintLoop (2 ^ bits - 1) 0 s

/-- The signed range check at the end of `strconv.ParseInt` (it clamps and reports a range error). -/
def signRange (bits : Nat) (neg : Bool) : Nat × Option NumErr → Int × Option NumErr
  | (_, some .syn) => (0, some .syn)
  | (un, _) =>
    if neg = false ∧ un ≥ 2 ^ (bits - 1) then ((2 ^ (bits - 1) : Nat) - 1, some .rng)
    else if neg = true ∧ un > 2 ^ (bits - 1) then (-(2 ^ (bits - 1) : Nat), some .rng)
    else (if neg = true then -(un : Int) else un, none)

/-- `strconv.ParseInt(s, 10, bits)` (`bits ≥ 1`): optional sign, then `ParseUint`, then the signed
range check. -/
def parseInt (bits : Nat) (s : Str) : Int × Option NumErr :=
  signRange bits (s.head? == some 45)
    (parseUint bits (if s.head? = some 43 ∨ s.head? = some 45 then s.drop 1 else s))

/-- Two's-complement wrap-around of an integer to a signed type of the given width
(Go's conversion to `int8`, …, `int64`, and overflow of arithmetic). -/
def wrapS (bits : Nat) (i : Int) : Int :=
  (i + 2 ^ (bits - 1)) % 2 ^ bits - 2 ^ (bits - 1)

/-- Wrap-around to an unsigned type of the given width. -/
def wrapU (bits : Nat) (i : Int) : Int := i % 2 ^ bits

end Verif.Go
