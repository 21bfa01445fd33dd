import Verif.Go.Bytes
/-!
# Go's `unicode/utf8`

Models of the standard library (trusted base): the encoding of a code point, and the length of the encoding `utf8.DecodeRuneInString`
finds at the front of a string.
-/
namespace Verif.Go

/-- A Unicode scalar value: a code point that is not a surrogate. -/
def Scalar (n : Nat) : Prop := n < 0xD800 ∨ (0xE000 ≤ n ∧ n < 0x110000)

/-- The UTF-8 encoding of a code point (RFC 3629, section 3). -/
def utf8 (n : Nat) : Str :=
  if n < 0x80 then [UInt8.ofNat n]
  else if n < 0x800 then [UInt8.ofNat (0xC0 + n / 64), UInt8.ofNat (0x80 + n % 64)]
  else if n < 0x10000 then [UInt8.ofNat (0xE0 + n / 4096), UInt8.ofNat (0x80 + n / 64 % 64), UInt8.ofNat (0x80 + n % 64)]
  else [UInt8.ofNat (0xF0 + n / 262144), UInt8.ofNat (0x80 + n / 4096 % 64), UInt8.ofNat (0x80 + n / 64 % 64),
    UInt8.ofNat (0x80 + n % 64)]

/-- Is the next byte there, and between `lo` and `hi`? -/
def nextIn (lo hi : Nat) : Str → Bool
  | [] => false
  | c :: _ => lo ≤ c.toNat && c.toNat ≤ hi

/-- `utf8.DecodeRuneInString(s)`: the length of the encoding at the front of `s`, 0 if there is none (then Go returns `RuneError, 1`). -/
def runeLen : Str → Nat
  | [] => 0
  | c :: s =>
    if c.toNat < 0x80 then 1
    else if c.toNat < 0xC2 then 0
    else if c.toNat < 0xE0 then (if nextIn 0x80 0xBF s then 2 else 0)
    else if c.toNat < 0xF0 then
      (if nextIn (if c.toNat = 0xE0 then 0xA0 else 0x80) (if c.toNat = 0xED then 0x9F else 0xBF) s && nextIn 0x80 0xBF (s.drop 1)
        then 3 else 0)
    else if c.toNat < 0xF5 then
      (if nextIn (if c.toNat = 0xF0 then 0x90 else 0x80) (if c.toNat = 0xF4 then 0x8F else 0xBF) s && nextIn 0x80 0xBF (s.drop 1) &&
        nextIn 0x80 0xBF (s.drop 2) then 4 else 0)
    else 0

end Verif.Go
