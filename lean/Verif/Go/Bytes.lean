/-!
# Go strings as byte lists

Go strings are immutable byte sequences.  Everything in this development that is a Go `string` or
`[]byte` is a `List UInt8`.  The definitions in this file model functions of Go's standard library
(`strings`, `bytes`), not of /repo; they are part of the trusted base listed in DESIGN.md.
-/

namespace Verif

/-- A Go `string` or `[]byte`: a finite sequence of bytes. -/
abbrev Str := List UInt8

/-- `b! "text"` is the byte list of the UTF-8 encoding of the literal. -/
syntax:max "b!" str : term

open Lean in
macro_rules
  | `(b! $s:str) => do
    let bs := s.getString.toUTF8.toList
    let ts := bs.map (fun b => (Syntax.mkNumLit (toString b.toNat) : TSyntax `term))
    `(([$(ts.toArray),*] : List UInt8))

namespace Go

/-- `strings.HasPrefix(s, p)`. -/
def hasPrefix (s p : Str) : Bool := p.isPrefixOf s

/-- `strings.HasSuffix(s, p)`. -/
def hasSuffix (s p : Str) : Bool := p.isSuffixOf s

/-- `strings.TrimSuffix(s, p)`: `s` without the suffix `p`, or `s` itself. -/
def trimSuffix (s p : Str) : Str :=
  if hasSuffix s p then s.take (s.length - p.length) else s

/-- `strings.TrimPrefix(s, p)`. -/
def trimPrefix (s p : Str) : Str :=
  if hasPrefix s p then s.drop p.length else s

/-- `strings.Split(s, sep)` for a one-byte separator. Never returns an empty list. -/
def splitOn1 (sep : UInt8) : Str → List Str
  | [] => [[]]
  | c :: cs =>
    if c = sep then [] :: splitOn1 sep cs
    else match splitOn1 sep cs with
      | [] => [[c]]
      | h :: t => (c :: h) :: t

/-- `strings.Join(parts, sep)` for a one-byte separator. -/
def join1 (sep : UInt8) : List Str → Str
  | [] => []
  | [x] => x
  | x :: y :: ys => x ++ sep :: join1 sep (y :: ys)

/-- `strings.IndexByte(s, c)`. -/
def indexByte (s : Str) (c : UInt8) : Option Nat := s.findIdx? (· == c)

/-- ASCII upper-casing of one byte. -/
def upperByte (c : UInt8) : UInt8 := if 97 ≤ c ∧ c ≤ 122 then c - 32 else c

/-- ASCII lower-casing of one byte. -/
def lowerByte (c : UInt8) : UInt8 := if 65 ≤ c ∧ c ≤ 90 then c + 32 else c

/-- `strings.ToUpper` restricted to ASCII case pairs (bytes ≥ 0x80 are left alone). -/
def toUpper (s : Str) : Str := s.map upperByte

/-- `strings.ToLower` restricted to ASCII case pairs. -/
def toLower (s : Str) : Str := s.map lowerByte

/-- Length in bytes of the Unicode white-space rune at the front of `s` (0 if there is none):
`unicode.IsSpace` on the UTF-8 decoding, as used by `strings.TrimSpace`. -/
def spaceLen : Str → Nat
  | [] => 0
  | c :: r =>
    if c = 9 ∨ c = 10 ∨ c = 11 ∨ c = 12 ∨ c = 13 ∨ c = 32 then 1 else
    match c, r with
    | 0xC2, d :: _ => if d = 0x85 ∨ d = 0xA0 then 2 else 0
    | 0xE1, 0x9A :: 0x80 :: _ => 3
    | 0xE2, 0x80 :: e :: _ => if (0x80 ≤ e ∧ e ≤ 0x8A) ∨ e = 0xA8 ∨ e = 0xA9 ∨ e = 0xAF then 3 else 0
    | 0xE2, 0x81 :: 0x9F :: _ => 3
    | 0xE3, 0x80 :: 0x80 :: _ => 3
    | _, _ => 0

/-- Length in bytes of the Unicode white-space rune at the end of a string, given its reversal. -/
def spaceLenRev : Str → Nat
  | [] => 0
  | c :: r =>
    if c = 9 ∨ c = 10 ∨ c = 11 ∨ c = 12 ∨ c = 13 ∨ c = 32 then 1 else
    match r with
    | 0xC2 :: _ => if c = 0x85 ∨ c = 0xA0 then 2 else 0
    | b :: a :: _ => if spaceLen [a, b, c] = 3 then 3 else 0
    | _ => 0

/-- drop leading white-space runes. -/
def trimLeftF : Nat → Str → Str
  | 0, s => s
  | n + 1, s => if spaceLen s = 0 then s else trimLeftF n (s.drop (spaceLen s))

/-- drop leading reversed white-space runes. -/
def trimLeftRevF : Nat → Str → Str
  | 0, s => s
  | n + 1, s => if spaceLenRev s = 0 then s else trimLeftRevF n (s.drop (spaceLenRev s))

def trimLeft (s : Str) : Str := trimLeftF s.length s
def trimRight (s : Str) : Str := (trimLeftRevF s.length s.reverse).reverse

/-- `strings.TrimSpace` / `bytes.TrimSpace`. -/
def trimSpace (s : Str) : Str := trimRight (trimLeft s)

end Go
end Verif
