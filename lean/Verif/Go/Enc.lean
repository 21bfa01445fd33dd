import Verif.Go.Bytes
/-!
# Go's `encoding/hex`, `encoding/base64` (URL alphabet, padded) and `net/url` query escaping

Models of standard-library functions (trusted base, see DESIGN.md), Go 1.13 semantics.
-/
namespace Verif.Go

/-- `"0123456789abcdef"[n]` -/
def hexLower (n : Nat) : UInt8 := UInt8.ofNat (if n < 10 then 48 + n else 87 + n)

/-- `"0123456789ABCDEF"[n]` -/
def hexUpper (n : Nat) : UInt8 := UInt8.ofNat (if n < 10 then 48 + n else 55 + n)

/-- `hex.EncodeToString`. -/
def hexEncode : Str → Str
  | [] => []
  | c :: cs => hexLower (c.toNat / 16) :: hexLower (c.toNat % 16) :: hexEncode cs

/-- `net/url`'s `unhex`, `none` when not `ishex`. -/
def unhex (c : UInt8) : Option Nat :=
  if 48 ≤ c ∧ c ≤ 57 then some (c.toNat - 48)
  else if 97 ≤ c ∧ c ≤ 102 then some (c.toNat - 87)
  else if 65 ≤ c ∧ c ≤ 70 then some (c.toNat - 55)
  else none

/-- bytes that `url.QueryEscape` leaves alone: letters, digits, `-`, `_`, `.`, `~`. -/
def unreserved (c : UInt8) : Bool :=
  (97 ≤ c && c ≤ 122) || (65 ≤ c && c ≤ 90) || (48 ≤ c && c ≤ 57) ||
    c == 45 || c == 95 || c == 46 || c == 126

/-- `url.QueryEscape`. -/
def queryEscape : Str → Str
  | [] => []
  | c :: cs =>
    if c = 32 then 43 :: queryEscape cs
    else if unreserved c then c :: queryEscape cs
    else 37 :: hexUpper (c.toNat / 16) :: hexUpper (c.toNat % 16) :: queryEscape cs

/-- `url.QueryUnescape`; `none` is an `EscapeError`. -/
def queryUnescape : Str → Option Str
  | [] => some []
  | 37 :: a :: b :: cs =>
    match unhex a, unhex b with
    | some x, some y => (queryUnescape cs).map (UInt8.ofNat (x * 16 + y) :: ·)
    | _, _ => none
  | c :: cs =>
    if c = 37 then none
    else (queryUnescape cs).map ((if c = 43 then 32 else c) :: ·)

/-- The URL-safe base64 alphabet `A–Z a–z 0–9 - _`. -/
def b64Char (n : Nat) : UInt8 :=
  if n < 26 then UInt8.ofNat (65 + n)
  else if n < 52 then UInt8.ofNat (97 + (n - 26))
  else if n < 62 then UInt8.ofNat (48 + (n - 52))
  else if n = 62 then 45 else 95

/-- The decode map of the URL-safe alphabet. -/
def b64Val (c : UInt8) : Option Nat :=
  if 65 ≤ c ∧ c ≤ 90 then some (c.toNat - 65)
  else if 97 ≤ c ∧ c ≤ 122 then some (c.toNat - 97 + 26)
  else if 48 ≤ c ∧ c ≤ 57 then some (c.toNat - 48 + 52)
  else if c = 45 then some 62
  else if c = 95 then some 63
  else none

/-- `base64.URLEncoding.EncodeToString` (padding `=`). -/
def b64Encode : Str → Str
  | [] => []
  | [a] => [b64Char (a.toNat / 4), b64Char (a.toNat % 4 * 16), 61, 61]
  | [a, b] => [b64Char (a.toNat / 4), b64Char (a.toNat % 4 * 16 + b.toNat / 16),
      b64Char (b.toNat % 16 * 4), 61]
  | a :: b :: c :: r =>
    b64Char (a.toNat / 4) :: b64Char (a.toNat % 4 * 16 + b.toNat / 16) ::
    b64Char (b.toNat % 16 * 4 + c.toNat / 64) :: b64Char (c.toNat % 64) :: b64Encode r

/-- The quantum loop of `base64.URLEncoding.Decode` on input without line breaks: the decoded bytes
and whether an error was reported.  On an error the bytes of the complete quanta before it are kept;
input after correct padding ("trailing garbage") is an error but the padded quantum is kept; the
unused bits of a padded quantum are not checked (the encoding is not `Strict`). -/
def b64Quanta : Str → Str × Bool
  | [] => ([], false)
  | c0 :: c1 :: c2 :: c3 :: r =>
    match b64Val c0, b64Val c1 with
    | some x0, some x1 =>
      match b64Val c2 with
      | some x2 =>
        match b64Val c3 with
        | some x3 =>
          let q := b64Quanta r
          (UInt8.ofNat (x0 * 4 + x1 / 16) :: UInt8.ofNat (x1 % 16 * 16 + x2 / 4) ::
            UInt8.ofNat (x2 % 4 * 64 + x3) :: q.1, q.2)
        | none =>
          if c3 = 61 then
            ([UInt8.ofNat (x0 * 4 + x1 / 16), UInt8.ofNat (x1 % 16 * 16 + x2 / 4)], !r.isEmpty)
          else ([], true)
      | none =>
        if c2 = 61 ∧ c3 = 61 then ([UInt8.ofNat (x0 * 4 + x1 / 16)], !r.isEmpty) else ([], true)
    | _, _ => ([], true)
  | _ => ([], true)

/-- `base64.URLEncoding.DecodeString`: `\n` and `\r` are skipped anywhere. -/
def b64Decode (s : Str) : Str × Bool := b64Quanta (s.filter (fun c => c != 10 && c != 13))

/-- `strings.SplitN(s, sep, n)` for a one-byte separator and `n ≥ 1`. -/
def splitN1 (sep : UInt8) : Nat → Str → List Str
  | 0, _ => []
  | 1, s => [s]
  | n + 2, s =>
    if sep ∈ s then
      s.takeWhile (· != sep) :: splitN1 sep (n + 1) ((s.dropWhile (· != sep)).drop 1)
    else [s]

end Verif.Go
