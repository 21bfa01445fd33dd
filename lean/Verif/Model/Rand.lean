import Verif.Go.Strconv
/-!
# Random strings, number encoding and session ids

Models utils/rand.go and `CreateSid` of sessions/utils.go. The operating system's random source is a
parameter: the bytes it delivers, or a failure.
-/
namespace Verif.Rand
open Verif.Go

/-- The outcome of a Go call that may panic or not return (utils/rand.go:17, 55, 70). -/
inductive Res (α : Type) where
  | ok (a : α)
  | err            -- the function returned an error
  | panic
  | diverge
deriving DecidableEq, Repr

/-- utils/rand.go:13 `DefaultAlphabets`. -/
def defaultAlphabet : Str := b!"0123456789ABCDEFGHIJKLMNOPQRSTUVWXYZabcdefghijklmnopqrstuvwxyz"

/-- sessions/sessions.go:20 `_SESSION_ALPHABETS`. -/
def sessionAlphabet : Str := b!"0123456789ABCDEFGHIJKLMNOPQRSTUVWXYZ"

/-- utils/rand.go:28-30: one output byte, `alphabets[b % byte(len(alphabets))]`; `byte(len)` is the
length modulo 256, and the remainder by 0 panics (`none`). -/
def pick (alphabet : Str) (b : UInt8) : Option UInt8 :=
  if alphabet.length % 256 = 0 then none else alphabet[b.toNat % (alphabet.length % 256)]?

/-- utils/rand.go:17-32 `RandomCreateBytes(n, alphabets...)`. `entropy` is what `rand.Read` puts in the
buffer (`none`: it failed or was short). A negative `n` panics in `make`. -/
def randomCreateBytes (n : Int) (alphabets : Str) (entropy : Option Str) : Res Str :=
  if n < 0 then .panic
  else match entropy with
    | none => .err
    | some e =>
      if (e.length : Int) ≠ n then .err
      else match e.mapM (pick (if alphabets.length = 0 then defaultAlphabet else alphabets)) with
        | none => .panic
        | some s => .ok s

/-- `(*big.Int).SetString(number, 10)`: optional sign, at least one digit, digits only (utils/rand.go:57). -/
def parseBig (s : Str) : Option Int :=
  let body := if s.head? = some 43 ∨ s.head? = some 45 then s.drop 1 else s
  if body = [] then none
  else (body.foldlM (fun (a : Nat) c => (digitVal? c).map (a * 10 + ·)) 0).map fun n =>
    if s.head? = some 45 then -(n : Int) else n

/-- utils/rand.go:63-66, the loop of `NumberEncode`: least significant digit first. -/
def encodeLoop (alphabet : Str) : Nat → Nat → Str
  | 0, _ => []
  | f + 1, x =>
    if x = 0 then [] else alphabet[x % alphabet.length]?.getD 0 :: encodeLoop alphabet f (x / alphabet.length)

/-- utils/rand.go:55-68 `NumberEncode`. An empty alphabet divides by zero, a one-byte alphabet loops for
ever (when there is a positive number to encode). -/
def numberEncode (number alphabet : Str) : Res Str :=
  match parseBig number with
  | none => .ok []
  | some x =>
    if x ≤ 0 then .ok []
    else if alphabet.length = 0 then .panic
    else if alphabet.length = 1 then .diverge
    else .ok (encodeLoop alphabet x.toNat x.toNat)

/-- `bytes.IndexByte` as an integer (-1 when absent) (utils/rand.go:75). -/
def indexInt (alphabet : Str) (c : UInt8) : Int :=
  match alphabet.findIdx? (· == c) with
  | some i => i
  | none => -1

/-- utils/rand.go:70-81 `NumberDecode`: from the last byte to the first. -/
def numberDecode (token alphabet : Str) : Str :=
  fmtInt (token.foldr (fun c (x : Int) => x * alphabet.length + indexInt alphabet c) 0)

/-- sessions/utils.go:17-25 `CreateSid` at clock reading `t` (UnixNano), with the random source's answer
for a request of the given length. -/
def createSid (t : Int) (entropy : Nat → Option Str) : Res Str :=
  match numberEncode (fmtInt t) sessionAlphabet with
  | .ok pre =>
    let n : Int := 20 - pre.length
    match randomCreateBytes n sessionAlphabet (entropy n.toNat) with
    | .ok r => .ok (pre ++ r)
    | .err => .panic
    | e => e
  | e => e

end Verif.Rand
