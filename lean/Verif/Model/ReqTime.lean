import Verif.Model.ReqLine
/-!
# Durations and sizes in the request log: request-logger/logger.go:92, 101-102

The program computes with `float64`. A double that is not negative is a pair `(m, k)` for `m / 2^k`; here all quotients are below 2^53 and not
tiny, so neither very large nor subnormal numbers occur. That the processor divides and converts with round-to-nearest-even, and that `fmt`
rounds the exact value of the double, is trusted base.
-/
namespace Verif.ReqLog
open Verif.Go

/-- The integer nearest to `p / q`, ties to even: the rounding of `float64(…)`, of the division and of `%0.3f`
(request-logger/logger.go:92, 101-102). -/
def rne (p q : Nat) : Nat := if 2 * (p % q) < q ∨ (2 * (p % q) = q ∧ p / q % 2 = 0) then p / q else p / q + 1

/-- `float64(n)` for an integer `n ≥ 0`: 53 significant bits (request-logger/logger.go:92, 101, 102). -/
def toDouble (n : Nat) : Nat := rne n (2 ^ (n.log2 - 52)) * 2 ^ (n.log2 - 52)

/-- The exponent of the double nearest to `p / q < 2^53`: the least `k` with `p / q * 2^k ≥ 2^52` (request-logger/logger.go:92, 101, 102). -/
def scale (p q : Nat) : Nat := ((List.range 128).find? (fun k => decide (2 ^ 52 * q ≤ p * 2 ^ k))).getD 0

/-- Division of doubles (request-logger/logger.go:92, 101, 102). -/
def divDouble (p q : Nat) : Nat × Nat := (rne (p * 2 ^ scale p q) q, scale p q)

/-- `%0.3f` of a double, in thousandths (request-logger/logger.go:92, 101, 102; strconv's `decimal.Round`). -/
def thousandths (x : Nat × Nat) : Nat := rne (x.1 * 1000) (2 ^ x.2)

/-- `fmt.Sprintf("%0.3fms", float64(time.Since(start).Nanoseconds())/1e6)` (request-logger/logger.go:92, 101); the clock is monotonic, `ns ≥ 0`. -/
def msText (ns : Nat) : Str := fixed3 (thousandths (divDouble (toDouble ns) 1000000)) ++ b!"ms"

/-- `fmt.Sprintf("%0.3f", float64(res.Size())/1024.0)`, with doubles (request-logger/logger.go:102). -/
def sizeText (size : Nat) : Str := fixed3 (thousandths (divDouble (toDouble size) 1024))

end Verif.ReqLog
