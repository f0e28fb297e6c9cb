/-!
# binary64 arithmetic on rationals

The event-stream timestamp conversions go through Python `float`s
(`events.py` lines 535 and 695).  A finite `float` is represented by the rational number it denotes;
an operation is the exact rational operation followed by `rnd`, rounding to nearest, ties to even.
Simplification: overflow to infinity and subnormal numbers are not represented; the values that
occur (timestamps of `datetime`s and 64-bit integers divided by 1000) are far from both.
-/

set_option autoImplicit false

namespace Verif.EventStream

/-- Round a non-negative fraction `n / d` (`0 < d`) to the nearest integer, ties to even. -/
def divRoundHalfEven (n d : Nat) : Nat :=
  let q := n / d
  let r := n % d
  if 2 * r < d then q
  else if d < 2 * r then q + 1
  else if q % 2 = 0 then q else q + 1

/-- Position of the leading bit of `n / d` relative to the point: the `k` with
`2^k ≤ n / d < 2^(k+1)`, for `0 < n`, `0 < d`. -/
def leadExp (n d : Nat) : Int :=
  let k : Int := (Nat.log2 n : Int) - (Nat.log2 d : Int)
  -- `2^k ≤ n/d` up to being one too large
  if 0 ≤ k then
    if n < d * 2 ^ k.toNat then k - 1 else k
  else
    if n * 2 ^ (-k).toNat < d then k - 1 else k

/-- Round the positive fraction `n / d` to 53 significant bits, ties to even. -/
def rndPos (n d : Nat) : Rat :=
  let e : Int := leadExp n d - 52
  if 0 ≤ e then
    ((divRoundHalfEven n (d * 2 ^ e.toNat) * 2 ^ e.toNat : Nat) : Rat)
  else
    ((divRoundHalfEven (n * 2 ^ (-e).toNat) d : Nat) : Rat) / ((2 ^ (-e).toNat : Nat) : Rat)

/-- Rounding of a rational to binary64 (round to nearest, ties to even). -/
def rnd (q : Rat) : Rat :=
  if q.num = 0 then 0
  else if 0 < q.num then rndPos q.num.natAbs q.den
  else - rndPos q.num.natAbs q.den

/-- Truncation towards zero, Python `int(x)` on a float. -/
def truncRat (q : Rat) : Int := Int.tdiv q.num q.den

/-- Round a rational to the nearest integer, ties to even (used by `datetime.fromtimestamp`). -/
def roundHalfEven (q : Rat) : Int :=
  if 0 ≤ q.num then (divRoundHalfEven q.num.natAbs q.den : Int)
  else - (divRoundHalfEven q.num.natAbs q.den : Int)

end Verif.EventStream
