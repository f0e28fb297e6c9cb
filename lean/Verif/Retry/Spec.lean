import Verif.Retry.Model
import Verif.EventStream.RndLemmas

/-! Specification vocabulary for retries. -/

set_option autoImplicit false

namespace Verif.Retry.Spec
open Verif.Retry Verif.EventStream

/-- The documented cost of a retry. -/
def retryCost (e : ErrInfo) : Int := if e.throttling then 5 else 14

/-- A quota that is used by one caller at a time, as a replay of effects: `none` if an effect is not
what such a quota would have done. -/
def replay (cap : Int) : Int → List TEvent → Option Int
  | a, [] => some a
  | a, .acquired n :: es => if n ≤ a then replay cap (a - n) es else none
  | a, .refused n :: es => if a < n then replay cap a es else none
  | a, .released n :: es => replay cap (min (a + n) cap) es
  | a, .skipped :: es => if a = cap then replay cap a es else none

/-- Is this the start of a call? -/
def isCall : TAct → Bool
  | .run _ => false
  | _ => true

/-- The calls made, in order; calls are numbered by their position here. -/
def callsMade (acts : List TAct) : List TAct := acts.filter isCall

/-- What one call has done to the quota. -/
def effects (log : List (Nat × TEvent)) (i : Nat) : List TEvent := (log.filter (fun e => e.1 = i)).map Prod.snd

/-- A backoff whose parameters are floats and make sense. -/
structure GoodBackoff (b : Backoff) : Prop where
  scale : 0 ≤ b.scale
  max : 0 ≤ b.max
  scaleFloat : IsFloat b.scale
  maxFloat : IsFloat b.max

/-- What `random()` may return (the code allows 1). -/
def GoodRandom (r : Rat) : Prop := 0 ≤ r ∧ r ≤ 1 ∧ IsFloat r

/-- The exponential delay, capped. -/
def capped (b : Backoff) (n : Nat) : Rat := min b.max (b.scale * 2 ^ (n - 1))

/-- All delays a backoff strategy computes for a sequence of (attempt, random) calls; `none` where it
raised. -/
def delays : Backoff → List (Nat × Rat) → List (Option Rat)
  | _, [] => []
  | b, (n, r) :: cs =>
    (match (b.next n r).1 with | .ok d => some d | .error _ => none) :: delays (b.next n r).2 cs

end Verif.Retry.Spec
