import Verif.Common
import Verif.EventStream.Float64

/-!
# Model of the retry strategies

Line numbers refer to `/repo/packages/smithy-core/src/smithy_core/retries.py` (R) and
`/repo/packages/smithy-core/src/smithy_core/aio/retries.py` (A).

Floats are rationals; every arithmetic operation is followed by rounding to binary64 (`rnd`).
Overflow of a product to infinity is not represented: the product is capped by `min` right away.
-/

set_option autoImplicit false

namespace Verif.Retry
open Verif.EventStream (rnd)

/-! ## Backoff -/

/-- `ExponentialBackoffJitterType` (R 27-72). -/
inductive Jitter
  | default
  | none
  | full
  | decorrelated
  deriving DecidableEq, Repr

/-- `ExponentialRetryBackoffStrategy` with its one mutable field (R 75-106). -/
structure Backoff where
  scale : Rat
  max : Rat
  jitter : Jitter
  prev : Rat
  deriving DecidableEq, Repr

/-- `__init__` (R 76-106). -/
def Backoff.init (scale max : Rat) (jitter : Jitter) : Backoff := { scale, max, jitter, prev := scale }

/-- Exceptions of the retry code. -/
inductive RErr
  | overflow                                   -- `2.0 ** n` for `n ≥ 1024`
  | notRetryable                               -- A 113, A 247
  | maxAttempts                                -- A 107-109, A 214-216
  | quota (retryAfter : Rat)                   -- A 236-239
  | typeError                                  -- A 206-209, A 254-257
  | valueError                                 -- A 161-164
  deriving DecidableEq, Repr

/-- `_jitter_free_uncapped_delay` (R 137-144) for `retry_attempt = n + 1`; the power raises
`OverflowError` from `2.0 ** 1024` on. -/
def uncapped (scale : Rat) (n : Nat) : Except RErr Rat :=
  if n < 1024 then .ok (rnd (scale * (2 : Rat) ^ n)) else .error .overflow

/-- `_next_delay_no_jitter` (R 146-152). -/
def noJitter (b : Backoff) (n : Nat) : Except RErr Rat :=
  match uncapped b.scale n with
  | .error e => .error e
  | .ok d => .ok (min d b.max)

/-- `_next_delay_full_jitter` (R 154-161); `r` is what `random()` returned. -/
def fullJitter (b : Backoff) (n : Nat) (r : Rat) : Except RErr Rat :=
  match uncapped b.scale n with
  | .error e => .error e
  | .ok d => .ok (rnd (r * min d b.max))

/-- `_next_delay_equal_jitter` (R 163-170). -/
def equalJitter (b : Backoff) (n : Nat) (r : Rat) : Except RErr Rat :=
  match uncapped b.scale n with
  | .error e => .error e
  | .ok d => .ok (rnd (rnd (rnd (r * (1 / 2)) + 1 / 2) * min d b.max))

/-- `_next_delay_decorrelated_jitter` (R 172-181). -/
def decorrelatedJitter (b : Backoff) (r : Rat) : Rat :=
  min (rnd (b.scale + rnd (rnd (r * b.prev) * 3))) b.max

/-- `compute_next_backoff_delay` (R 108-135) for a non-negative attempt number. -/
def Backoff.next (b : Backoff) (attempt : Nat) (r : Rat) : Except RErr Rat × Backoff :=
  match attempt with
  | 0 => (.ok 0, b)
  | n + 1 =>
    let res := match b.jitter with
      | .none => noJitter b n
      | .default => equalJitter b n r
      | .full => fullJitter b n r
      | .decorrelated => .ok (decorrelatedJitter b r)
    match res with
    | .error e => (.error e, b)
    | .ok d => (.ok d, { b with prev := d })

/-! ## Quota, one call at a time -/

/-- `StandardRetryQuota` (R 203-218). -/
structure Quota where
  cap : Int
  avail : Int
  deriving DecidableEq, Repr

/-- `__init__` (R 211-218). -/
def Quota.init (capacity : Int := 500) : Quota := { cap := capacity, avail := capacity }

/-- The cost of a retry (R 227-233). -/
def cost (throttling : Bool) : Int := if throttling then 5 else 14

/-- `acquire` (R 220-239); `none` is `RetryError`. -/
def Quota.acquire (q : Quota) (throttling : Bool) : Option Int × Quota :=
  let amount := cost throttling
  if amount > q.avail then (none, q) else (some amount, { q with avail := q.avail - amount })

/-- `release` (R 241-255). -/
def Quota.release (q : Quota) (amount : Int) : Quota :=
  let increment := if amount = 0 then 1 else amount
  if q.avail = q.cap then q else { q with avail := min (q.avail + increment) q.cap }

/-! ## Quota, with threads

Each call of `acquire` or `release` is cut at every access to shared memory: taking the lock, reading the
capacity, writing it, and releasing the lock.  Threads interleave arbitrarily. -/

/-- Program counter of a call. -/
inductive TPhase
  | acqLock (throttling : Bool)             -- about to take the lock, R 235
  | acqCheck (throttling : Bool)            -- about to compare, R 236
  | acqLoad (throttling : Bool)             -- about to read the capacity, R 238
  | acqStore (throttling : Bool) (v : Int)  -- about to write `v - cost`, R 238
  | relFast (amount : Int)                  -- about to compare with the maximum, R 249
  | relLock (amount : Int)                  -- about to take the lock, R 252
  | relLoad (amount : Int)                  -- about to read the capacity, R 253-254
  | relStore (amount v : Int)               -- about to write `v`, R 253
  | unlock (result : Option Int)            -- about to leave the `with` block
  | done (result : Option Int)              -- returned (for `acquire`, `none` is `RetryError`)
  deriving DecidableEq, Repr

/-- A call's effect at the moment it takes effect. -/
inductive TEvent
  | acquired (amount : Int)
  | refused (amount : Int)
  | released (amount : Int)
  | skipped
  deriving DecidableEq, Repr

/-- The quota with the calls in progress; `lock` is the call that holds the lock.  `log` is a ghost: the
effects so far, each with the call it belongs to. -/
structure TQuota where
  cap : Int
  avail : Int
  lock : Option Nat := none
  calls : List TPhase := []
  log : List (Nat × TEvent) := []
  deriving DecidableEq, Repr

/-- What happens next. -/
inductive TAct
  | callAcquire (throttling : Bool)
  | callRelease (amount : Int)
  | run (call : Nat)
  deriving DecidableEq, Repr

/-- Move a call on. -/
def TQuota.goto (s : TQuota) (i : Nat) (p : TPhase) : TQuota := { s with calls := s.calls.set i p }

/-- One step of one thread (R 220-255). -/
def tstep (s : TQuota) : TAct → TQuota
  | .callAcquire t => { s with calls := s.calls ++ [.acqLock t] }
  | .callRelease n => { s with calls := s.calls ++ [.relFast n] }
  | .run i =>
    match s.calls[i]? with
    | none => s
    | some (.acqLock t) =>
      if s.lock = none then { s with lock := some i, calls := s.calls.set i (.acqCheck t) } else s
    | some (.acqCheck t) =>
      if cost t > s.avail then
        { s with calls := s.calls.set i (.unlock none), log := s.log ++ [(i, .refused (cost t))] }
      else s.goto i (.acqLoad t)
    | some (.acqLoad t) => s.goto i (.acqStore t s.avail)
    | some (.acqStore t v) =>
      { s with avail := v - cost t, calls := s.calls.set i (.unlock (some (cost t))),
               log := s.log ++ [(i, .acquired (cost t))] }
    | some (.relFast n) =>
      if s.avail = s.cap then
        { s with calls := s.calls.set i (.done none), log := s.log ++ [(i, .skipped)] }
      else s.goto i (.relLock (if n = 0 then 1 else n))
    | some (.relLock n) =>
      if s.lock = none then { s with lock := some i, calls := s.calls.set i (.relLoad n) } else s
    | some (.relLoad n) => s.goto i (.relStore n (min (s.avail + n) s.cap))
    | some (.relStore n v) =>
      { s with avail := v, calls := s.calls.set i (.unlock none), log := s.log ++ [(i, .released n)] }
    | some (.unlock r) => { s with lock := none, calls := s.calls.set i (.done r) }
    | some (.done _) => s

/-- A quota just constructed, and then any interleaving. -/
def trun (cap : Int) (acts : List TAct) : TQuota := acts.foldl tstep { cap, avail := cap }

/-! ## Strategies -/

/-- An error with retry information (`ErrorRetryInfo`); other exceptions are `none` where this is
optional.  `is_retry_safe` is `bool | None`. -/
structure ErrInfo where
  retrySafe : Option Bool
  retryAfter : Option Rat
  throttling : Bool
  deriving DecidableEq, Repr

/-- `StandardRetryToken` (R 263-272); a `SimpleRetryToken` has no quota. -/
structure Token where
  count : Nat
  delay : Rat
  quota : Int := 0
  deriving DecidableEq, Repr

/-- `SimpleRetryStrategy` (A 64-80). -/
structure Simple where
  backoff : Backoff
  maxAttempts : Int
  deriving DecidableEq, Repr

/-- `SimpleRetryStrategy.refresh_retry_token_for_retry` (A 92-113). -/
def Simple.refresh (s : Simple) (token : Token) (error : Option ErrInfo) (r : Rat) :
    Except RErr Token × Simple :=
  match error with
  | none => (.error .notRetryable, s)
  | some e =>
    if e.retrySafe = some true then
      let count := token.count + 1
      if (count : Int) ≥ s.maxAttempts then (.error .maxAttempts, s)
      else
        match s.backoff.next count r with
        | (.error x, b) => (.error x, { s with backoff := b })
        | (.ok d, b) => (.ok { count, delay := d }, { s with backoff := b })
    else (.error .notRetryable, s)

/-- `StandardRetryStrategy` (A 122-180). -/
structure Standard where
  backoff : Backoff
  throttlingBackoff : Backoff
  maxAttempts : Int
  quota : Quota
  deriving DecidableEq, Repr

/-- `__init__` (A 135-180) with the default backoff strategies. -/
def Standard.init (maxAttempts : Int := 3) (quota : Quota := Quota.init) : Except RErr Standard :=
  if maxAttempts < 0 then .error .valueError
  else .ok { backoff := Backoff.init (rnd (5 / 100)) 20 .full, throttlingBackoff := Backoff.init 1 20 .full,
             maxAttempts, quota }

/-- `acquire_initial_retry_token` (A 182-190). -/
def Standard.initial (_ : Standard) : Token := { count := 0, delay := 0 }

/-- The delay between the computed one and five seconds more (A 226-232). -/
def boundedDelay (t : Rat) : Option Rat → Rat
  | some ra => max t (min ra (rnd (5 + t)))
  | none => t

/-- `refresh_retry_token_for_retry` (A 192-247). The token is one of this strategy's. -/
def Standard.refresh (s : Standard) (token : Token) (error : Option ErrInfo) (r : Rat) :
    Except RErr Token × Standard :=
  match error with
  | none => (.error .notRetryable, s)
  | some e =>
    if e.retrySafe = some true then
      let count := token.count + 1
      if (count : Int) ≥ s.maxAttempts then (.error .maxAttempts, s)
      else
        let (res, s) :=
          if e.throttling then
            let (res, b) := s.throttlingBackoff.next count r
            (res, { s with throttlingBackoff := b })
          else
            let (res, b) := s.backoff.next count r
            (res, { s with backoff := b })
        match res with
        | .error x => (.error x, s)
        | .ok t =>
          let delay := boundedDelay t e.retryAfter
          match s.quota.acquire e.throttling with
          | (none, q) => (.error (.quota delay), { s with quota := q })
          | (some amount, q) => (.ok { count, delay, quota := amount }, { s with quota := q })
    else (.error .notRetryable, s)

/-- `record_success` (A 249-258). -/
def Standard.success (s : Standard) (token : Token) : Standard :=
  { s with quota := s.quota.release token.quota }

/-! ## Requests sharing a strategy

`RequestPipeline._retry` (`smithy_core/aio/client.py` lines 323-375) seen from the strategy: a request
takes the initial token, makes an attempt, and after a failed attempt either gets a new token and makes
another attempt or ends. `refresh` contains no suspension point, so requests interleave between calls. -/

/-- A request in progress. -/
structure Req where
  token : Token
  attempts : Nat
  slept : List Rat
  ended : Bool := false
  deriving DecidableEq, Repr

/-- Requests sharing a standard strategy. -/
structure Sys where
  strategy : Standard
  reqs : List Req := []
  granted : Nat := 0
  deriving DecidableEq, Repr

/-- What happens next: a request starts (and makes its first attempt), or an attempt of a request ends. -/
inductive SAct
  | start
  | fail (req : Nat) (error : Option ErrInfo) (random : Rat)
  | succeed (req : Nat)
  deriving DecidableEq, Repr

/-- One event (client.py 332-375). -/
def sstep (s : Sys) : SAct → Sys
  | .start =>
    { s with reqs := s.reqs ++ [{ token := s.strategy.initial, attempts := 1, slept := [] }] }
  | .fail i error r =>
    match s.reqs[i]? with
    | none => s
    | some q =>
      if q.ended then s
      else
        match s.strategy.refresh q.token error r with
        | (.error _, st) => { s with strategy := st, reqs := s.reqs.set i { q with ended := true } }
        | (.ok t, st) =>
          { strategy := st, granted := s.granted + 1
            reqs := s.reqs.set i { q with token := t, attempts := q.attempts + 1, slept := q.slept ++ [t.delay] } }
  | .succeed i =>
    match s.reqs[i]? with
    | none => s
    | some q =>
      if q.ended then s
      else { s with strategy := s.strategy.success q.token, reqs := s.reqs.set i { q with ended := true } }

/-- Any history of requests on one strategy. -/
def srun (st : Standard) (acts : List SAct) : Sys := acts.foldl sstep { strategy := st }

end Verif.Retry
