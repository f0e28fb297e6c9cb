import Verif.Common

/-!
# `AsyncBytesProvider`

The bounded buffer that carries the bytes of an outgoing event stream from the publisher to
the HTTP client (`smithy_core/aio/types.py`, lines 317-461).

Every method body runs inside `async with self._data_condition`, and the only suspension point
inside a body is `wait_for`, which gives the lock back while it waits.  The lock is therefore
never held across a suspension, acquiring it never suspends, and what a task does between two
suspension points is one atomic step.  `asyncio.Condition` keeps its waiters in FIFO order;
`notify()` marks the first waiter that is not marked yet, `notify_all()` marks all of them, and
a marked waiter, when the event loop gets to it, leaves the queue and evaluates its predicate
again; if it is still false it queues again at the end (CPython `asyncio/locks.py`,
`Condition.wait`, `wait_for`, `notify`, `notify_all`).

Simplifications: a chunk is an arbitrary value of a type `α` (the class never looks inside one).
Cancellation of a waiting task is not modelled.  The event loop may resume marked waiters in any
order (asyncio resumes them in the order they were marked, which is one of these orders).
`__aenter__`/`__aexit__` (lines 457-461) are `close(flush=True)` and have no model of their own.
-/

set_option autoImplicit false

namespace Verif.Provider

/-- A call of the provider's API: `write` (types.py:351), `flush` (387), `close` (405),
`__anext__` (437). -/
inductive Call (α : Type) where
  | write (chunk : α)
  | flush
  | close (flush : Bool)
  | read
  deriving DecidableEq, Repr

/-- How a call ended: returned `None`, raised `SmithyError` (types.py:353, 368), returned a chunk
(455), raised `StopAsyncIteration` (449). -/
inductive Res (α : Type) where
  | ok
  | err
  | item (chunk : α)
  | stop
  deriving DecidableEq, Repr

/-- The provider's fields (types.py:334-349) with the condition's queue of waiters
(task, has it been notified), the calls made so far (task `i` runs `calls[i]`), and the log of
calls that have ended, in the order they ended. -/
structure St (α : Type) where
  data : List α
  maxChunks : Nat
  closed : Bool := false
  closing : Bool := false
  flushing : Bool := false
  waiters : List (Nat × Bool) := []
  calls : List (Call α) := []
  log : List (Nat × Res α) := []
  deriving DecidableEq, Repr

variable {α : Type}

/-- `__init__` (types.py:324-349).  `none` is the `ValueError`. -/
def init (initial : Option α) (maxChunks : Nat) : Option (St α) :=
  if maxChunks < 1 then none else some { data := initial.toList, maxChunks := maxChunks }

/-- Mark the first waiter that is not marked. -/
def markFirst : List (Nat × Bool) → List (Nat × Bool)
  | [] => []
  | (i, true) :: ws => (i, true) :: markFirst ws
  | (i, false) :: ws => (i, true) :: ws

namespace St

/-- `Condition.notify()`. -/
def notify (s : St α) : St α := { s with waiters := markFirst s.waiters }

/-- `Condition.notify_all()`. -/
def notifyAll (s : St α) : St α := { s with waiters := s.waiters.map fun w => (w.1, true) }

/-- Suspend in `Condition.wait()`. -/
def park (s : St α) (i : Nat) : St α := { s with waiters := s.waiters ++ [(i, false)] }

/-- The call made by task `i` returns or raises. -/
def finish (s : St α) (i : Nat) (r : Res α) : St α := { s with log := s.log ++ [(i, r)] }

/-- `_can_write` (types.py:375-380). -/
def canWrite (s : St α) : Bool :=
  s.closed || s.closing || (decide (s.data.length < s.maxChunks) && !s.flushing)

/-- From the evaluation of the `wait_for` predicate of `write` to the next suspension or the end
(types.py:361-373). -/
def contWrite (s : St α) (i : Nat) (chunk : α) : St α :=
  if s.canWrite then
    if s.closed || s.closing then s.notify.finish i .err
    else (St.notify { s with data := s.data ++ [chunk] }).finish i .ok
  else s.park i

/-- The same for `flush` (types.py:400-403). -/
def contFlush (s : St α) (i : Nat) : St α :=
  if s.data.isEmpty then St.finish { s with flushing := false } i .ok else s.park i

/-- The last part of `close` (types.py:428-432). -/
def shut (s : St α) (i : Nat) : St α :=
  (St.notifyAll { s with closed := true, closing := false }).finish i .ok

/-- `close(flush=True)` from the evaluation of its predicate (types.py:423-432). -/
def contClose (s : St α) (i : Nat) : St α :=
  if s.data.isEmpty then s.shut i else s.park i

/-- `__anext__` (types.py:443-455). -/
def contRead (s : St α) (i : Nat) : St α :=
  if s.closed then s.finish i .stop
  else match s.data with
    | [] => s.park i
    | c :: cs => (St.notify { s with data := cs }).finish i (.item c)

/-- What task `i` does when its `wait_for` predicate is evaluated (again).  A `close(flush=False)`
never waits (types.py:424-426), so it is not resumed. -/
def cont (s : St α) (i : Nat) : Call α → St α
  | .write c => s.contWrite i c
  | .flush => s.contFlush i
  | .close true => s.contClose i
  | .close false => s
  | .read => s.contRead i

/-- A new task makes a call; runs to its first suspension. -/
def start (s : St α) (call : Call α) : St α :=
  let i := s.calls.length
  let s := { s with calls := s.calls ++ [call] }
  match call with
  | .write c => if s.closed then s.finish i .err else s.contWrite i c
  | .flush => if s.closed then s.finish i .ok else St.contFlush { s with flushing := true } i
  | .close true => if s.closed then s.finish i .ok else St.contClose { s with closing := true } i
  | .close false => if s.closed then s.finish i .ok else St.shut { s with closing := true, data := [] } i
  | .read => s.contRead i

/-- The event loop resumes task `i`, if it is waiting and has been notified. -/
def resume (s : St α) (i : Nat) : St α :=
  if (i, true) ∈ s.waiters then
    let s := { s with waiters := s.waiters.erase (i, true) }
    match s.calls[i]? with
    | some call => s.cont i call
    | none => s
  else s

end St

/-- One step of the event loop: some task makes a call, or a notified task continues. -/
inductive Act (α : Type) where
  | call (c : Call α)
  | resume (i : Nat)
  deriving DecidableEq, Repr

def St.step (s : St α) : Act α → St α
  | .call c => s.start c
  | .resume i => s.resume i

/-- A schedule, from a provider just constructed. -/
def St.run (s : St α) (acts : List (Act α)) : St α := acts.foldl St.step s

end Verif.Provider
