import Verif.Common
import Verif.EventStream.Crc

/-!
# Model of the async byte readers

Line numbers refer to `/repo/packages/smithy-core/src/smithy_core/aio/types.py` (T) and
`/repo/packages/aws-sdk-signers/src/aws_sdk_signers/_io.py` (I), which contains variants of the same
classes.

A call runs to completion before the next one starts: concurrent calls on one reader are not modelled.
Sources that raise are not modelled.
-/

set_option autoImplicit false

namespace Verif.Readers
open Verif.EventStream (Bytes)

/-- What a reader reads from.

* `stream rest limit`: an object with a `read` method, holding `rest`.  `read(n)` returns at most `n`
  bytes; some streams return less than there is (`limit`), which the interface allows.
* `iter chunks again`: an `AsyncIterable`.  `chunks` is what its iterator will still yield.  An iterable
  that is not an iterator (`again`) starts afresh each time it is iterated over. -/
inductive Src
  | stream (rest : Bytes) (limit : Option Nat)
  | iter (chunks : List Bytes) (again : Option (List Bytes))
  deriving DecidableEq, Repr

/-- Exceptions. -/
inductive RErr
  | valueError
  | notImplemented
  deriving DecidableEq, Repr

/-- `AsyncBytesReader` (T 21-156, I 21-123).  `guarded` tells the two variants apart: T 113 pulls from
the iterable only if the remainder is too short, I 80 always pulls one element.  `srcClosed` counts the
calls of `close` on the source. -/
structure Reader where
  src : Src
  guarded : Bool := true
  remainder : Bytes := []
  closed : Bool := false
  srcClosed : Nat := 0
  deriving DecidableEq, Repr

/-- The loop `async for element in iterator: result += element; if len(result) >= size: break`
(T 113-117, I 80-83): the result and what the iterator will still yield. -/
def pull (size : Nat) (result : Bytes) : List Bytes → Bytes × List Bytes
  | [] => (result, [])
  | c :: cs => if (result ++ c).length ≥ size then (result ++ c, cs) else pull size (result ++ c) cs

/-- What iterating starts from (`__aiter__`). -/
def aiter (chunks : List Bytes) : Option (List Bytes) → List Bytes
  | some fresh => fresh
  | none => chunks

/-- `read` (T 51-72, I 42-66) with `_read_from_iterable` (T 101-120, I 68-86). -/
def Reader.read (r : Reader) (size : Int) : Except RErr Bytes × Reader :=
  if r.closed then (.error .valueError, r)
  else
    match r.src with
    | .stream rest limit =>
      if size < 0 then (.ok rest, { r with src := .stream [] limit })
      else
        let n := match limit with | some l => min size.toNat l | none => size.toNat
        (.ok (rest.take n), { r with src := .stream (rest.drop n) limit })
    | .iter chunks again =>
      let chunks := aiter chunks again
      if size < 0 then (.ok (r.remainder ++ chunks.flatten), { r with src := .iter [] again, remainder := [] })
      else
        let n := size.toNat
        let (result, chunks) :=
          if r.guarded && !(r.remainder.length < n) then (r.remainder, chunks) else pull n r.remainder chunks
        (.ok (result.take n), { r with src := .iter chunks again, remainder := result.drop n })

/-- `close` (T 152-156, I 118-123). -/
def Reader.close (r : Reader) : Reader :=
  if r.closed then r else { r with closed := true, srcClosed := r.srcClosed + 1 }

/-! ## In-memory files

`io.BytesIO`, used as buffer, by CPython's implementation of `read` and `seek`. -/

/-- A `BytesIO`. -/
structure File where
  content : Bytes
  pos : Nat := 0
  closed : Bool := false
  deriving DecidableEq, Repr

/-- `BytesIO.read`. -/
def File.read (f : File) (size : Int) : Except RErr Bytes × File :=
  if f.closed then (.error .valueError, f)
  else
    let out := if size < 0 then f.content.drop f.pos else (f.content.drop f.pos).take size.toNat
    (.ok out, { f with pos := f.pos + out.length })

/-- `BytesIO.seek`. -/
def File.seek (f : File) (offset : Int) (whence : Int) : Except RErr Nat × File :=
  if f.closed then (.error .valueError, f)
  else if offset < 0 ∧ whence = 0 then (.error .valueError, f)
  else if whence = 0 ∨ whence = 1 ∨ whence = 2 then
    let base : Int := if whence = 1 then f.pos else if whence = 2 then f.content.length else 0
    let pos := (base + offset).toNat
    (.ok pos, { f with pos })
  else (.error .valueError, f)

/-- `BytesIO.tell`. -/
def File.tell (f : File) : Except RErr Nat := if f.closed then .error .valueError else .ok f.pos

/-- `BytesIO.close`. -/
def File.close (f : File) : File := { f with closed := true }

/-- `BytesIO.write` with the cursor at the end. -/
def File.append (f : File) (b : Bytes) : File :=
  { f with content := f.content ++ b, pos := (f.content ++ b).length }

/-! ## Seekable reader -/

/-- `SeekableAsyncBytesReader` (T 161-291, I 126-260). A source that is an async stream is used directly,
others through an `AsyncBytesReader` (T 176-183); a reader over a stream only forwards, so both are a
`Reader` here. -/
structure Seekable where
  buffer : File
  source : Option Reader
  deriving DecidableEq, Repr

/-- `__init__` with `bytes` (T 173-175). -/
def Seekable.ofBytes (b : Bytes) : Seekable := { buffer := { content := b }, source := none }

/-- `__init__` with another source (T 176-183). -/
def Seekable.ofSource (r : Reader) : Seekable := { buffer := { content := [] }, source := some r }

/-- `_read_into_buffer` (T 242-251, I 210-219). -/
def Seekable.readIntoBuffer (s : Seekable) (size : Int) : Except RErr Unit × Seekable :=
  match s.source with
  | none => (.ok (), s)
  | some src =>
    match src.read size with
    | (.error e, src) => (.error e, { s with source := some src })
    | (.ok bytes, src) =>
      (.ok (), { buffer := s.buffer.append bytes
                 source := if (bytes.length : Int) < size ∨ size < 0 then none else some src })

/-- `read` (T 185-204, I 150-172). -/
def Seekable.read (s : Seekable) (size : Int) : Except RErr Bytes × Seekable :=
  if s.source = none ∨ size = 0 then
    let (out, buffer) := s.buffer.read size
    (out, { s with buffer })
  else
    -- with a source the buffer is open: `close` drops the source
    let start := s.buffer.pos
    let bufferSize := s.buffer.content.length
    let s1 : Seekable := { s with buffer := { s.buffer with pos := bufferSize } }
    let (res, s2) : Except RErr Unit × Seekable :=
      if size < 0 then s1.readIntoBuffer size
      else if start + size > bufferSize then s1.readIntoBuffer (start + size - bufferSize)
      else (.ok (), s1)
    match res with
    | .error e => (.error e, s2)
    | .ok () =>
      let (out, buffer) := File.read { s2.buffer with pos := start } size
      (out, { s2 with buffer })

/-- `seek` (T 206-240, I 174-208). -/
def Seekable.seek (s : Seekable) (offset : Int) (whence : Int) : Except RErr Nat × Seekable :=
  match s.source with
  | none =>
    let (out, buffer) := s.buffer.seek offset whence
    (out, { s with buffer })
  | some src =>
    if whence ≥ 2 then
      match src.read (-1) with
      | (.error e, src) => (.error e, { buffer := { s.buffer with pos := s.buffer.content.length }, source := some src })
      | (.ok bytes, src) =>
        let (out, buffer) := (s.buffer.append bytes).seek offset whence
        (out, { buffer, source := some src })
    else
      let start := s.buffer.pos
      let target := if whence = 1 then offset + start else offset
      let bufferSize := s.buffer.content.length
      let s1 : Seekable := { s with buffer := { s.buffer with pos := bufferSize } }
      let (res, s2) : Except RErr Unit × Seekable :=
        if bufferSize < target then s1.readIntoBuffer (target - bufferSize) else (.ok (), s1)
      match res with
      | .error e => (.error e, s2)
      | .ok () =>
        let (out, buffer) := s2.buffer.seek target 0
        (out, { s2 with buffer })

/-- `tell` (T 253-255). -/
def Seekable.tell (s : Seekable) : Except RErr Nat := s.buffer.tell

/-- `close` (T 287-291, I 255-260): the buffer and the source are closed and the source is dropped. The
number of closes of the source is returned for observation. -/
def Seekable.close (s : Seekable) : Seekable := { buffer := s.buffer.close, source := none }

/-! ## Iteration -/

/-- `__anext__` of `_AsyncByteStreamIterator` (T 310-314): `none` is `StopAsyncIteration`. -/
def anext {σ : Type} (read : σ → Int → Except RErr Bytes × σ) (s : σ) (chunkSize : Int) :
    Except RErr (Option Bytes) × σ :=
  match read s chunkSize with
  | (.error e, s) => (.error e, s)
  | (.ok data, s) => (.ok (if data = [] then none else some data), s)

/-- `async for chunk in reader.iter_chunks(size)`, stopped after at most `n` chunks: the chunks and
whether the iteration ended. -/
def iterate {σ : Type} (read : σ → Int → Except RErr Bytes × σ) (chunkSize : Int) :
    Nat → σ → List Bytes × Bool
  | 0, _ => ([], false)
  | n + 1, s =>
    match anext read s chunkSize with
    | (.ok (some c), s) => let (cs, fin) := iterate read chunkSize n s; (c :: cs, fin)
    | (.ok none, _) => ([], true)
    | (.error _, _) => ([], false)

/-- Any sequence of reads: the results. -/
def Reader.reads (r : Reader) : List Int → List (Except RErr Bytes) × Reader
  | [] => ([], r)
  | n :: ns =>
    let (x, r) := r.read n
    let (xs, r) := r.reads ns
    (x :: xs, r)

/-- Calls on a seekable reader or a file. -/
inductive Op
  | read (size : Int)
  | seek (offset whence : Int)
  | tell
  | close
  deriving DecidableEq, Repr

/-- What a call returns. -/
inductive Res
  | bytes (r : Except RErr Bytes)
  | pos (r : Except RErr Nat)
  | unit
  deriving DecidableEq, Repr

/-- One call on a seekable reader. -/
def Seekable.step (s : Seekable) : Op → Res × Seekable
  | .read n => let (r, s) := s.read n; (.bytes r, s)
  | .seek o w => let (r, s) := s.seek o w; (.pos r, s)
  | .tell => (.pos s.tell, s)
  | .close => (.unit, s.close)

/-- One call on a file. -/
def File.step (f : File) : Op → Res × File
  | .read n => let (r, f) := f.read n; (.bytes r, f)
  | .seek o w => let (r, f) := f.seek o w; (.pos r, f)
  | .tell => (.pos f.tell, f)
  | .close => (.unit, f.close)

/-- A sequence of calls. -/
def runOps {σ : Type} (step : σ → Op → Res × σ) (s : σ) : List Op → List Res × σ
  | [] => ([], s)
  | op :: ops =>
    let (x, s) := step s op
    let (xs, s) := runOps step s ops
    (x :: xs, s)

end Verif.Readers
