import Verif.Readers.Props

/-!
# Bodies of requests and responses (C87)

Models `read_streaming_blob_async` and `read_streaming_blob` (smithy_core/aio/utils.py:20-53), which
`consume_body_async` and `consume_body` of requests and responses call (smithy_http/aio/__init__.py:47-53,
smithy_http/aio/interfaces/__init__.py:29-35, 57-63), and what the transports make of a body: `_create_body_generator`
and `_create_body_stream` of the CRT client (smithy_http/aio/crt.py:317-364), `_prepare_body` of the aiohttp client
(smithy_http/aio/aiohttp.py:93-100, 114-125), and the chunks of a CRT response (crt.py:100-106).

Bodies that raise are not modelled.
-/

set_option autoImplicit false

namespace Verif.Transport
open Verif.EventStream (Bytes)
open Verif.Readers

/-! ## Model -/

/-- `StreamingBlob` (smithy_core/aio/interfaces/__init__.py:37-39).  `reader` has a `read` method, `asyncReader` one that is
a coroutine function; both may return less than they are asked for (`limit`).  `asyncIter` is an async iterable without
`read`, `wrapped` an `AsyncBytesReader`, which has both. -/
inductive Body where
  | bytes (b : Bytes)
  | bytearray (b : Bytes)
  | reader (rest : Bytes) (limit : Option Nat)
  | asyncReader (rest : Bytes) (limit : Option Nat)
  | asyncIter (chunks : List Bytes)
  | wrapped (r : Reader)

/-- Exceptions. -/
inductive BErr where
  /-- `TypeError`: `await` of something else than an awaitable -/
  | notAwaitable
  /-- `AsyncBodyError` -/
  | asyncBody
  | reader (e : RErr)
  deriving DecidableEq, Repr

/-- What a function that promises `bytes` may return. -/
inductive Data where
  | bytes (b : Bytes)
  /-- a coroutine that nobody awaits -/
  | coroutine
  deriving DecidableEq, Repr

/-- `read_streaming_blob_async` (smithy_core/aio/utils.py:20-35).  The first case takes everything that has an attribute
`read`: the protocol is checked by names only (smithy_core/aio/interfaces/__init__.py:23-27). -/
def readAsync : Body → Except BErr Bytes
  | .reader _ _ => .error .notAwaitable
  | .asyncReader rest _ => .ok rest
  | .wrapped r => match (r.read (-1)).1 with
    | .ok b => .ok b
    | .error e => .error (.reader e)
  | .asyncIter chunks => .ok chunks.flatten
  | .bytes b => .ok b
  | .bytearray b => .ok b

/-- `read_streaming_blob` (smithy_core/aio/utils.py:38-53); here, too, everything with `read` is taken for a reader. -/
def readSync : Body → Except BErr Data
  | .bytes b => .ok (.bytes b)
  | .bytearray b => .ok (.bytes b)
  | .reader rest _ => .ok (.bytes rest)
  | .asyncReader _ _ => .ok .coroutine
  | .wrapped _ => .ok .coroutine
  | .asyncIter _ => .error .asyncBody

/-- `AsyncBytesReader(body)` (smithy_core/aio/types.py:28-49). -/
def wrap : Body → Reader
  | .bytes b => { src := .stream b none }
  | .bytearray b => { src := .stream b none }
  | .reader rest limit => { src := .stream rest limit }
  | .asyncReader rest limit => { src := .stream rest limit }
  | .asyncIter chunks => { src := .iter chunks none }
  | .wrapped r => r

/-- `_create_body_generator` (crt.py:326-364), stopped after at most `n` chunks: the chunks and whether it ended.
`size` is the configured buffer size; 1024 is `_DEFAULT_CHUNK_SIZE` (types.py:16). -/
def generate (size : Int) (n : Nat) : Body → List Bytes × Bool
  | .bytes b => ([b], true)
  | .bytearray b => ([b], true)
  | .asyncIter chunks => (chunks, true)
  | .wrapped r => iterate Reader.read 1024 n r
  | .asyncReader rest limit => iterate Reader.read size n { src := .stream rest limit }
  | .reader rest limit => iterate Reader.read 1024 n (wrap (.reader rest limit))

/-- `_create_body_stream` (crt.py:317-324): what a reader of the body stream gets; `none` if there is none. -/
def bodyStream : Body → Except BErr (Option Bytes)
  | .reader rest _ => .ok (some rest)
  | b => match readAsync b with
    | .error e => .error e
    | .ok buffered => .ok (if buffered = [] then none else some buffered)

/-- The chunks of a CRT response (crt.py:100-106): up to the first empty one. -/
def responseChunks : List Bytes → List Bytes
  | [] => []
  | c :: cs => if c = [] then [] else c :: responseChunks cs

/-- `_prepare_body` of the aiohttp client (aiohttp.py:114-125) for a body that can seek: whether a body is given to
aiohttp at all, and the body afterwards.  `none` is an exception. -/
def prepare (f : File) : Option (Bool × File) :=
  match f.seek 0 1 with
  | (.ok position, f) =>
    match f.seek 0 2 with
    | (.ok last, f) =>
      match f.seek position 0 with
      | (.ok _, f) => some (position ≠ last, f)
      | _ => none
    | _ => none
  | _ => none

/-! ## Specification -/

/-- The bytes of a body. -/
def Body.content : Body → Bytes
  | .bytes b => b
  | .bytearray b => b
  | .reader rest _ => rest
  | .asyncReader rest _ => rest
  | .asyncIter chunks => chunks.flatten
  | .wrapped r => Spec.remaining r

/-- Bodies that can be read: a reader gives something while there is something, and an `AsyncBytesReader` is open and
reads from such a reader or from an iterator. -/
def Body.Ok : Body → Prop
  | .reader _ limit => limit ≠ some 0
  | .asyncReader _ limit => limit ≠ some 0
  | .wrapped r => r.closed = false ∧ Spec.OneShot r ∧
      ∀ rest limit, r.src = .stream rest limit → limit ≠ some 0 ∧ r.remainder = []
  | _ => True

/-! ## Lemmas -/

/-- Reading until nothing comes reads a stream completely, however little comes at a time. -/
theorem iterate_stream (k : Nat) (limit : Option Nat) (hl : limit ≠ some 0) (n : Nat) (r : Reader) (rest : Bytes)
    (hr : r.src = .stream rest limit) (hc : r.closed = false) (hn : rest.length < n) :
    ∃ cs, iterate Reader.read (k + 1 : Nat) n r = (cs, true) ∧ cs.flatten = rest ∧ ∀ c ∈ cs, c ≠ [] := by
  induction n generalizing r rest with
  | zero => omega
  | succ n ih =>
    obtain ⟨m, hm0, hm⟩ : ∃ m : Nat, 0 < m ∧
        r.read (k + 1 : Nat) = (.ok (rest.take m), { r with src := .stream (rest.drop m) limit }) := by
      have hneg : ¬ ((k + 1 : Nat) : Int) < 0 := by omega
      cases limit with
      | none => exact ⟨k + 1, by omega, by simp only [Reader.read, hc, hr, if_neg hneg]; rfl⟩
      | some l =>
        refine ⟨min (k + 1) l, ?_, by simp only [Reader.read, hc, hr, if_neg hneg]; rfl⟩
        have : l ≠ 0 := fun h => hl (by rw [h])
        omega
    simp only [iterate, anext, hm]
    by_cases he : rest = []
    · subst he
      exact ⟨[], by simp, rfl, by simp⟩
    · have hne : rest.take m ≠ [] := by
        cases rest with
        | nil => exact absurd rfl he
        | cons a l => cases m with
          | zero => omega
          | succ m => simp
      have hpos := List.length_pos_iff.2 he
      obtain ⟨cs, h1, h2, h3⟩ := ih { r with src := .stream (rest.drop m) limit } (rest.drop m) rfl hc
        (by rw [List.length_drop]; omega)
      refine ⟨rest.take m :: cs, ?_, by rw [List.flatten_cons, h2, List.take_append_drop], ?_⟩
      · simp only [if_neg hne, h1]
      · intro c hc
        rcases List.mem_cons.1 hc with rfl | hc
        · exact hne
        · exact h3 c hc

theorem iterate_reader (k : Nat) (r : Reader) (h : (Body.wrapped r).Ok) (n : Nat)
    (hn : (Spec.remaining r).length < n) :
    ∃ cs, iterate Reader.read (k + 1 : Nat) n r = (cs, true) ∧ cs.flatten = Spec.remaining r ∧ ∀ c ∈ cs, c ≠ [] := by
  obtain ⟨hc, ho, hs⟩ := h
  cases hsrc : r.src with
  | stream rest limit =>
    obtain ⟨h1, h2⟩ := hs rest limit hsrc
    have : Spec.remaining r = rest := by rw [Spec.remaining, h2, hsrc]; rfl
    rw [this] at hn ⊢
    exact iterate_stream k limit h1 n r rest hsrc hc hn
  | iter chunks again =>
    have hg : Spec.Good r := ⟨ho, by rw [Spec.FullReads, hsrc]; simp, by rw [hsrc]; simp⟩
    obtain ⟨cs, h1, h2, h3⟩ := C16_chunks_concatenate_partial hg hc k
    exact ⟨cs, h1 n hn, h2, fun c hc => (h3 c hc).1⟩

/-! ## Theorems -/

/-- **C87 (partial).**  Consuming a body asynchronously gives its content.  Missing: readers whose `read` is no
coroutine function, such as files, see `C87_reader_fails`. -/
theorem C87_async_partial (b : Body) (hb : b.Ok) (hr : ∀ rest limit, b ≠ .reader rest limit) :
    readAsync b = .ok b.content := by
  cases b with
  | bytes b => rfl
  | bytearray b => rfl
  | reader rest limit => exact absurd rfl (hr rest limit)
  | asyncReader rest limit => rfl
  | asyncIter chunks => rfl
  | wrapped r =>
    obtain ⟨hc, ho, hs⟩ := hb
    simp only [readAsync, Reader.read, hc]
    cases hsrc : r.src with
    | stream rest limit =>
      simp only [Body.content, Spec.remaining, (hs rest limit hsrc).2, hsrc, Spec.Src.content]
      rfl
    | iter chunks again =>
      cases again with
      | none => simp only [Body.content, Spec.remaining, hsrc, Spec.Src.content, aiter]; rfl
      | some fresh => exact absurd hsrc (ho chunks fresh)

/-- **C87 (negative).**  A body that is a file (or any other object with a plain `read`) cannot be consumed
asynchronously: an exception is raised after it was read. -/
theorem C87_reader_fails (rest : Bytes) (limit : Option Nat) :
    readAsync (.reader rest limit) = .error .notAwaitable ∧ readSync (.reader rest limit) = .ok (.bytes rest) :=
  ⟨rfl, rfl⟩

/-- **C87 (partial).**  Consuming a body synchronously gives its content if it is synchronous, and is refused if it is an
async iterable.  Missing: readers whose `read` is a coroutine function, see `C87_coroutine_fails`. -/
theorem C87_sync_partial (b : Body) :
    (∀ x, b = .bytes x ∨ b = .bytearray x ∨ (∃ limit, b = .reader x limit) → readSync b = .ok (.bytes b.content)) ∧
    (∀ chunks, b = .asyncIter chunks → readSync b = .error .asyncBody) := by
  refine ⟨?_, ?_⟩
  · rintro x (rfl | rfl | ⟨limit, rfl⟩) <;> rfl
  · rintro chunks rfl; rfl

/-- **C87 (negative).**  Consuming an asynchronous reader synchronously is not refused: it returns a coroutine instead of
bytes. -/
theorem C87_coroutine_fails (rest : Bytes) (limit : Option Nat) (r : Reader) :
    readSync (.asyncReader rest limit) = .ok .coroutine ∧ readSync (.wrapped r) = .ok .coroutine := ⟨rfl, rfl⟩

/-- **C87 (partial).**  What the CRT client sends over HTTP/2 is the content of the body, in chunks, and it ends.
Missing: a configured buffer size that is not positive, see `C87_buffer_size_fails`. -/
theorem C87_http2_partial (b : Body) (hb : b.Ok) (size : Nat) (hs : 0 < size) (n : Nat) (hn : b.content.length < n) :
    ∃ cs, generate size n b = (cs, true) ∧ cs.flatten = b.content := by
  obtain ⟨k, rfl⟩ : ∃ k, size = k + 1 := ⟨size - 1, by omega⟩
  cases b with
  | bytes b => exact ⟨[b], rfl, by simp [Body.content]⟩
  | bytearray b => exact ⟨[b], rfl, by simp [Body.content]⟩
  | asyncIter chunks => exact ⟨chunks, rfl, rfl⟩
  | reader rest limit =>
    obtain ⟨cs, h1, h2, _⟩ := iterate_stream 1023 limit hb n (wrap (.reader rest limit)) rest rfl rfl hn
    exact ⟨cs, h1, h2⟩
  | asyncReader rest limit =>
    obtain ⟨cs, h1, h2, _⟩ := iterate_stream k limit hb n { src := .stream rest limit } rest rfl rfl hn
    exact ⟨cs, h1, h2⟩
  | wrapped r =>
    obtain ⟨cs, h1, h2, _⟩ := iterate_reader 1023 r hb n hn
    exact ⟨cs, h1, h2⟩

/-- **C87 (negative).**  With a buffer size of zero, which nothing refuses, an asynchronous reader is sent as an empty
body. -/
theorem C87_buffer_size_fails (rest : Bytes) (limit : Option Nat) (n : Nat) :
    generate 0 (n + 1) (.asyncReader rest limit) = ([], true) := by
  cases limit <;> simp [generate, iterate, anext, Reader.read]

/-- **C87.**  What the CRT client sends over HTTP/1.1 is the content of the body; no body is given only if there is
nothing in it. -/
theorem C87_http1 (b : Body) (hb : b.Ok) :
    ∃ s, bodyStream b = .ok s ∧ s.getD [] = b.content := by
  by_cases hr : ∃ rest limit, b = .reader rest limit
  · obtain ⟨rest, limit, rfl⟩ := hr
    exact ⟨some rest, rfl, rfl⟩
  · have h := C87_async_partial b hb (fun rest limit h => hr ⟨rest, limit, h⟩)
    have : bodyStream b = match readAsync b with
      | .error e => .error e
      | .ok buffered => .ok (if buffered = [] then none else some buffered) := by
      cases b with
      | reader rest limit => exact absurd ⟨rest, limit, rfl⟩ hr
      | _ => rfl
    rw [this, h]
    refine ⟨_, rfl, ?_⟩
    split
    · rename_i h; exact h.symm
    · rfl

/-- **C87.**  What the aiohttp client iterates over is the content of the body. -/
theorem C87_aiohttp (b : Body) (hb : b.Ok) (n : Nat) (hn : b.content.length < n) :
    ∃ cs, iterate Reader.read 1024 n (wrap b) = (cs, true) ∧ cs.flatten = b.content ∧ ∀ c ∈ cs, c ≠ [] := by
  cases b with
  | bytes b => exact iterate_stream 1023 none (by simp) n _ b rfl rfl hn
  | bytearray b => exact iterate_stream 1023 none (by simp) n _ b rfl rfl hn
  | reader rest limit => exact iterate_stream 1023 limit hb n _ rest rfl rfl hn
  | asyncReader rest limit => exact iterate_stream 1023 limit hb n _ rest rfl rfl hn
  | asyncIter chunks =>
    refine iterate_reader 1023 { src := .iter chunks none } ⟨rfl, ?_, ?_⟩ n hn
    · intro cs fresh h; cases h
    · intro rest limit h; cases h
  | wrapped r => exact iterate_reader 1023 r hb n hn

/-- **C87.**  Looking whether there is anything in a body that can seek leaves it where it was, and no body is left out
unless nothing is left to read. -/
theorem C87_prepared (f : File) (hf : f.closed = false) :
    ∃ given, prepare f = some (given, f) ∧ (given = false → f.content.drop f.pos = []) ∧
      (f.pos < f.content.length → given = true) := by
  refine ⟨f.pos ≠ f.content.length, ?_, ?_, ?_⟩
  · obtain ⟨content, pos, closed⟩ := f
    have : ¬ (pos : Int) < 0 := by omega
    simp only at hf
    simp [prepare, File.seek, hf, this]
  · intro h
    simp only [ne_eq, decide_not, Bool.not_eq_false', decide_eq_true_eq] at h
    rw [h, List.drop_length]
  · intro h
    simp only [ne_eq, decide_not, Bool.not_eq_true', decide_eq_false_iff_not]
    omega

/-- **C87.**  The body of a CRT response is all that the connection delivers before the first empty chunk, which stands
for the end. -/
theorem C87_response (cs : List Bytes) (h : ∀ c ∈ cs, c ≠ []) (rest : List Bytes) :
    responseChunks (cs ++ [] :: rest) = cs := by
  induction cs with
  | nil => simp [responseChunks]
  | cons c cs ih =>
    rw [List.cons_append, responseChunks, if_neg (h c (by simp)), ih (fun c hc => h c (by simp [hc]))]

/-! ## The hypotheses are met -/

/-- A reader that gives two bytes at a time, and an `AsyncBytesReader` with a remainder. -/
example : (Body.asyncReader [1, 2, 3] (some 2)).Ok ∧
    (Body.wrapped { src := .iter [[4], [], [5, 6]] none, remainder := [3] }).Ok := by
  refine ⟨by simp [Body.Ok], rfl, ?_, ?_⟩
  · intro cs fresh h; cases h
  · intro rest limit h; cases h

example : generate 8192 9 (.asyncReader [1, 2, 3] (some 2)) = ([[1, 2], [3]], true) := by decide +kernel

example : prepare { content := [1, 2, 3], pos := 3 } = some (false, { content := [1, 2, 3], pos := 3 }) := by
  decide +kernel

end Verif.Transport
