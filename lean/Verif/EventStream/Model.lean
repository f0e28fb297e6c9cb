import Verif.EventStream.Crc
import Verif.EventStream.Float64

/-!
# Model of the event-stream frame codec

All line numbers refer to
`/repo/packages/smithy-aws-event-stream/src/smithy_aws_event_stream/events.py` unless another file is
named.

Conventions.  A Python `str` is a Lean `String` (a sequence of Unicode scalar values), so strings
holding lone surrogates, on which `.encode("utf-8")` raises, are outside the model.  A source
(`BytesReader`) is the list of bytes it still holds; `read n` returns `min n remaining` bytes and a
negative `n` returns everything, as `BytesIO.read` does.
-/

set_option autoImplicit false

namespace Verif.EventStream

/-- events.py:36 -/
def maxHeadersLength : Nat := 128 * 1024
/-- events.py:37 -/
def maxHeaderValueByteLength : Nat := 32 * 1024 - 1
/-- events.py:38 -/
def maxPayloadLength : Nat := 16 * 1024 ^ 2
/-- events.py:42 -/
def messageMetadataSize : Nat := 16

/-- The exceptions the codec can raise. The first nine are `EventError`s
(exceptions.py:14-105); the others are raised by the standard library functions it calls. -/
inductive Err
  | duplicateHeader (key : String)
  | invalidHeadersLength
  | invalidHeaderValueLength
  | invalidHeaderValue
  | invalidPayloadLength
  | checksumMismatch
  | invalidIntegerValue
  | invalidEventBytes
  | structError
  | keyError
  | unicodeDecodeError
  | valueError
  deriving DecidableEq, Repr

/-- Whether the exception is an `EventError` (exceptions.py:14-105). -/
def Err.isEventError : Err → Bool
  | .structError | .keyError | .unicodeDecodeError | .valueError => false
  | _ => true

/-- `HEADER_VALUE` (events.py:99) as dispatched on by `encode_headers` (399-419): one constructor per
`case`.  `int` stands for a plain `int` that is not `Byte`, `Short` or `Long`; `timestamp` carries the
number of microseconds since the epoch of the `datetime`; `uuid` its 128-bit integer; `other` any
object of an unsupported type. -/
inductive HeaderValue
  | bool (b : Bool)
  | byte (i : Int)
  | short (i : Int)
  | int (i : Int)
  | long (i : Int)
  | blob (b : Bytes)
  | str (s : String)
  | timestamp (micros : Int)
  | uuid (v : BitVec 128)
  | other
  deriving DecidableEq, Repr

/-- `struct.pack` of an unsigned value into `n` big-endian bytes (the value is taken mod `256^n`;
callers check the range as `struct.pack` does). -/
def beBytes : Nat → Nat → Bytes
  | 0, _ => []
  | n + 1, v => beBytes n (v / 256) ++ [UInt8.ofNat v]

/-- The unsigned integer of a big-endian byte string (`struct.unpack` of `!B`, `!H`, `!I`). -/
def beNat (bs : Bytes) : Nat := bs.foldl (fun a b => a * 256 + b.toNat) 0

/-- `struct.pack` with a signed format of `n` bytes (`!b`, `!h`, `!i`, `!q`):
`none` is `struct.error` (value out of range). -/
def packSigned (n : Nat) (v : Int) : Option Bytes :=
  if -(2 : Int) ^ (8 * n - 1) ≤ v ∧ v < (2 : Int) ^ (8 * n - 1) then
    some (beBytes n (v % (2 : Int) ^ (8 * n)).toNat)
  else none

/-- `struct.unpack` with a signed format of `n` bytes applied to `data[:n]`; `none` is
`struct.error` (fewer than `n` bytes). -/
def unpackSigned (n : Nat) (data : Bytes) : Option Int :=
  if (data.take n).length = n then
    let u : Int := beNat (data.take n)
    some (if u < (2 : Int) ^ (8 * n - 1) then u else u - (2 : Int) ^ (8 * n))
  else none

/-- `struct.unpack` with an unsigned format of `n` bytes applied to `data[:n]`. -/
def unpackUnsigned (n : Nat) (data : Bytes) : Option Nat :=
  if (data.take n).length = n then some (beNat (data.take n)) else none

/-- `str.encode("utf-8")`. -/
def utf8Encode (s : String) : Bytes := s.toUTF8.data.toList

/-- `bytes.decode("utf-8")`; `none` is `UnicodeDecodeError`. -/
def utf8Decode (b : Bytes) : Option String := String.fromUTF8? ⟨b.toArray⟩

/-- events.py:535: `int(value.timestamp() * 1000)`.  `datetime.timestamp()` of a UTC
`datetime` is the correctly rounded quotient of its microseconds by `10^6`. -/
def timestampMillis (micros : Int) : Int :=
  truncRat (rnd (rnd ((micros : Rat) / 1000000) * 1000))

/-- Microseconds of `datetime.min` and `datetime.max` (UTC) relative to the epoch. -/
def minMicros : Int := -62135596800000000
/-- See `minMicros`. -/
def maxMicros : Int := 253402300799999999

/-- `datetime.fromtimestamp(value, tz=UTC)` for a float (smithy_core/utils.py:53-66
`epoch_seconds_to_datetime`): split into integer and fractional part, fraction times `1e6` rounded half
even.  Out-of-range values raise. -/
def fromTimestamp (t : Rat) : Except Err Int :=
  let ip := truncRat t
  let us := ip * 1000000 + roundHalfEven (rnd ((t - ip) * 1000000))
  if minMicros ≤ us ∧ us ≤ maxMicros then .ok us else .error .valueError

/-! ## Header encoder (371-547) -/

/-- `EventHeaderEncoder` state (374-376). -/
structure HEnc where
  buffer : Bytes := []
  keys : List String := []
  deriving DecidableEq, Repr

/-- `clear` (378-381). -/
def HEnc.clear (_ : HEnc) : HEnc := {}

/-- `get_result` (383-388). -/
def HEnc.getResult (e : HEnc) : Except Err Bytes :=
  if maxHeadersLength < e.buffer.length then .error .invalidHeadersLength else .ok e.buffer

/-- Result of an encode call: the state it leaves behind and the exception raised, if any. (The
Python methods mutate the encoder before they raise.) -/
abbrev EncR := HEnc × Option Err

/-- `self._buffer.write`. -/
def HEnc.write (e : HEnc) (b : Bytes) : HEnc := { e with buffer := e.buffer ++ b }

/-- `_encode_key` (421-428); `pack("B", n)` raises `struct.error` for `n > 255`. -/
def HEnc.encodeKey (e : HEnc) (key : String) : EncR :=
  if key ∈ e.keys then (e, some (.duplicateHeader key))
  else
    let e := { e with keys := key :: e.keys }
    let k := utf8Encode key
    if 255 < k.length then (e, some .structError)
    else ((e.write (beBytes 1 k.length)).write k, none)

/-- Sequencing: run `f` on the state unless an exception was raised. -/
def EncR.andThen (r : EncR) (f : HEnc → EncR) : EncR :=
  match r with
  | (e, none) => f e
  | (e, some x) => (e, some x)

/-- The common shape of `encode_byte`, `encode_short`, `encode_integer`, `encode_long` (442-492):
key, type byte, then the packed integer; `struct.error` becomes `InvalidIntegerValue`. -/
def HEnc.encodeInt (e : HEnc) (key : String) (ty : UInt8) (n : Nat) (v : Int) : EncR :=
  (e.encodeKey key).andThen fun e =>
    let e := e.write [ty]
    match packSigned n v with
    | some b => (e.write b, none)
    | none => (e, some .invalidIntegerValue)

/-- The common shape of `encode_blob` (494-508) and `encode_string` (510-526). -/
def HEnc.encodeBytes (e : HEnc) (key : String) (ty : UInt8) (v : Bytes) : EncR :=
  if maxHeaderValueByteLength < v.length then (e, some .invalidHeaderValueLength)
  else
    (e.encodeKey key).andThen fun e =>
      (((e.write [ty]).write (beBytes 2 v.length)).write v, none)

/-- One iteration of `encode_headers` (398-419), with the individual `encode_*` methods (430-547)
inlined. -/
def HEnc.encodeHeader (e : HEnc) (key : String) (value : HeaderValue) : EncR :=
  match value with
  | .bool b => (e.encodeKey key).andThen fun e => (e.write [if b then 0 else 1], none)
  | .byte i => e.encodeInt key 2 1 i
  | .short i => e.encodeInt key 3 2 i
  | .long i => e.encodeInt key 5 8 i
  | .int i => e.encodeInt key 4 4 i
  | .blob b => e.encodeBytes key 6 b
  | .str s => e.encodeBytes key 7 (utf8Encode s)
  | .timestamp micros =>
    (e.encodeKey key).andThen fun e =>
      let millis := timestampMillis micros
      let e := e.write [8]
      match packSigned 8 millis with
      | some b => (e.write b, none)
      | none => (e, some .structError)
  | .uuid v => (e.encodeKey key).andThen fun e => ((e.write [9]).write (beBytes 16 v.toNat), none)
  | .other => (e, some .invalidHeaderValue)

/-- `encode_headers` (390-419) over the items of a mapping. -/
def HEnc.encodeHeaders (e : HEnc) : List (String × HeaderValue) → EncR
  | [] => (e, none)
  | (k, v) :: rest => (e.encodeHeader k v).andThen fun e => e.encodeHeaders rest

/-! ## Messages and frames -/

/-- `EventMessage` (150-205). A Python `dict` of headers is the list of its items in insertion
order (keys of a `dict` are distinct). -/
structure EventMessage where
  headers : List (String × HeaderValue) := []
  payload : Bytes := []
  deriving DecidableEq, Repr

/-- `EventMessage.__post_init__` (201-205). -/
def EventMessage.mk? (headers : List (String × HeaderValue)) (payload : Bytes) :
    Except Err EventMessage :=
  if maxPayloadLength < payload.length then .error .invalidPayloadLength
  else .ok { headers, payload }

/-- `_get_headers_bytes` (207-210). -/
def EventMessage.headersBytes (m : EventMessage) : Except Err Bytes :=
  match ({} : HEnc).encodeHeaders m.headers with
  | (_, some x) => .error x
  | (e, none) => e.getResult

/-- `_EventEncoder.encode_bytes` (340-368). -/
def encodeFrame (headers payload : Bytes) : Except Err Bytes :=
  if maxHeadersLength < headers.length then .error .invalidHeadersLength
  else if maxPayloadLength < payload.length then .error .invalidPayloadLength
  else
    let totalLength := headers.length + payload.length + messageMetadataSize
    let preludeBytes := beBytes 4 totalLength ++ beBytes 4 headers.length
    let preludeCrc := crc32 preludeBytes
    let preludeCrcBytes := beBytes 4 preludeCrc.toNat
    let messageBytes := preludeCrcBytes ++ headers ++ payload
    let finalCrc := crc32 messageBytes preludeCrc
    .ok (preludeBytes ++ messageBytes ++ beBytes 4 finalCrc.toNat)

/-- `EventMessage.encode` (212-215). -/
def EventMessage.encode (m : EventMessage) : Except Err Bytes :=
  match m.headersBytes with
  | .error x => .error x
  | .ok h => encodeFrame h m.payload

/-! ## Header decoder (556-781) -/

/-- `unpack_byte_array` (640-662): value and number of bytes consumed. -/
def unpackByteArray (n : Nat) (data : Bytes) : Except Err (Bytes × Nat) :=
  match unpackUnsigned n data with
  | none => .error .structError
  | some length =>
    if maxHeaderValueByteLength < length then .error .invalidHeaderValueLength
    else .ok ((data.drop n).take length, length + n)

/-- `unpack_utf8_string` (664-682). -/
def unpackUtf8 (n : Nat) (data : Bytes) : Except Err (String × Nat) :=
  match unpackByteArray n data with
  | .error x => .error x
  | .ok (b, consumed) =>
    match utf8Decode b with
    | some s => .ok (s, consumed)
    | none => .error .unicodeDecodeError

/-- An integer unpacker (600-638) returning the value and the bytes consumed. -/
def unpackInt (n : Nat) (mk : Int → HeaderValue) (data : Bytes) : Except Err (HeaderValue × Nat) :=
  match unpackSigned n data with
  | some v => .ok (mk v, n)
  | none => .error .structError

/-- `_HEADER_TYPE_MAP[type](data)` (713-730) with the unpackers it names (684-705). `int_value / 1000`
is the correctly rounded quotient. -/
def unpackValue (ty : Nat) (data : Bytes) : Except Err (HeaderValue × Nat) :=
  match ty with
  | 0 => .ok (.bool true, 0)
  | 1 => .ok (.bool false, 0)
  | 2 => unpackInt 1 .byte data
  | 3 => unpackInt 2 .short data
  | 4 => unpackInt 4 .int data
  | 5 => unpackInt 8 .long data
  | 6 =>
    match unpackByteArray 2 data with
    | .ok (b, c) => .ok (.blob b, c)
    | .error x => .error x
  | 7 =>
    match unpackUtf8 2 data with
    | .ok (s, c) => .ok (.str s, c)
    | .error x => .error x
  | 8 =>
    match unpackSigned 8 data with
    | none => .error .structError
    | some v =>
      match fromTimestamp (rnd ((v : Rat) / 1000)) with
      | .ok us => .ok (.timestamp us, 8)
      | .error x => .error x
  | 9 =>
    if (data.take 16).length = 16 then .ok (.uuid (BitVec.ofNat 128 (beNat (data.take 16))), 16)
    else .error .valueError
  | _ => .error .keyError

/-- `decode_header` (756-770) with `_advance_data` (772-773): the pair and the remaining data. -/
def decodeHeader (data : Bytes) : Except Err ((String × HeaderValue) × Bytes) :=
  match unpackUtf8 1 data with
  | .error x => .error x
  | .ok (key, c1) =>
    let data := data.drop c1
    match unpackUnsigned 1 data with
    | none => .error .structError
    | some ty =>
      let data := data.drop 1
      match unpackValue ty data with
      | .error x => .error x
      | .ok (v, c2) => .ok ((key, v), data.drop c2)

theorem decodeHeader_shorter {data rest : Bytes} {kv} (h : decodeHeader data = .ok (kv, rest)) :
    rest.length < data.length := by
  unfold decodeHeader at h
  split at h
  · cases h
  · rename_i key c1 hk
    dsimp only at h
    split at h
    · cases h
    · rename_i ty hty
      split at h
      · cases h
      · cases h
        have : 0 < data.length := by
          unfold unpackUnsigned at hty
          split at hty
          · rename_i hl
            simp only [List.length_take, List.length_drop] at hl
            omega
          · cases hty
        have h1 : 1 ≤ c1 := by
          unfold unpackUtf8 unpackByteArray at hk
          grind
        simp only [List.length_drop]
        omega

/-- The loop of `decode_headers` (744-754) through `__next__` (778-781). `acc` is the dict built so
far. -/
def decodeHeadersLoop (acc : List (String × HeaderValue)) (data : Bytes) :
    Except Err (List (String × HeaderValue)) :=
  if data.length = 0 then .ok acc
  else
    match h : decodeHeader data with
    | .error x => .error x
    | .ok ((k, v), rest) =>
      have := decodeHeader_shorter h
      if k ∈ acc.map Prod.fst then .error (.duplicateHeader k)
      else decodeHeadersLoop (acc ++ [(k, v)]) rest
termination_by data.length

/-- `EventHeaderDecoder(header_bytes).decode_headers()` (732-754). -/
def decodeHeaders (data : Bytes) : Except Err (List (String × HeaderValue)) :=
  if maxHeadersLength < data.length then .error .invalidHeadersLength
  else decodeHeadersLoop [] data

/-! ## Frame decoder (229-334) -/

/-- `EventPrelude` (107-139). -/
structure EventPrelude where
  totalLength : Nat
  headersLength : Nat
  crc : BitVec 32
  deriving DecidableEq, Repr

/-- `Event` (229-244). -/
structure Event where
  prelude : EventPrelude
  message : EventMessage
  crc : BitVec 32
  deriving DecidableEq, Repr

/-- `source.read(n)`: the bytes returned and what the source still holds. -/
def readSrc (src : Bytes) (n : Int) : Bytes × Bytes :=
  if n < 0 then (src, []) else (src.take n.toNat, src.drop n.toNat)

/-- `_validate_checksum` (784-789): whether it passes. -/
def checksumOk (data : Bytes) (checksum : Nat) (init : BitVec 32 := 0#32) : Bool :=
  checksum == (crc32 data init).toNat

/-- `Event.decode` (246-289); `decode_async` (291-334) is the same code with `await`.  Returns the
outcome and what the source still holds afterwards. -/
def Event.decode (src : Bytes) : Except Err (Option Event) × Bytes :=
  let (preludeBytes, src) := readSrc src 8
  if preludeBytes = [] then (.ok none, src)
  else
    let (preludeCrcBytes, src) := readSrc src 4
    match unpackUnsigned 4 preludeCrcBytes with
    | none => (.error .invalidEventBytes, src)
    | some preludeCrc =>
      -- unpack("!II", prelude_bytes) requires exactly 8 bytes
      if preludeBytes.length ≠ 8 then (.error .invalidEventBytes, src)
      else
        let totalLength := beNat (preludeBytes.take 4)
        let headersLength := beNat (preludeBytes.drop 4)
        if !checksumOk preludeBytes preludeCrc then (.error .checksumMismatch, src)
        else if maxHeadersLength < headersLength then (.error .invalidHeadersLength, src)
        else if (maxPayloadLength : Int) < (totalLength : Int) - headersLength - 16 then
          (.error .invalidPayloadLength, src)
        else
          let (messageBytes, src) := readSrc src ((totalLength : Int) - messageMetadataSize)
          let (crcBytes, src) := readSrc src 4
          match unpackUnsigned 4 crcBytes with
          | none => (.error .invalidEventBytes, src)
          | some crc =>
            if !checksumOk (preludeCrcBytes ++ messageBytes) crc (BitVec.ofNat 32 preludeCrc) then
              (.error .checksumMismatch, src)
            else
              match decodeHeaders (messageBytes.take headersLength) with
              | .error x => (.error x, src)
              | .ok hs =>
                match EventMessage.mk? hs (messageBytes.drop headersLength) with
                | .error x => (.error x, src)
                | .ok m =>
                  (.ok (some
                    { prelude := { totalLength, headersLength, crc := BitVec.ofNat 32 preludeCrc },
                      message := m, crc := BitVec.ofNat 32 crc }), src)

theorem readSrc_shorter (src : Bytes) (n : Int) : (readSrc src n).2.length ≤ src.length := by
  unfold readSrc
  split
  · simp
  · simp only [List.length_drop]
    omega

theorem decode_some_shorter {src rest : Bytes} {e : Event}
    (h : Event.decode src = (.ok (some e), rest)) : rest.length < src.length := by
  unfold Event.decode at h
  have h0 : (readSrc src 8).1 ≠ [] → (readSrc src 8).2.length < src.length := by
    unfold readSrc
    simp only [show ¬((8 : Int) < 0) by omega, if_false]
    cases src with
    | nil => simp
    | cons a l =>
      simp only [List.length_drop, List.length_cons]
      intro _
      have : (8 : Int).toNat = 8 := rfl
      omega
  have h1 := readSrc_shorter (readSrc src 8).2 4
  have h2 := fun n => readSrc_shorter (readSrc (readSrc src 8).2 4).2 n
  have h3 := fun n => readSrc_shorter (readSrc (readSrc (readSrc src 8).2 4).2 n).2 4
  grind (splits := 30)

/-- Decode events until end of stream or the first error (what a caller looping over
`Event.decode` sees): the events and how the stream ended. -/
def decodeAll (src : Bytes) : List Event × Except Err Unit :=
  match h : Event.decode src with
  | (.error x, _) => ([], .error x)
  | (.ok none, _) => ([], .ok ())
  | (.ok (some e), rest) =>
    have := decode_some_shorter h
    let (es, fin) := decodeAll rest
    (e :: es, fin)
termination_by src.length

end Verif.EventStream
