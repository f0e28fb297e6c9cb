import Verif.EventStream.Model

/-!
# The `application/vnd.amazon.eventstream` wire format

A small specification, independent of the encoder and decoder: which headers can be put on the
wire, and which bytes stand for them.
-/

set_option autoImplicit false

namespace Verif.EventStream.Spec

/-- The bytes `bs` are the big-endian representation of `v` in `n` bytes. -/
def IsBE (n : Nat) (v : Nat) (bs : Bytes) : Prop := bs.length = n ∧ beNat bs = v

/-- `v` fits a signed integer of `n` bytes. -/
def Fits (n : Nat) (v : Int) : Prop := -(2 : Int) ^ (8 * n - 1) ≤ v ∧ v < (2 : Int) ^ (8 * n - 1)

/-- `v` fits an `n`-byte signed integer and `bs` is its big-endian two's complement. -/
def IsSignedBE (n : Nat) (v : Int) (bs : Bytes) : Prop :=
  Fits n v ∧ IsBE n (if 0 ≤ v then v.toNat else (v + 2 ^ (8 * n)).toNat) bs

/-- `bs` is the type byte and value of a header holding `v`. -/
def WireValue : HeaderValue → Bytes → Prop
  | .bool true, bs => bs = [0]
  | .bool false, bs => bs = [1]
  | .byte i, bs => ∃ t, bs = 2 :: t ∧ IsSignedBE 1 i t
  | .short i, bs => ∃ t, bs = 3 :: t ∧ IsSignedBE 2 i t
  | .int i, bs => ∃ t, bs = 4 :: t ∧ IsSignedBE 4 i t
  | .long i, bs => ∃ t, bs = 5 :: t ∧ IsSignedBE 8 i t
  | .blob b, bs => ∃ l, bs = 6 :: l ++ b ∧ b.length ≤ 32767 ∧ IsBE 2 b.length l
  | .str s, bs => ∃ l, bs = 7 :: l ++ utf8Encode s ∧ (utf8Encode s).length ≤ 32767 ∧
      IsBE 2 (utf8Encode s).length l
  | .timestamp us, bs => ∃ t, bs = 8 :: t ∧ IsSignedBE 8 (timestampMillis us) t
  | .uuid v, bs => ∃ t, bs = 9 :: t ∧ IsBE 16 v.toNat t
  | .other, _ => False

/-- `bs` is a whole header: one length byte, the name, then the value. -/
def WireHeader (h : String × HeaderValue) (bs : Bytes) : Prop :=
  ∃ l v, bs = l ++ utf8Encode h.1 ++ v ∧ IsBE 1 (utf8Encode h.1).length l ∧ WireValue h.2 v

/-- `bs` is a header block holding exactly the given headers in this order. -/
inductive WireHeaders : List (String × HeaderValue) → Bytes → Prop
  | nil : WireHeaders [] []
  | cons {h hs b bs} : WireHeader h b → WireHeaders hs bs → WireHeaders (h :: hs) (b ++ bs)

/-- A header the format can represent. -/
def Representable : String × HeaderValue → Prop
  | (k, v) => (utf8Encode k).length ≤ 255 ∧
    match v with
    | .bool _ => True
    | .byte i => Fits 1 i
    | .short i => Fits 2 i
    | .int i => Fits 4 i
    | .long i => Fits 8 i
    | .blob b => b.length ≤ 32767
    | .str s => (utf8Encode s).length ≤ 32767
    | .timestamp us => Fits 8 (timestampMillis us)
    | .uuid _ => True
    | .other => False

/-- A timestamp header on a whole second that a `datetime` can hold; other values unrestricted. -/
def WholeSecond : HeaderValue → Prop
  | .timestamp us => us % 1000000 = 0 ∧ -62135596800000000 ≤ us ∧ us ≤ 253402300799999999
  | _ => True

/-- `f` is a frame with header block `h` and payload `p`: two lengths, the checksum of these, header
block and payload, and the checksum of everything before it. -/
def IsFrame (h p f : Bytes) : Prop :=
  ∃ t l c d, f = t ++ l ++ c ++ h ++ p ++ d ∧
    IsBE 4 f.length t ∧ IsBE 4 h.length l ∧
    IsBE 4 (crc32 (t ++ l)).toNat c ∧ IsBE 4 (crc32 (t ++ l ++ c ++ h ++ p)).toNat d

/-- `bs` is the type byte and value bytes from which `v` was read.  As `WireValue`, except that a
timestamp is described by the milliseconds on the wire. -/
def ReadValue : HeaderValue → Bytes → Prop
  | .timestamp us, bs => ∃ ms t, bs = 8 :: t ∧ IsSignedBE 8 ms t ∧
      fromTimestamp (rnd ((ms : Rat) / 1000)) = .ok us
  | v, bs => WireValue v bs

/-- `bs` is a whole header from which `h` was read. -/
def ReadHeader (h : String × HeaderValue) (bs : Bytes) : Prop :=
  ∃ l v, bs = l ++ utf8Encode h.1 ++ v ∧ IsBE 1 (utf8Encode h.1).length l ∧ ReadValue h.2 v

/-- `bs` is a blob or string value whose declared length is larger than what follows. -/
def ShortValue : HeaderValue → Bytes → Prop
  | .blob b, bs => ∃ l n, bs = 6 :: l ++ b ∧ IsBE 2 n l ∧ b.length < n
  | .str s, bs => ∃ l n, bs = 7 :: l ++ utf8Encode s ∧ IsBE 2 n l ∧ (utf8Encode s).length < n
  | _, _ => False

/-- A header block in which the last header may hold a blob or string that was cut short. -/
inductive ReadHeaders : List (String × HeaderValue) → Bytes → Prop
  | nil : ReadHeaders [] []
  | cons {h hs b bs} : ReadHeader h b → ReadHeaders hs bs → ReadHeaders (h :: hs) (b ++ bs)
  | short {k v l b} : IsBE 1 (utf8Encode k).length l → ShortValue v b →
      ReadHeaders [(k, v)] (l ++ utf8Encode k ++ b)

/-- A header block of which every byte is accounted for. -/
inductive ExactHeaders : List (String × HeaderValue) → Bytes → Prop
  | nil : ExactHeaders [] []
  | cons {h hs b bs} : ReadHeader h b → ExactHeaders hs bs → ExactHeaders (h :: hs) (b ++ bs)

/-- Byte strings of the same length that agree at every position outside `[i, i + n)`. -/
def DiffersOnlyIn (i n : Nat) (f g : Bytes) : Prop :=
  f.length = g.length ∧ ∀ j, j < i ∨ i + n ≤ j → f[j]? = g[j]?

end Verif.EventStream.Spec
