import Verif.EventStream.StreamLemmas

/-!
# Properties of the event-stream codec (C01–C08, C61, C62)

`IsFrame`, `WireHeaders`, `Representable`, `ReadHeaders`, `DiffersOnlyIn` are in `Spec.lean`.
-/

set_option autoImplicit false

namespace Verif.EventStream
open Spec

/-- A message used as a non-trivial instance below. -/
def sample : EventMessage :=
  { headers := [("a", .bool true), ("n", .short (-2)), (":t", .timestamp 1700000000000000),
      ("s", .str "hé")], payload := [1, 2, 3] }

/-- **C01.** Decoding a source that starts with an encoded message returns that message and leaves
the source right after the frame (timestamps on whole seconds, see C02). -/
theorem C01_frame_round_trip (m : EventMessage) (f rest : Bytes) (he : m.encode = .ok f)
    (hw : ∀ x ∈ m.headers, WholeSecond x.2) :
    ∃ e, Event.decode (f ++ rest) = (.ok (some e), rest) ∧
      e.message.headers = m.headers ∧ e.message.payload = m.payload := by
  obtain ⟨e, h1, h2⟩ := decode_encode_whole rest he hw
  exact ⟨e, h1, by rw [h2], by rw [h2]⟩

/-- **C01**, headers with arbitrary timestamps: everything but the timestamps is preserved, and a
frame that decodes has the same header names in the same order. -/
theorem C01_frame_round_trip_names (m : EventMessage) (f rest : Bytes) (he : m.encode = .ok f)
    (g : HeaderValue → HeaderValue) (hg : ∀ x ∈ m.headers, readBack x.2 = .ok (g x.2)) :
    ∃ e, Event.decode (f ++ rest) = (.ok (some e), rest) ∧ e.message.payload = m.payload ∧
      e.message.headers.map Prod.fst = m.headers.map Prod.fst ∧
      ∀ i (h : i < m.headers.length), (∀ us, m.headers[i].2 ≠ .timestamp us) →
        e.message.headers[i]? = some m.headers[i] := by
  obtain ⟨e, h1, h2⟩ := decode_encode rest g he hg
  refine ⟨e, h1, by rw [h2], by rw [h2]; simp, ?_⟩
  intro i hi hns
  rw [h2]
  simp only [List.getElem?_map, List.getElem?_eq_getElem hi, Option.map_some, Option.some.injEq]
  have := hg _ (List.getElem_mem hi)
  match hv : m.headers[i], hns with
  | (k, .timestamp us), hns => exact absurd rfl (hns us)
  | (k, .bool _), _ | (k, .byte _), _ | (k, .short _), _ | (k, .int _), _ | (k, .long _), _
  | (k, .blob _), _ | (k, .str _), _ | (k, .uuid _), _ | (k, .other), _ =>
    rw [hv] at this
    simp only [readBack, Except.ok.injEq] at this
    simp only [← this]

theorem sample_encodes : ∃ f, sample.encode = .ok f := by
  have h : (match sample.encode with | .ok _ => true | .error _ => false) = true := by decide +kernel
  split at h
  · exact ⟨_, by assumption⟩
  · cases h

theorem sample_whole : ∀ x ∈ sample.headers, WholeSecond x.2 := by
  intro x hx
  simp only [sample, List.mem_cons, List.not_mem_nil, or_false] at hx
  rcases hx with rfl | rfl | rfl | rfl <;> simp [WholeSecond, minMicros, maxMicros]

example : (∃ f, sample.encode = .ok f) ∧ ∀ x ∈ sample.headers, WholeSecond x.2 :=
  ⟨sample_encodes, sample_whole⟩

/-- **C02** is false of the code: the timestamp 1.001 s is put on the wire as 1000 ms. -/
theorem C02_timestamp_fails : ∃ us : Int, us % 1000 = 0 ∧ -62135596800000000 ≤ us ∧ us ≤ 253402300799999999 ∧
    timestampMillis us ≠ us / 1000 ∧ readBack (.timestamp us) ≠ .ok (.timestamp us) := by
  refine ⟨1001000, ?_⟩
  decide +kernel

/-- **C02**, proved part: a timestamp on a whole second is written as its milliseconds and is read
back unchanged.  Missing: fractional seconds (false, see `C02_timestamp_fails`). -/
theorem C02_timestamp_partial (us : Int) (h : us % 1000000 = 0) (h1 : -62135596800000000 ≤ us)
    (h2 : us ≤ 253402300799999999) :
    timestampMillis us = us / 1000 ∧ readBack (.timestamp us) = .ok (.timestamp us) := by
  refine ⟨?_, by simp only [readBack, readBack_whole h h1 h2]⟩
  obtain ⟨s, rfl⟩ : ∃ s, us = s * 1000000 := ⟨us / 1000000, by omega⟩
  rw [timestamp_whole (by omega)]
  omega

example : (1700000000000000 : Int) % 1000000 = 0 ∧ -62135596800000000 ≤ 1700000000000000 := by decide

/-- **C03.** An event is delivered only for a frame whose declared length is its length, whose bytes
8–11 are the CRC-32 of the first 8 and whose last 4 are the CRC-32 of all the bytes before them. -/
theorem C03_checksum_gate (src rest : Bytes) (e : Event)
    (h : Event.decode src = (.ok (some e), rest)) :
    ∃ frame, src = frame ++ rest ∧ 16 ≤ frame.length ∧ IsBE 4 frame.length (frame.take 4) ∧
      IsBE 4 (crc32 (frame.take 8)).toNat ((frame.drop 8).take 4) ∧
      IsBE 4 (crc32 (frame.take (frame.length - 4))).toNat (frame.drop (frame.length - 4)) := by
  obtain ⟨pre, c, msg, d, hsrc, hpre, hc, hd, hlen, -⟩ := decode_some h
  refine ⟨pre ++ c ++ msg ++ d, hsrc, ?_, ?_, ?_, ?_⟩
  · simp only [List.length_append, hpre, hc.1, hd.1]; omega
  · rw [hlen]
    have : (pre ++ c ++ msg ++ d).take 4 = pre.take 4 := by
      simp only [List.append_assoc]
      exact List.take_append_of_le_length (by omega)
    rw [this]
    exact ⟨by simp; omega, rfl⟩
  · simp only [List.append_assoc]
    rw [List.take_left' hpre, List.drop_left' hpre, List.take_left' hc.1]
    exact hc
  · have : (pre ++ c ++ msg ++ d).length - 4 = (pre ++ c ++ msg).length := by
      simp only [List.length_append, hd.1]; omega
    rw [this, List.take_left' rfl, List.drop_left' rfl]
    exact hd

/-- **C03**, the converse reading: with a wrong prelude checksum or a wrong message checksum nothing
is delivered. -/
theorem C03_bad_checksum_rejected (pre c msg d rest : Bytes) (hpre : pre.length = 8)
    (hc : c.length = 4) (hd : d.length = 4) (hlen : beNat (pre.take 4) = msg.length + 16)
    (hbad : beNat c ≠ (crc32 pre).toNat ∨ beNat d ≠ (crc32 (pre ++ c ++ msg)).toNat) :
    ∃ x r, Event.decode (pre ++ c ++ msg ++ d ++ rest) = (.error x, r) := by
  match hdec : Event.decode (pre ++ c ++ msg ++ d ++ rest) with
  | (.error x, r) => exact ⟨x, r, rfl⟩
  | (.ok none, r) =>
    have := congrArg List.length (decode_none hdec)
    simp only [List.length_append, List.length_nil] at this
    omega
  | (.ok (some e), r) =>
    exfalso
    obtain ⟨pre', c', msg', d', hsrc, hpre', hc', hd', hlen', -⟩ := decode_some hdec
    simp only [List.append_assoc] at hsrc
    obtain ⟨rfl, h1⟩ := List.append_inj hsrc (by omega)
    obtain ⟨rfl, h2⟩ := List.append_inj h1 (by have := hc'.1; omega)
    rw [hlen] at hlen'
    simp only [List.length_append, hpre, hc, hd'.1] at hlen'
    obtain ⟨rfl, h3⟩ := List.append_inj h2 (by omega)
    obtain ⟨rfl, _⟩ := List.append_inj h3 (by have := hd'.1; omega)
    rcases hbad with h | h
    · exact h hc'.2
    · exact h hd'.2

example : (Event.decode [0, 0, 0, 16, 0, 0, 0, 0, 5, 194, 72, 235, 125, 152, 200, 255]).1 ≠ .ok none ∧
    (Event.decode [0, 0, 0, 16, 0, 0, 0, 0, 5, 194, 72, 235, 125, 152, 200, 254]).1
      = .error .checksumMismatch := by decide +kernel

/-- **C04.** Altering an encoded frame in any way confined to three consecutive bytes, or to four
consecutive bytes that do not reach from checksummed bytes into their checksum, makes decoding fail,
whatever follows. -/
theorem C04_corruption_detected (m : EventMessage) (f g rest : Bytes) (i n : Nat)
    (he : m.encode = .ok f) (hd : DiffersOnlyIn i n f g) (hne : g ≠ f)
    (hn : n ≤ 3 ∨ n ≤ 4 ∧ (i + n ≤ 8 ∨ 8 ≤ i) ∧ (i + n + 4 ≤ f.length ∨ f.length ≤ i + 4)) :
    ∃ x r, Event.decode (g ++ rest) = (.error x, r) := by
  obtain ⟨h, _, hf, _⟩ := encode_ok he
  exact decode_corrupt hf hd hne hn

example : DiffersOnlyIn 1 3 [0, 1, 2, 3, 4] [0, 7, 2, 8, 4] := by
  refine ⟨rfl, fun j hj => ?_⟩
  rcases hj with h | h
  · match j, h with
    | 0, _ => rfl
  · match j, h with
    | 4, _ => rfl
    | n + 5, _ => rfl

/-- The restriction in C04 is needed: a change of four consecutive bytes, the last two of the payload
and the first two of the checksum, that goes unnoticed.  (The usual guarantee of CRC-32 for bursts of
32 bits does not hold because the checksum is stored in big-endian order.) -/
theorem C04_four_byte_straddle_fails : ∃ (m m' : EventMessage) (f g : Bytes), m.encode = .ok f ∧
    DiffersOnlyIn 12 4 f g ∧ m' ≠ m ∧ (decodeAll g).1.map Event.message = [m'] := by
  refine ⟨{ payload := [0, 0] }, { payload := [97, 216] },
    [0, 0, 0, 18, 0, 0, 0, 0, 127, 2, 27, 139, 0, 0, 205, 237, 204, 70],
    [0, 0, 0, 18, 0, 0, 0, 0, 127, 2, 27, 139, 97, 216, 57, 3, 204, 70], by decide +kernel, ?_,
    by decide, ?_⟩
  · refine ⟨rfl, fun j hj => ?_⟩
    by_cases hj2 : j < 18
    · have key : ∀ j : Fin 18, (j.val < 12 ∨ 16 ≤ j.val) →
          ([0, 0, 0, 18, 0, 0, 0, 0, 127, 2, 27, 139, 0, 0, 205, 237, 204, 70] : Bytes)[j.val]? =
          ([0, 0, 0, 18, 0, 0, 0, 0, 127, 2, 27, 139, 97, 216, 57, 3, 204, 70] : Bytes)[j.val]? := by
        decide
      exact key ⟨j, hj2⟩ hj
    · rw [List.getElem?_eq_none (by simp; omega), List.getElem?_eq_none (by simp; omega)]
  · have h : (EventMessage.encode { payload := [97, 216] }) =
      .ok [0, 0, 0, 18, 0, 0, 0, 0, 127, 2, 27, 139, 97, 216, 57, 3, 204, 70] := by decide +kernel
    obtain ⟨e, h1, h2⟩ := decode_encode_whole [] h (by simp)
    rw [List.append_nil] at h1
    rw [decodeAll_some h1, decodeAll_nil]
    simp [h2]

/-- **C05.** Decoding a concatenation of encoded messages gives exactly these messages and then
end-of-stream. -/
theorem C05_stream (ms : List EventMessage) (fs : List Bytes)
    (henc : ms.map EventMessage.encode = fs.map Except.ok)
    (hw : ∀ m ∈ ms, ∀ x ∈ m.headers, WholeSecond x.2) :
    (decodeAll fs.flatten).1.map Event.message = ms ∧ (decodeAll fs.flatten).2 = .ok () := by
  have hlen : ms.length = fs.length := by simpa using congrArg List.length henc
  obtain ⟨k, hk, h1, h2, h3⟩ := decodeAll_cut henc hw fs.flatten.length (Nat.le_refl _)
  rw [List.take_length] at h1 h3
  split at h3
  · rename_i heq
    by_cases hkl : k = ms.length
    · subst hkl
      exact ⟨by rw [h1, List.take_length], h3⟩
    · -- a frame is never empty, so all of them were read
      exfalso
      have hkf : k < fs.length := by omega
      have hsplit : fs.flatten = (fs.take k).flatten ++ (fs.drop k).flatten := by
        rw [← List.flatten_append, List.take_append_drop]
      rw [hsplit, List.length_append] at heq
      have hz : (fs.drop k).flatten.length = 0 := by omega
      rw [List.drop_eq_getElem_cons hkf, List.flatten_cons, List.length_append] at hz
      have hm : (ms[k]'(by omega)).encode = .ok fs[k] := by
        have := congrArg (fun l => l[k]?) henc
        simpa [List.getElem?_map, List.getElem?_eq_getElem hkf,
          List.getElem?_eq_getElem (show k < ms.length by omega)] using this
      obtain ⟨_, _, hf, _⟩ := encode_ok hm
      have := isFrame_length hf
      omega
  · rename_i hne
    exfalso
    have : (fs.take (k + 1)).flatten.length ≤ fs.flatten.length := by
      conv => rhs; rw [← List.take_append_drop (k + 1) fs, List.flatten_append, List.length_append]
      omega
    omega

/-- **C05**, cut at any point `n`: the events delivered are the first `k` messages, where `k` counts
the frames that lie entirely before the cut; the stream ends normally if the cut is on the boundary
and with an error otherwise. -/
theorem C05_cut_stream (ms : List EventMessage) (fs : List Bytes)
    (henc : ms.map EventMessage.encode = fs.map Except.ok)
    (hw : ∀ m ∈ ms, ∀ x ∈ m.headers, WholeSecond x.2) (n : Nat) (hn : n ≤ fs.flatten.length) :
    ∃ k, k ≤ ms.length ∧ (decodeAll (fs.flatten.take n)).1.map Event.message = ms.take k ∧
      (fs.take k).flatten.length ≤ n ∧
      if n = (fs.take k).flatten.length then (decodeAll (fs.flatten.take n)).2 = .ok ()
      else n < (fs.take (k + 1)).flatten.length ∧
        ∃ x, (decodeAll (fs.flatten.take n)).2 = .error x :=
  decodeAll_cut henc hw n hn

example : ∃ fs : List Bytes, [sample, sample].map EventMessage.encode = fs.map Except.ok := by
  obtain ⟨f, hf⟩ := sample_encodes
  exact ⟨[f, f], by simp [hf]⟩

/-- **C06.** Encoding succeeds exactly if the names are distinct, every header is representable and
the header block and payload are within their limits ... -/
theorem C06_encode_succeeds_iff (m : EventMessage) :
    (∃ f, m.encode = .ok f) ↔
      (m.headers.map Prod.fst).Nodup ∧ (∀ x ∈ m.headers, Representable x) ∧
      (∃ h, WireHeaders m.headers h ∧ h.length ≤ 131072) ∧ m.payload.length ≤ 16777216 := by
  constructor
  · rintro ⟨f, hf⟩
    obtain ⟨h, hw, _, hnd, h1, h2⟩ := encode_ok hf
    refine ⟨hnd, ?_, ⟨h, hw, h1⟩, h2⟩
    unfold EventMessage.encode EventMessage.headersBytes at hf
    split at hf
    · cases hf
    · rename_i hh
      split at hh
      · cases hh
      · rename_i e' he'
        exact ((encodeHeaders_isNone_iff _ _).1 ⟨e', he'⟩).2.2
  · rintro ⟨hnd, hrep, ⟨h, hw, hl⟩, hp⟩
    obtain ⟨e', he'⟩ := (encodeHeaders_isNone_iff {} m.headers).2 ⟨hnd, by simp, hrep⟩
    obtain ⟨_, _, _, b, hb, hbuf⟩ := encodeHeaders_none he'
    have hbh : b = h := wireHeaders_unique hb hw
    simp only [List.nil_append] at hbuf
    obtain ⟨f, hf⟩ := (encodeFrame_isOk_iff h m.payload).2 ⟨hl, hp⟩
    refine ⟨f, ?_⟩
    unfold EventMessage.encode EventMessage.headersBytes
    rw [he']
    simp only [HEnc.getResult, hbuf, hbh]
    rw [if_neg (by simp only [maxHeadersLength]; omega)]
    exact hf

/-- **C06**, receiving: an event is delivered only if header block and payload are within the limits. -/
theorem C06_decoded_limits (src rest : Bytes) (e : Event) (h : Event.decode src = (.ok (some e), rest)) :
    e.prelude.headersLength ≤ 131072 ∧ e.message.payload.length ≤ 16777216 := by
  obtain ⟨pre, c, msg, d, _, _, _, _, _, h1, h2, _, _, hp, _⟩ := decode_some h
  rw [hp]
  exact ⟨h1, h2⟩

/-- **C06**, a message can be made exactly if its payload is within the limit. -/
theorem C06_message_iff (headers : List (String × HeaderValue)) (payload : Bytes) :
    (∃ m, EventMessage.mk? headers payload = .ok m) ↔ payload.length ≤ 16777216 := by
  have hmax : maxPayloadLength = 16777216 := by decide +kernel
  unfold EventMessage.mk?
  rw [hmax]
  by_cases hp : 16777216 < payload.length
  · rw [if_pos hp]
    exact ⟨fun ⟨m, hm⟩ => (by cases hm), fun h => absurd hp (by omega)⟩
  · rw [if_neg hp]
    exact ⟨fun _ => by omega, fun _ => ⟨_, rfl⟩⟩

/-- **C06**, receiving: a frame that declares more than the limits is refused before anything behind its prelude is read. -/
theorem C06_refused_unread (t l c rest : Bytes) (total hlen : Nat) (ht : IsBE 4 total t) (hl : IsBE 4 hlen l)
    (hc : IsBE 4 (crc32 (t ++ l)).toNat c) (hbig : 131072 < hlen ∨ 16777216 + hlen + 16 < total) :
    Event.decode (t ++ l ++ c ++ rest) = (.error .invalidHeadersLength, rest) ∨
    Event.decode (t ++ l ++ c ++ rest) = (.error .invalidPayloadLength, rest) := by
  unfold Event.decode
  rw [show t ++ l ++ c ++ rest = (t ++ l) ++ (c ++ rest) by simp, readSrc_append (by simp [ht.1, hl.1])]
  have hlen8 : (t ++ l).length = 8 := by simp [ht.1, hl.1]
  have ne : t ++ l ≠ [] := by
    intro hh
    rw [hh] at hlen8
    simp at hlen8
  simp only [ne, if_false]
  rw [readSrc_append (by simp [hc.1])]
  have hc' : unpackUnsigned 4 c = some (crc32 (t ++ l)).toNat := by
    have := unpackUnsigned_append [] hc; simpa using this
  simp only [hc', hlen8, ne_eq, not_true_eq_false, if_false]
  have htake : (t ++ l).take 4 = t := List.take_left' ht.1
  have hdrop : (t ++ l).drop 4 = l := List.drop_left' ht.1
  simp only [htake, hdrop, ht.2, hl.2, checksumOk, beq_self_eq_true, Bool.not_true, Bool.false_eq_true, if_false]
  have m1 : maxHeadersLength = 131072 := by decide +kernel
  have m2 : maxPayloadLength = 16777216 := by decide +kernel
  rw [m1, m2]
  by_cases h1 : 131072 < hlen
  · rw [if_pos h1]
    exact .inl rfl
  · rw [if_neg h1, if_pos (by omega)]
    exact .inr rfl

/-- A prelude that declares a header block of 131073 bytes. -/
example : Event.decode ([0, 2, 0, 17] ++ [0, 2, 0, 1] ++ beBytes 4 (crc32 [0, 2, 0, 17, 0, 2, 0, 1]).toNat ++ [1, 2, 3]) =
    (.error .invalidHeadersLength, [1, 2, 3]) := by decide +kernel

/-- ... and what it produces is the frame the format prescribes: in particular its first four bytes
are its length and the next four the length of the header block. -/
theorem C06_encoded_frame (m : EventMessage) (f : Bytes) (he : m.encode = .ok f) :
    ∃ h, WireHeaders m.headers h ∧ IsFrame h m.payload f ∧ f.length = h.length + m.payload.length + 16 ∧
      IsBE 4 f.length (f.take 4) ∧ IsBE 4 h.length ((f.drop 4).take 4) := by
  obtain ⟨h, hw, hf, _⟩ := encode_ok he
  refine ⟨h, hw, hf, isFrame_length hf, ?_⟩
  obtain ⟨t, l, c, d, hfe, ht, hl, _⟩ := hf
  have h1 : f.take 4 = t := by
    rw [hfe]; simp only [List.append_assoc]; exact List.take_left' ht.1
  have h2 : (f.drop 4).take 4 = l := by
    rw [hfe]; simp only [List.append_assoc]; rw [List.drop_left' ht.1, List.take_left' hl.1]
  rw [h1, h2]
  exact ⟨ht, hl⟩

example : (∃ f, sample.encode = .ok f) ∧
    ¬ (∃ f, EventMessage.encode { headers := [("n", .byte 128)] } = .ok f) := by
  constructor
  · exact sample_encodes
  · rintro ⟨f, hf⟩
    have : EventMessage.encode { headers := [("n", .byte 128)] } = .error .invalidIntegerValue := by
      decide +kernel
    rw [this] at hf
    cases hf

/-! ### C07: the encoder as a state machine -/

/-- A call on a header encoder. -/
inductive EncOp
  | clear
  | encode (k : String) (v : HeaderValue)

/-- Run calls on an encoder, catching exceptions, and record the headers written by calls that
returned normally since the last `clear`. -/
def runEnc : HEnc → List (String × HeaderValue) → List EncOp → HEnc × List (String × HeaderValue)
  | e, log, [] => (e, log)
  | e, _, .clear :: ops => runEnc e.clear [] ops
  | e, log, .encode k v :: ops =>
    match e.encodeHeader k v with
    | (e', none) => runEnc e' (log ++ [(k, v)]) ops
    | (e', some _) => runEnc e' log ops

theorem encodeHeader_keys (e : HEnc) (k : String) (v : HeaderValue) :
    ∀ x ∈ e.keys, x ∈ (e.encodeHeader k v).1.keys := by
  have hk : ∀ x ∈ e.keys, x ∈ (e.encodeKey k).1.keys := by
    intro x hx
    unfold HEnc.encodeKey
    split
    · exact hx
    · dsimp only
      split <;> simp [HEnc.write, hx]
  intro x hx
  have := hk x hx
  generalize hr : e.encodeKey k = r at this
  obtain ⟨e1, o⟩ := r
  cases v <;> simp only [HEnc.encodeHeader, HEnc.encodeInt, HEnc.encodeBytes] <;>
    (try split) <;> (try simp only [hr, EncR.andThen]) <;> (try cases o) <;> (try dsimp only) <;>
    (try split) <;> (first | exact this | exact hx)

/-- **C07**, encoder: over any history of calls, including failing ones, no name is written twice
between two `clear`s. -/
theorem C07_encoder_no_duplicates (ops : List EncOp) :
    ((runEnc {} [] ops).2.map Prod.fst).Nodup := by
  suffices H : ∀ (ops : List EncOp) (e : HEnc) (log : List (String × HeaderValue)),
      (log.map Prod.fst).Nodup → (∀ x ∈ log.map Prod.fst, x ∈ e.keys) →
      ((runEnc e log ops).2.map Prod.fst).Nodup from H ops {} [] (by simp) (by simp)
  intro ops
  induction ops with
  | nil => intro e log h _; exact h
  | cons op ops ih =>
    intro e log hnd hin
    cases op with
    | clear => exact ih _ _ (by simp) (by simp)
    | encode k v =>
      rw [runEnc]
      have hmono := encodeHeader_keys e k v
      split
      · rename_i e' he'
        obtain ⟨h1, h2, _⟩ := encodeHeader_none he'
        rw [he'] at hmono
        apply ih
        · rw [List.map_append, List.nodup_append]
          refine ⟨hnd, by simp, ?_⟩
          intro a ha b hb
          simp at hb
          subst hb
          intro heq
          subst heq
          exact h1 (hin _ ha)
        · intro x hx
          rw [List.map_append, List.mem_append] at hx
          rcases hx with hx | hx
          · exact hmono x (hin x hx)
          · simp at hx
            subst hx
            rw [h2]
            simp
      · rename_i e' _ he'
        rw [he'] at hmono
        exact ih _ _ hnd (fun x hx => hmono x (hin x hx))

/-- **C07**, on the wire: the headers of an encoded message have distinct names. -/
theorem C07_encoded_message_no_duplicates (m : EventMessage) (f : Bytes) (he : m.encode = .ok f) :
    (m.headers.map Prod.fst).Nodup := by
  obtain ⟨_, _, _, h, _⟩ := encode_ok he
  exact h

/-- **C07**, decoder: the headers of a decoded event have distinct names. -/
theorem C07_decoder_no_duplicates (src rest : Bytes) (e : Event)
    (h : Event.decode src = (.ok (some e), rest)) : (e.message.headers.map Prod.fst).Nodup := by
  obtain ⟨pre, c, msg, d, _, _, _, _, _, _, _, _, hh, _⟩ := decode_some h
  unfold decodeHeaders at hh
  split at hh
  · cases hh
  · exact (decodeHeadersLoop_ok hh (by simp)).1

/-- A duplicate is refused by the decoder, on a block that repeats a header. -/
example : decodeHeaders [1, 97, 0, 1, 97, 1] = .error (.duplicateHeader "a") ∧
    (runEnc {} [] [.encode "a" (.bool true), .encode "a" (.byte 1), .clear, .encode "a" (.byte 1)]).2
      = [("a", .byte 1)] := by
  constructor
  · unfold decodeHeaders
    rw [if_neg (by decide), decodeHeadersLoop, if_neg (by decide)]
    have h1 : decodeHeader [1, 97, 0, 1, 97, 1] = .ok (("a", .bool true), [1, 97, 1]) := by
      decide +kernel
    have h2 : decodeHeader [1, 97, 1] = .ok (("a", .bool false), []) := by decide +kernel
    split
    · rename_i h; rw [h1] at h; cases h
    · rename_i h
      rw [h1] at h
      cases h
      rw [if_neg (by simp), decodeHeadersLoop, if_neg (by decide)]
      split
      · rename_i h; rw [h2] at h; cases h
      · rename_i h
        rw [h2] at h
        cases h
        simp
  · decide +kernel

/-! ### C08 -/

/-- **C08** is false of the code: a string header that declares 5 bytes of which only 2 are there is
read as a 2-byte string. -/
theorem C08_truncated_value_fails :
    decodeHeader [1, 97, 7, 0, 5, 104, 105] = .ok (("a", .str "hi"), []) := by
  decide +kernel

/-- **C08**, proved part: when the decoder returns headers, the block is the concatenation of the
encodings of these headers, except that a blob or string at the very end may be shorter than it
declares.  (A timestamp is described by the milliseconds read.)  Missing: the exception. -/
theorem C08_accounts_for_every_byte_partial (b : Bytes) (hs : List (String × HeaderValue))
    (h : decodeHeaders b = .ok hs) : ReadHeaders hs b := by
  unfold decodeHeaders at h
  split at h
  · cases h
  · obtain ⟨_, hs', h1, h2⟩ := decodeHeadersLoop_ok h (by simp)
    simp only [List.nil_append] at h1
    rw [h1]
    exact h2

theorem readHeaders_exact {hs : List (String × HeaderValue)} {b : Bytes} (h : ReadHeaders hs b)
    (hl : ∀ k v, hs.getLast? = some (k, v) → (∀ x, v ≠ .blob x) ∧ ∀ x, v ≠ .str x) :
    ExactHeaders hs b := by
  induction h with
  | nil => exact .nil
  | @cons h hs b bs h1 h2 ih =>
    refine .cons h1 (ih ?_)
    intro k v hk
    cases hs with
    | nil => cases hk
    | cons x xs => exact hl k v (by simpa using hk)
  | @short k v l b h1 h2 =>
    obtain ⟨n1, n2⟩ := hl k v rfl
    cases v with
    | blob x => exact absurd rfl (n1 x)
    | str x => exact absurd rfl (n2 x)
    | _ => cases h2

/-- **C08**, proved part: if the last header returned is neither a blob nor a string, every byte is
accounted for. -/
theorem C08_exact_partial (b : Bytes) (hs : List (String × HeaderValue)) (h : decodeHeaders b = .ok hs)
    (hl : ∀ k v, hs.getLast? = some (k, v) → (∀ x, v ≠ .blob x) ∧ ∀ x, v ≠ .str x) :
    ExactHeaders hs b :=
  readHeaders_exact (C08_accounts_for_every_byte_partial b hs h) hl

example : ReadHeaders [("a", .str "hi")] [1, 97, 7, 0, 5, 104, 105] := by
  refine .short (l := [1]) (b := [7, 0, 5, 104, 105])
    ⟨by decide +kernel, by decide +kernel⟩ ?_
  exact ⟨[0, 5], 5, by decide +kernel, ⟨by decide +kernel, by decide +kernel⟩, by decide +kernel⟩

/-! ### C61, C62: two further expectations the code does not meet -/

/-- **C61** is false of the code: a frame of 16 bytes, which has no room for headers, declares 5
bytes of headers and is decoded. -/
theorem C61_declared_headers_length_fails : ∃ (src rest : Bytes) (e : Event),
    Event.decode src = (.ok (some e), rest) ∧
      e.prelude.totalLength < e.prelude.headersLength + 16 := by
  have h : (match Event.decode [0, 0, 0, 16, 0, 0, 0, 5, 117, 168, 188, 100, 150, 208, 19, 237] with
      | (.ok (some e), _) => decide (e.prelude.totalLength < e.prelude.headersLength + 16)
      | _ => false) = true := by decide +kernel
  split at h
  · rename_i e rest heq
    exact ⟨_, rest, e, heq, of_decide_eq_true h⟩
  · cases h

/-- **C61**, proved part: the total length declared is always the number of bytes consumed, and the
payload delivered is what follows the declared header block in the frame; if the declared header length
does fit, the two parts add up to the frame. -/
theorem C61_declared_lengths_partial (src rest : Bytes) (e : Event)
    (h : Event.decode src = (.ok (some e), rest)) :
    src.length = e.prelude.totalLength + rest.length ∧
    (e.prelude.headersLength + 16 ≤ e.prelude.totalLength →
      e.prelude.headersLength + e.message.payload.length + 16 = e.prelude.totalLength) ∧
    (e.prelude.totalLength < e.prelude.headersLength + 16 → e.message.payload = []) := by
  obtain ⟨pre, c, msg, d, hsrc, hpre, hc, hd, hlen, _, _, hp, _, hpl, _⟩ := decode_some h
  rw [hpl]
  dsimp only
  have hl : msg.length + 16 = beNat (pre.take 4) := by
    rw [← hlen]; simp only [List.length_append, hpre, hc.1, hd.1]; omega
  refine ⟨?_, ?_, ?_⟩
  · rw [hsrc, List.length_append, hlen]
  · intro hle
    rw [hp, List.length_drop]
    omega
  · intro hlt
    rw [hp]
    exact List.drop_eq_nil_of_le (by omega)

/-- **C62** is false of the code: a header that cannot be encoded leaves its name and type byte in
the encoder's output. -/
theorem C62_failed_header_leaves_output_fails : ∃ (k : String) (v : HeaderValue) (e : HEnc) (x : Err),
    ({} : HEnc).encodeHeader k v = (e, some x) ∧ e.getResult ≠ ({} : HEnc).getResult := by
  refine ⟨"n", .byte 128, ⟨[1, 110, 2], ["n"]⟩, .invalidIntegerValue, ?_⟩
  decide +kernel

/-- **C62**, proved part: the failures detected before the name is written (a duplicate name, an
over-long blob or string, an unsupported value) leave the output as it was. -/
theorem C62_failed_header_partial (e e' : HEnc) (k : String) (v : HeaderValue) (x : Err)
    (h : e.encodeHeader k v = (e', some x))
    (hx : (∃ k', x = .duplicateHeader k') ∨ x = .invalidHeaderValueLength ∨ x = .invalidHeaderValue) :
    e' = e := by
  have hkey : ∀ (f : HEnc → EncR), (∀ e1 e2, f e1 ≠ (e2, some x)) →
      (e.encodeKey k).andThen f = (e', some x) → e' = e := by
    intro f hf hh
    unfold HEnc.encodeKey at hh
    split at hh
    · simp only [EncR.andThen, Prod.mk.injEq] at hh; exact hh.1.symm
    · dsimp only at hh
      split at hh
      · simp only [EncR.andThen, Prod.mk.injEq, Option.some.injEq] at hh
        rw [← hh.2] at hx; simp at hx
      · exact absurd hh (hf _ _)
  have hint : ∀ ty n i, e.encodeInt k ty n i = (e', some x) → e' = e := by
    intro ty n i hh
    refine hkey _ ?_ hh
    intro e1 e2 hc
    dsimp only at hc
    split at hc
    · cases hc
    · cases hc; simp at hx
  have hbytes : ∀ ty b, e.encodeBytes k ty b = (e', some x) → e' = e := by
    intro ty b hh
    unfold HEnc.encodeBytes at hh
    split at hh
    · cases hh; rfl
    · exact hkey _ (by intro e1 e2 hc; cases hc) hh
  cases v with
  | bool b => exact hkey _ (by intro e1 e2 hc; cases hc) h
  | byte i => exact hint _ _ _ h
  | short i => exact hint _ _ _ h
  | int i => exact hint _ _ _ h
  | long i => exact hint _ _ _ h
  | blob b => exact hbytes _ _ h
  | str s => exact hbytes _ _ h
  | timestamp us =>
    refine hkey _ ?_ h
    intro e1 e2 hc
    dsimp only at hc
    split at hc
    · cases hc
    · cases hc; simp at hx
  | uuid u => exact hkey _ (by intro e1 e2 hc; cases hc) h
  | other => cases h; rfl

example : ∃ e', (HEnc.encodeHeader ⟨[1, 97, 0], ["a"]⟩ "a" (.bool true)) =
    (e', some (.duplicateHeader "a")) := ⟨_, rfl⟩

end Verif.EventStream
