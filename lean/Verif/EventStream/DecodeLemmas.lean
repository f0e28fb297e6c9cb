import Verif.EventStream.Lemmas

/-! Inversion of the frame and header decoders. -/

set_option autoImplicit false

namespace Verif.EventStream
open Spec

/-- Everything known about a source from which an event was decoded. -/
theorem decode_some {src rest : Bytes} {e : Event}
    (h : Event.decode src = (.ok (some e), rest)) :
    ∃ pre c msg d, src = pre ++ c ++ msg ++ d ++ rest ∧ pre.length = 8 ∧
      IsBE 4 (crc32 pre).toNat c ∧ IsBE 4 (crc32 (pre ++ c ++ msg)).toNat d ∧
      (pre ++ c ++ msg ++ d).length = beNat (pre.take 4) ∧
      beNat (pre.drop 4) ≤ 131072 ∧
      e.message.payload.length ≤ 16777216 ∧
      e.message.payload = msg.drop (beNat (pre.drop 4)) ∧
      decodeHeaders (msg.take (beNat (pre.drop 4))) = .ok e.message.headers ∧
      e.prelude = ⟨beNat (pre.take 4), beNat (pre.drop 4), crc32 pre⟩ ∧
      e.crc = crc32 (pre ++ c ++ msg) := by
  unfold Event.decode at h
  have r8 : readSrc src 8 = (src.take 8, src.drop 8) := by simp [readSrc]
  have r4 : ∀ s, readSrc s 4 = (s.take 4, s.drop 4) := by intro s; simp [readSrc]
  rw [r8] at h
  simp only [r4] at h
  split at h
  · cases h
  rename_i hne
  split at h
  · cases h
  rename_i pc hpc
  split at h
  · cases h
  rename_i hlen
  split at h
  · cases h
  rename_i hck1
  split at h
  · cases h
  rename_i hhl
  split at h
  · cases h
  rename_i hpl
  split at h
  · cases h
  rename_i crc hcrc
  split at h
  · cases h
  rename_i hck2
  split at h
  · cases h
  rename_i hs hhs
  split at h
  · cases h
  rename_i m hm
  cases h
  simp only [ne_eq, Decidable.not_not] at hlen
  generalize hpre : src.take 8 = pre at *
  have hsrc1 : src = pre ++ src.drop 8 := by rw [← hpre, List.take_append_drop]
  generalize src.drop 8 = s1 at *
  obtain ⟨hc, hs1⟩ := unpackUnsigned_some hpc
  rw [List.take_take, Nat.min_self] at hc
  generalize hcc : s1.take 4 = c at *
  have hsrc2 : s1 = c ++ s1.drop 4 := by rw [← hcc, List.take_append_drop]
  generalize s1.drop 4 = s2 at *
  simp only [checksumOk, Bool.not_eq_true', beq_eq_false_iff_ne, ne_eq, Decidable.not_not] at hck1 hck2
  have hpc' : BitVec.ofNat 32 pc = crc32 pre := by rw [hck1]; simp
  have hm2 : m = ⟨hs, ((readSrc s2 ((beNat (pre.take 4) : Int) - messageMetadataSize)).1).drop
      (beNat (pre.drop 4))⟩ ∧
      (((readSrc s2 ((beNat (pre.take 4) : Int) - messageMetadataSize)).1).drop
      (beNat (pre.drop 4))).length ≤ 16777216 := by
    unfold EventMessage.mk? at hm
    split at hm
    · cases hm
    · rename_i hle
      cases hm
      simp only [maxPayloadLength] at hle
      exact ⟨rfl, by omega⟩
  -- the read of the message body returned exactly the declared number of bytes
  obtain ⟨hd, hdlen⟩ := unpackUnsigned_some hcrc
  rw [List.take_take, Nat.min_self] at hd
  have hnn : ¬ ((beNat (pre.take 4) : Int) - messageMetadataSize < 0) := by
    intro hneg
    rw [readSrc, if_pos hneg] at hdlen
    simp at hdlen
  have hr : readSrc s2 ((beNat (pre.take 4) : Int) - messageMetadataSize) =
      (s2.take (beNat (pre.take 4) - 16), s2.drop (beNat (pre.take 4) - 16)) := by
    rw [readSrc, if_neg hnn]
    simp only [messageMetadataSize]
    have : ((beNat (pre.take 4) : Int) - (16 : Nat)).toNat = beNat (pre.take 4) - 16 := by omega
    rw [this]
  rw [hr] at hm2 hd hdlen hck2 hhs
  simp only [hr] at *
  have htot : 16 ≤ beNat (pre.take 4) := by simp only [messageMetadataSize] at hnn; omega
  generalize hT : beNat (pre.take 4) = T at *
  have hml : (s2.take (T - 16)).length = T - 16 := by
    simp only [List.length_take, List.length_drop] at hdlen ⊢
    omega
  have hsrc3 : s2 = s2.take (T - 16) ++ s2.drop (T - 16) := by rw [List.take_append_drop]
  generalize s2.take (T - 16) = msg at *
  generalize s2.drop (T - 16) = s3 at *
  have hsrc4 : s3 = s3.take 4 ++ s3.drop 4 := by rw [List.take_append_drop]
  generalize s3.take 4 = d at *
  generalize s3.drop 4 = r at *
  have hcc2 : crc32 (c ++ msg) (BitVec.ofNat 32 pc) = crc32 (pre ++ c ++ msg) := by
    rw [hpc', ← crc32_append]; simp
  rw [hcc2] at hck2
  refine ⟨pre, c, msg, d, ?_, hlen, ?_, ?_, ?_, ?_, ?_, ?_, ?_, ?_, ?_⟩
  · rw [hsrc1, hsrc2, hsrc3, hsrc4]; simp
  · rw [← hck1]; exact hc
  · rw [← hck2]; exact hd
  · rw [hT]; simp only [List.length_append, hlen, hc.1, hml, hd.1]; omega
  · simp only [maxHeadersLength] at hhl; omega
  · rw [hm2.1]; exact hm2.2
  · rw [hm2.1]
  · rw [hm2.1]; exact hhs
  · rw [hpc', hT]
  · rw [hck2]; simp

theorem decode_none {src rest : Bytes} (h : Event.decode src = (.ok none, rest)) : src = [] := by
  unfold Event.decode at h
  have r8 : readSrc src 8 = (src.take 8, src.drop 8) := by simp [readSrc]
  rw [r8] at h
  dsimp only at h
  split at h
  · rename_i hne
    rcases List.take_eq_nil_iff.1 hne with h | h
    · cases h
    · exact h
  · exfalso
    repeat' split at h
    all_goals cases h

theorem decode_nil : Event.decode [] = (.ok none, []) := by
  unfold Event.decode
  simp [readSrc]

/-- A frame that was cut short is never decoded. -/
theorem decode_cut {h p f : Bytes} (hf : IsFrame h p f) {n : Nat} (h0 : 0 < n) (hn : n < f.length) :
    ∃ x r, Event.decode (f.take n) = (.error x, r) := by
  match hd : Event.decode (f.take n) with
  | (.error x, r) => exact ⟨x, r, rfl⟩
  | (.ok none, r) =>
    have := congrArg List.length (decode_none hd)
    simp only [List.length_take, List.length_nil] at this
    omega
  | (.ok (some e), r) =>
    exfalso
    obtain ⟨pre, c, msg, d, hsrc, hpre, _, _, hlen, _⟩ := decode_some hd
    obtain ⟨t, l, c', d', hfe, ht, _⟩ := hf
    have h4 : pre.take 4 = t := by
      have h1 : (f.take n).take 4 = pre.take 4 := by
        rw [hsrc]
        simp only [List.append_assoc]
        rw [List.take_append_of_le_length (by omega)]
      have hl : (f.take n).length ≥ 8 := by rw [hsrc]; simp; omega
      have h2 : (f.take n).take 4 = f.take 4 := by
        rw [List.take_take]
        congr 1
        rw [List.length_take] at hl
        omega
      have h3 : f.take 4 = t := by
        rw [hfe]
        simp only [List.append_assoc]
        exact List.take_left' ht.1
      rw [← h1, h2, h3]
    rw [h4, ht.2] at hlen
    have := congrArg List.length hsrc
    simp only [List.length_append, List.length_take] at this hlen
    omega

end Verif.EventStream
