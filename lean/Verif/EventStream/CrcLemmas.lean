import Verif.EventStream.Lemmas

/-! Burst detection of CRC-32. -/

set_option autoImplicit false

namespace Verif.EventStream
open Spec

theorem crcShift_eq (r : BitVec 32) :
    crcShift r = (r >>> 1) ^^^ (if r.getLsbD 0 then 0xEDB88320#32 else 0#32) := by
  unfold crcShift
  split <;> simp

theorem crcShift_xor (x y : BitVec 32) : crcShift (x ^^^ y) = crcShift x ^^^ crcShift y := by
  rw [crcShift_eq, crcShift_eq x, crcShift_eq y, BitVec.ushiftRight_xor_distrib, BitVec.getLsbD_xor]
  generalize x >>> 1 = a
  generalize y >>> 1 = b
  generalize (0xEDB88320#32 : BitVec 32) = p
  cases x.getLsbD 0 <;> cases y.getLsbD 0 <;> simp
  · ac_rfl
  · ac_rfl
  · rw [show a ^^^ p ^^^ (b ^^^ p) = (a ^^^ b) ^^^ (p ^^^ p) by ac_rfl, BitVec.xor_self, BitVec.xor_zero]

theorem crcShift_zero {r : BitVec 32} (h : crcShift r = 0#32) : r = 0#32 := by
  by_cases h0 : r.getLsbD 0
  · exfalso
    rw [crcShift_eq, if_pos h0] at h
    have h1 := congrArg (fun v : BitVec 32 => v.getLsbD 31) h
    simp at h1
  · rw [crcShift_eq, if_neg h0] at h
    apply BitVec.eq_of_getLsbD_eq
    intro i hi
    rcases Nat.eq_zero_or_pos i with rfl | hp
    · simpa using h0
    · have h1 := congrArg (fun v : BitVec 32 => v.getLsbD (i - 1)) h
      simp [BitVec.getLsbD_ushiftRight] at h1
      rw [show 1 + (i - 1) = i by omega] at h1
      simpa using h1

theorem crcShift8_xor (x y : BitVec 32) : crcShift8 (x ^^^ y) = crcShift8 x ^^^ crcShift8 y := by
  simp only [crcShift8, crcShift_xor]

theorem crcShift8_zero {r : BitVec 32} (h : crcShift8 r = 0#32) : r = 0#32 := by
  unfold crcShift8 at h
  exact crcShift_zero (crcShift_zero (crcShift_zero (crcShift_zero (crcShift_zero (crcShift_zero
    (crcShift_zero (crcShift_zero h)))))))

theorem crcShift8_inj {x y : BitVec 32} (h : crcShift8 x = crcShift8 y) : x = y := by
  have h1 : crcShift8 (x ^^^ y) = 0#32 := by rw [crcShift8_xor, h, BitVec.xor_self]
  have h2 := crcShift8_zero h1
  have h3 : (x ^^^ y) ^^^ y = 0#32 ^^^ y := by rw [h2]
  rw [BitVec.xor_assoc] at h3
  simpa using h3

theorem crcShift8_0 : crcShift8 0#32 = 0#32 := by decide

/-- A register whose low bit is clear just shifts. -/
theorem crcShift_double {k : Nat} {n : Nat} (hk : n < 2 ^ 31) (h : k = 2 * n) :
    crcShift (BitVec.ofNat 32 k) = BitVec.ofNat 32 n := by
  subst h
  have h0 : (BitVec.ofNat 32 (2 * n)).getLsbD 0 = false := by
    simp [BitVec.getLsbD]
  rw [crcShift_eq, h0, if_neg (by simp), BitVec.xor_zero]
  apply BitVec.eq_of_toNat_eq
  simp only [BitVec.toNat_ushiftRight, BitVec.toNat_ofNat, Nat.shiftRight_eq_div_pow]
  omega

theorem crcShift8_shl {n : Nat} (h : n < 2 ^ 24) :
    crcShift8 (BitVec.ofNat 32 (256 * n)) = BitVec.ofNat 32 n := by
  unfold crcShift8
  rw [crcShift_double (n := 128 * n) (by omega) (by omega),
    crcShift_double (n := 64 * n) (by omega) (by omega),
    crcShift_double (n := 32 * n) (by omega) (by omega),
    crcShift_double (n := 16 * n) (by omega) (by omega),
    crcShift_double (n := 8 * n) (by omega) (by omega),
    crcShift_double (n := 4 * n) (by omega) (by omega),
    crcShift_double (n := 2 * n) (by omega) (by omega),
    crcShift_double (n := n) (by omega) (by omega)]

/-- The byte as the register sees it. -/
def ext (b : UInt8) : BitVec 32 := b.toBitVec.setWidth 32

theorem ext_toNat (b : UInt8) : (ext b).toNat = b.toNat := by
  simp only [ext, BitVec.toNat_setWidth, UInt8.toNat_toBitVec]
  have := b.toNat_lt
  omega

theorem ext_inj {a b : UInt8} (h : ext a = ext b) : a = b := by
  have := congrArg BitVec.toNat h
  rw [ext_toNat, ext_toNat] at this
  exact UInt8.toNat.inj this

theorem ext_xor_zero {a b : UInt8} (h : ext a ^^^ ext b = 0#32) : a = b := by
  apply ext_inj
  have h3 : (ext a ^^^ ext b) ^^^ ext b = 0#32 ^^^ ext b := by rw [h]
  rw [BitVec.xor_assoc] at h3
  simpa using h3

theorem ext_xor_lt (a b : UInt8) : (ext a ^^^ ext b).toNat < 256 := by
  rw [BitVec.toNat_xor, ext_toNat, ext_toNat]
  exact Nat.xor_lt_two_pow (n := 8) a.toNat_lt b.toNat_lt

/-- Difference of the registers after one byte. -/
theorem crcByte_diff (r s : BitVec 32) (a b : UInt8) :
    crcByte r a ^^^ crcByte s b = crcShift8 ((r ^^^ s) ^^^ (ext a ^^^ ext b)) := by
  unfold crcByte
  rw [← crcShift8_xor]
  congr 1
  show _ = (r ^^^ s) ^^^ (ext a ^^^ ext b)
  unfold ext
  ac_rfl

theorem xor_zero_iff {x y : BitVec 32} : x ^^^ y = 0#32 ↔ x = y := by
  constructor
  · intro h
    have h3 : (x ^^^ y) ^^^ y = 0#32 ^^^ y := by rw [h]
    rw [BitVec.xor_assoc] at h3
    simpa using h3
  · rintro rfl; simp

theorem crcByte_inj {r s : BitVec 32} {b : UInt8} (h : crcByte r b = crcByte s b) : r = s := by
  have := xor_zero_iff.2 h
  rw [crcByte_diff] at this
  have := crcShift8_zero this
  simp only [BitVec.xor_self, BitVec.xor_zero] at this
  exact xor_zero_iff.1 this

theorem fold_inj (bs : Bytes) {r s : BitVec 32} (h : bs.foldl crcByte r = bs.foldl crcByte s) :
    r = s := by
  induction bs generalizing r s with
  | nil => exact h
  | cons b bs ih => exact crcByte_inj (ih h)

theorem solve8 {x : BitVec 32} {n : Nat} (hn : n < 2 ^ 24) (h : crcShift8 x = BitVec.ofNat 32 n) :
    x.toNat = 256 * n := by
  have := crcShift8_inj (h.trans (crcShift8_shl hn).symm)
  rw [this, BitVec.toNat_ofNat]
  omega

theorem xor_high {x e : BitVec 32} (n : Nat) (h : (x ^^^ e).toNat = n) (k : Nat)
    (hn : n < 2 ^ k) (he : e.toNat < 2 ^ k) : x.toNat < 2 ^ k := by
  have : x = (x ^^^ e) ^^^ e := by rw [BitVec.xor_assoc]; simp
  rw [this, BitVec.toNat_xor, h]
  exact Nat.xor_lt_two_pow hn he

theorem ofNat_toNat32 (x : BitVec 32) : x = BitVec.ofNat 32 x.toNat := by simp

/-- No nonzero difference confined to four consecutive bytes is cancelled. -/
theorem burst4 {e0 e1 e2 e3 : BitVec 32} (h0 : e0.toNat < 256) (h1 : e1.toNat < 256)
    (h2 : e2.toNat < 256) (h3 : e3.toNat < 256)
    (h : crcShift8 (crcShift8 (crcShift8 (crcShift8 e0 ^^^ e1) ^^^ e2) ^^^ e3) = 0#32) :
    e0 = 0#32 ∧ e1 = 0#32 ∧ e2 = 0#32 ∧ e3 = 0#32 := by
  have z : crcShift8 0#32 = 0#32 := crcShift8_0
  have a3 := xor_zero_iff.1 (crcShift8_zero h)
  have a2 := solve8 (by omega) (a3.trans (ofNat_toNat32 e3))
  have b2 := xor_high _ a2 16 (by omega) (by omega)
  have b2' : (crcShift8 (crcShift8 e0 ^^^ e1)).toNat < 2 ^ 24 := by omega
  have a1 := solve8 b2' (ofNat_toNat32 (crcShift8 (crcShift8 e0 ^^^ e1)))
  have b1 := xor_high _ a1 24 (by omega) (by omega)
  have a0 := solve8 b1 (ofNat_toNat32 (crcShift8 e0))
  have c0 : e0 = 0#32 := by
    apply BitVec.eq_of_toNat_eq; simp; omega
  subst c0
  rw [z, BitVec.zero_xor] at a1 a2 a3 b2
  have c1 : e1 = 0#32 := by
    apply BitVec.eq_of_toNat_eq; simp; omega
  subst c1
  rw [z, BitVec.zero_xor] at a2 a3
  have c2 : e2 = 0#32 := by
    apply BitVec.eq_of_toNat_eq; simp; omega
  subst c2
  rw [z] at a3
  exact ⟨rfl, rfl, rfl, a3.symm⟩

/-- A one-byte difference changes one of the low two bytes of the checksum. -/
theorem straddle1 : ∀ e : Fin 256,
    (crcShift8 (BitVec.ofNat 32 e.val)).toNat % 65536 = 0 → e = 0 := by decide +kernel

/-- Parity of a 32-bit number. -/
def parity32 (x : Nat) : Nat :=
  let x := x ^^^ (x >>> 16)
  let x := x ^^^ (x >>> 8)
  let x := x ^^^ (x >>> 4)
  let x := x ^^^ (x >>> 2)
  let x := x ^^^ (x >>> 1)
  x &&& 1

/-- A linear map of the low 24 bits that vanishes on the image of one byte and recovers `e` from the
image of `e` two bytes later. -/
def syndrome (x : Nat) : List Nat :=
  [135588, 13462, 26924, 22065, 10251, 147890, 131447, 5424].map fun m => parity32 (x % 16777216 &&& m)

theorem syndrome_one : ∀ f : Fin 256,
    syndrome (crcShift8 (BitVec.ofNat 32 f.val)).toNat = [0, 0, 0, 0, 0, 0, 0, 0] := by
  decide +kernel

theorem syndrome_two : ∀ e : Fin 256,
    syndrome (crcShift8 (crcShift8 (BitVec.ofNat 32 e.val))).toNat = [0, 0, 0, 0, 0, 0, 0, 0] →
      e = 0 := by
  decide +kernel

theorem xor_mod_zero {x y : BitVec 32} {k : Nat} (h : (x ^^^ y).toNat % 2 ^ k = 0) :
    x.toNat % 2 ^ k = y.toNat % 2 ^ k := by
  rw [BitVec.toNat_xor, Nat.xor_mod_two_pow] at h
  have h2 : (x.toNat % 2 ^ k ^^^ y.toNat % 2 ^ k) ^^^ (y.toNat % 2 ^ k) = 0 ^^^ (y.toNat % 2 ^ k) := by rw [h]
  rw [Nat.xor_assoc, Nat.xor_self, Nat.xor_zero, Nat.zero_xor] at h2
  exact h2

theorem mod_xor_zero {x y : BitVec 32} {k : Nat} (h : x.toNat % 2 ^ k = y.toNat % 2 ^ k) :
    (x ^^^ y).toNat % 2 ^ k = 0 := by
  rw [BitVec.toNat_xor, Nat.xor_mod_two_pow, h, Nat.xor_self]

/-- A two-byte difference changes one of the low three bytes of the checksum. -/
theorem straddle2 {e f : BitVec 32} (he : e.toNat < 256) (hf : f.toNat < 256)
    (h : (crcShift8 (crcShift8 e ^^^ f)).toNat % 2 ^ 24 = 0) : e = 0#32 ∧ f = 0#32 := by
  rw [crcShift8_xor] at h
  have h1 := xor_mod_zero h
  have h2 : syndrome (crcShift8 (crcShift8 e)).toNat = syndrome (crcShift8 f).toNat := by
    unfold syndrome
    rw [show (crcShift8 (crcShift8 e)).toNat % 16777216 = _ from h1]
  have h3 := syndrome_one ⟨f.toNat, hf⟩
  rw [← ofNat_toNat32] at h3
  have h4 := syndrome_two ⟨e.toNat, he⟩
  rw [← ofNat_toNat32] at h4
  have h5 := h4 (h2.trans h3)
  have he0 : e = 0#32 := by
    apply BitVec.eq_of_toNat_eq
    simpa using congrArg Fin.val h5
  subst he0
  rw [crcShift8_0, crcShift8_0] at h1
  refine ⟨rfl, ?_⟩
  have h6 := straddle1 ⟨f.toNat, hf⟩
  rw [← ofNat_toNat32] at h6
  have h7 := h6 (by simp at h1; omega)
  apply BitVec.eq_of_toNat_eq
  simpa using congrArg Fin.val h7

theorem straddle1' {e : BitVec 32} (he : e.toNat < 256)
    (h : (crcShift8 e).toNat % 2 ^ 16 = 0) : e = 0#32 := by
  have h6 := straddle1 ⟨e.toNat, he⟩
  rw [← ofNat_toNat32] at h6
  have h7 := h6 h
  apply BitVec.eq_of_toNat_eq
  simpa using congrArg Fin.val h7

/-! ### Codewords -/

theorem crc32_diff (P Q : Bytes) :
    crc32 P ^^^ crc32 Q = P.foldl crcByte (~~~0#32) ^^^ Q.foldl crcByte (~~~0#32) := by
  unfold crc32
  generalize P.foldl _ _ = x
  generalize Q.foldl _ _ = y
  apply BitVec.eq_of_getLsbD_eq
  intro i hi
  simp [hi]

theorem window_split {f g : Bytes} {i n : Nat} (h : DiffersOnlyIn i n f g) (hi : i + n ≤ f.length) :
    ∃ A X Y B, f = A ++ X ++ B ∧ g = A ++ Y ++ B ∧ A.length = i ∧ X.length = n ∧ Y.length = n := by
  obtain ⟨hl, hd⟩ := h
  refine ⟨f.take i, (f.drop i).take n, (g.drop i).take n, f.drop (i + n), ?_, ?_, ?_, ?_, ?_⟩
  · rw [List.append_assoc, ← List.drop_drop, List.take_append_drop, List.take_append_drop]
  · have h1 : f.take i = g.take i := by
      apply List.ext_getElem?
      intro j
      by_cases hj : j < i
      · rw [List.getElem?_take_of_lt hj, List.getElem?_take_of_lt hj]; exact hd j (.inl hj)
      · rw [List.getElem?_take_eq_none (by omega), List.getElem?_take_eq_none (by omega)]
    have h2 : f.drop (i + n) = g.drop (i + n) := by
      apply List.ext_getElem?
      intro j
      rw [List.getElem?_drop, List.getElem?_drop]
      exact hd _ (.inr (by omega))
    rw [h1, h2, List.append_assoc, ← List.drop_drop, List.take_append_drop, List.take_append_drop]
  · simp; omega
  · simp; omega
  · simp; omega

theorem differs_append {P P' C C' : Bytes} {i n : Nat} (hl : P.length = P'.length)
    (h : DiffersOnlyIn i n (P ++ C) (P' ++ C')) :
    DiffersOnlyIn i n P P' ∧ C.length = C'.length ∧
      ∀ j, (j + P.length < i ∨ i + n ≤ j + P.length) → C[j]? = C'[j]? := by
  obtain ⟨h1, h2⟩ := h
  refine ⟨⟨hl, ?_⟩, by simp at h1; omega, ?_⟩
  · intro j hj
    by_cases hjl : j < P.length
    · have := h2 j hj
      rw [List.getElem?_append_left hjl, List.getElem?_append_left (hl ▸ hjl)] at this
      exact this
    · rw [List.getElem?_eq_none (by omega), List.getElem?_eq_none (by omega)]
  · intro j hj
    have := h2 (j + P.length) hj
    rw [List.getElem?_append_right (by omega), List.getElem?_append_right (by omega), ← hl] at this
    simpa using this

theorem differs_eq {f g : Bytes} {i n : Nat} (h : DiffersOnlyIn i n f g) (hi : f.length ≤ i) :
    f = g := by
  apply List.ext_getElem?
  intro j
  by_cases hj : j < f.length
  · exact h.2 j (.inl (by omega))
  · rw [List.getElem?_eq_none (by omega), List.getElem?_eq_none (by have := h.1; omega)]

theorem four {C : Bytes} (h : C.length = 4) : ∃ a b c d, C = [a, b, c, d] := by
  match C, h with
  | [a, b, c, d], _ => exact ⟨a, b, c, d, rfl⟩

theorem beNat4 (a b c d : UInt8) :
    beNat [a, b, c, d] = a.toNat * 16777216 + b.toNat * 65536 + c.toNat * 256 + d.toNat := by
  simp [beNat]; omega

/-- Byte strings with a trailing checksum that agree outside a short window are equal.  The window
may be 4 bytes if it does not reach from the data into the checksum, and 3 bytes otherwise. -/
theorem codeword_window {P P' C C' : Bytes} {i n : Nat} (hl : P.length = P'.length)
    (hC : IsBE 4 (crc32 P).toNat C) (hC' : IsBE 4 (crc32 P').toNat C')
    (hd : DiffersOnlyIn i n (P ++ C) (P' ++ C'))
    (hn : n ≤ 3 ∨ n ≤ 4 ∧ (i + n ≤ P.length ∨ P.length ≤ i)) : P = P' ∧ C = C' := by
  obtain ⟨dP, hCl, dC⟩ := differs_append hl hd
  have uniq : P = P' → P = P' ∧ C = C' := by
    rintro rfl
    exact ⟨rfl, by rw [((isBE_iff _ _ _).1 hC).2, ((isBE_iff _ _ _).1 hC').2]⟩
  apply uniq
  by_cases hge : P.length ≤ i
  · exact differs_eq dP hge
  by_cases hin : i + n ≤ P.length
  · -- window inside the data
    have hCC : C = C' := by
      apply List.ext_getElem?
      intro j
      exact dC j (.inr (by omega))
    subst hCC
    have hcrc : crc32 P = crc32 P' := by
      apply BitVec.eq_of_toNat_eq
      rw [← hC.2, ← hC'.2]
    obtain ⟨A, X, Y, B, rfl, rfl, hA, hX, hY⟩ := window_split dP hin
    have h1 := xor_zero_iff.2 hcrc
    rw [crc32_diff] at h1
    have h2 := xor_zero_iff.1 h1
    simp only [List.foldl_append] at h2
    have h3 := fold_inj B h2
    generalize A.foldl crcByte (~~~0#32) = r at h3
    have h4 := xor_zero_iff.2 h3
    have hn4 : n ≤ 4 := by omega
    have z := crcShift8_0
    have pad : ∀ x y : UInt8, (ext x ^^^ ext y).toNat < 256 := ext_xor_lt
    have key : ∀ (a a' b b' c c' d d' : UInt8),
        crcShift8 (crcShift8 (crcShift8 (crcShift8 (ext a ^^^ ext a') ^^^ (ext b ^^^ ext b')) ^^^
          (ext c ^^^ ext c')) ^^^ (ext d ^^^ ext d')) = 0#32 → a = a' ∧ b = b' ∧ c = c' ∧ d = d' := by
      intro a a' b b' c c' d d' h
      obtain ⟨h0, h1, h2, h3⟩ := burst4 (pad _ _) (pad _ _) (pad _ _) (pad _ _) h
      exact ⟨ext_xor_zero h0, ext_xor_zero h1, ext_xor_zero h2, ext_xor_zero h3⟩
    have XY : X = Y := by
      match n, X, Y, hX, hY, hn4 with
      | 0, [], [], _, _, _ => rfl
      | 1, [a], [a'], _, _, _ =>
        simp only [List.foldl_cons, List.foldl_nil, crcByte_diff, BitVec.xor_self,
          BitVec.zero_xor] at h4
        have := key 0 0 0 0 0 0 a a' (by simpa [z] using h4)
        simp [this]
      | 2, [a, b], [a', b'], _, _, _ =>
        simp only [List.foldl_cons, List.foldl_nil, crcByte_diff, BitVec.xor_self,
          BitVec.zero_xor] at h4
        have := key 0 0 0 0 a a' b b' (by simpa [z] using h4)
        simp [this]
      | 3, [a, b, c], [a', b', c'], _, _, _ =>
        simp only [List.foldl_cons, List.foldl_nil, crcByte_diff, BitVec.xor_self,
          BitVec.zero_xor] at h4
        have := key 0 0 a a' b b' c c' (by simpa [z] using h4)
        simp [this]
      | 4, [a, b, c, d], [a', b', c', d'], _, _, _ =>
        simp only [List.foldl_cons, List.foldl_nil, crcByte_diff, BitVec.xor_self,
          BitVec.zero_xor] at h4
        have := key a a' b b' c c' d d' h4
        simp [this]
    rw [XY]
  · -- the window reaches into the checksum
    have hn3 : n ≤ 3 := by omega
    obtain ⟨c0, c1, c2, c3, rfl⟩ := four hC.1
    obtain ⟨d0, d1, d2, d3, rfl⟩ := four hC'.1
    have e0 := hC.2
    have e1 := hC'.2
    rw [beNat4] at e0 e1
    have k3 : c3 = d3 := by simpa using dC 3 (.inr (by omega))
    have k2 : c2 = d2 := by simpa using dC 2 (.inr (by omega))
    subst k3 k2
    have dP' : DiffersOnlyIn i (P.length - i) P P' := by
      refine ⟨hl, fun j hj => ?_⟩
      by_cases hji : j < i
      · exact dP.2 j (.inl hji)
      · rw [List.getElem?_eq_none (by omega), List.getElem?_eq_none (by omega)]
    obtain ⟨A, X, Y, B, hPe, hPe', hA, hX, hY⟩ := window_split dP' (by omega)
    have hB : B = [] := by
      have := congrArg List.length hPe
      simp only [List.length_append] at this
      exact List.eq_nil_of_length_eq_zero (by omega)
    subst hB
    simp only [List.append_nil] at hPe hPe'
    have hdiff := crc32_diff P P'
    rw [hPe, hPe', List.foldl_append, List.foldl_append, ← hPe, ← hPe'] at hdiff
    generalize A.foldl crcByte (~~~0#32) = r at hdiff
    have hw : P.length - i = 1 ∨ P.length - i = 2 := by omega
    rcases hw with hw | hw
    · rw [hw] at hX hY
      match X, Y, hX, hY with
      | [a], [b], _, _ =>
        simp only [List.foldl_cons, List.foldl_nil, crcByte_diff, BitVec.xor_self,
          BitVec.zero_xor] at hdiff
        have := straddle1' (ext_xor_lt a b) (by
          rw [← hdiff]; apply mod_xor_zero; rw [← e0, ← e1]; omega)
        rw [hPe, hPe', ext_xor_zero this]
    · rw [hw] at hX hY
      have k1 : c1 = d1 := by simpa using dC 1 (.inr (by omega))
      subst k1
      match X, Y, hX, hY with
      | [a, a'], [b, b'], _, _ =>
        simp only [List.foldl_cons, List.foldl_nil, crcByte_diff, BitVec.xor_self,
          BitVec.zero_xor] at hdiff
        have := straddle2 (ext_xor_lt a b) (ext_xor_lt a' b') (by
          rw [← hdiff]; apply mod_xor_zero; rw [← e0, ← e1]; omega)
        rw [hPe, hPe', ext_xor_zero this.1, ext_xor_zero this.2]

end Verif.EventStream
