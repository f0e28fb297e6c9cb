import Verif.EventStream.DecodeLemmas

/-! Inversion of the header decoder. -/

set_option autoImplicit false

namespace Verif.EventStream
open Spec

theorem unpackByteArray_ok {n c : Nat} {data b : Bytes} (h : unpackByteArray n data = .ok (b, c)) :
    ∃ l m, IsBE n m l ∧ c = m + n ∧ m ≤ 32767 ∧
      ((b.length = m ∧ ∃ rest, data = l ++ b ++ rest ∧ data.drop c = rest) ∨
       (b.length < m ∧ data = l ++ b ∧ data.drop c = [])) := by
  unfold unpackByteArray at h
  split at h
  · cases h
  rename_i m hm
  split at h
  · cases h
  rename_i hle
  cases h
  obtain ⟨hl, hlen⟩ := unpackUnsigned_some hm
  refine ⟨data.take n, m, hl, rfl, by simp only [maxHeaderValueByteLength] at hle; omega, ?_⟩
  have hd : data = data.take n ++ data.drop n := by simp
  by_cases hs : ((data.drop n).take m).length = m
  · left
    refine ⟨hs, (data.drop n).drop m, ?_, ?_⟩
    · rw [List.append_assoc, List.take_append_drop, ← hd]
    · rw [List.drop_drop, Nat.add_comm]
  · right
    have hlt : (data.drop n).length < m := by
      simp only [List.length_take] at hs
      omega
    refine ⟨by simp only [List.length_take] at hs ⊢; omega, ?_, ?_⟩
    · rw [List.take_of_length_le (Nat.le_of_lt hlt), ← hd]
    · apply List.drop_eq_nil_of_le
      simp only [List.length_drop] at hlt
      omega

theorem unpackUtf8_ok {n c : Nat} {data : Bytes} {s : String}
    (h : unpackUtf8 n data = .ok (s, c)) :
    ∃ l m, IsBE n m l ∧ c = m + n ∧ m ≤ 32767 ∧
      (((utf8Encode s).length = m ∧ ∃ rest, data = l ++ utf8Encode s ++ rest ∧ data.drop c = rest) ∨
       ((utf8Encode s).length < m ∧ data = l ++ utf8Encode s ∧ data.drop c = [])) := by
  unfold unpackUtf8 at h
  split at h
  · cases h
  rename_i b c' hb
  split at h
  · rename_i s' hs
    cases h
    rw [utf8Encode_of_decode hs]
    exact unpackByteArray_ok hb
  · cases h

theorem take_append_rest {n : Nat} {data : Bytes} :
    data = data.take n ++ data.drop n := by simp

theorem unpackValue_ok {ty : UInt8} {data : Bytes} {v : HeaderValue} {c : Nat}
    (h : unpackValue ty.toNat data = .ok (v, c)) :
    (∃ t, data = t ++ data.drop c ∧ ReadValue v (ty :: t)) ∨
    (data.drop c = [] ∧ ShortValue v (ty :: data)) := by
  have hty : ∀ k : UInt8, ty.toNat = k.toNat → ty = k := fun k hk => UInt8.toNat.inj hk
  have hint : ∀ {n : Nat} {mk : Int → HeaderValue} {v c}, 0 < n → unpackInt n mk data = .ok (v, c) →
      c = n ∧ ∃ i, v = mk i ∧ IsSignedBE n i (data.take n) := by
    intro n mk v c hn h
    unfold unpackInt at h
    split at h
    · rename_i i hi
      cases h
      exact ⟨rfl, i, rfl, (unpackSigned_some hn hi).1⟩
    · cases h
  unfold unpackValue at h
  split at h
  · rename_i h0; cases h; left; refine ⟨[], by simp, ?_⟩; rw [hty 0 h0]; rfl
  · rename_i h0; cases h; left; refine ⟨[], by simp, ?_⟩; rw [hty 1 h0]; rfl
  · rename_i h0; obtain ⟨rfl, i, rfl, hi⟩ := hint (by omega) h
    left; refine ⟨_, take_append_rest, ?_⟩; rw [hty 2 h0]; exact ⟨_, rfl, hi⟩
  · rename_i h0; obtain ⟨rfl, i, rfl, hi⟩ := hint (by omega) h
    left; refine ⟨_, take_append_rest, ?_⟩; rw [hty 3 h0]; exact ⟨_, rfl, hi⟩
  · rename_i h0; obtain ⟨rfl, i, rfl, hi⟩ := hint (by omega) h
    left; refine ⟨_, take_append_rest, ?_⟩; rw [hty 4 h0]; exact ⟨_, rfl, hi⟩
  · rename_i h0; obtain ⟨rfl, i, rfl, hi⟩ := hint (by omega) h
    left; refine ⟨_, take_append_rest, ?_⟩; rw [hty 5 h0]; exact ⟨_, rfl, hi⟩
  · rename_i h0
    split at h
    · rename_i b c' hb
      cases h
      obtain ⟨l, m, hl, _, hm, h | h⟩ := unpackByteArray_ok hb
      · obtain ⟨hbl, rest, hd, hdr⟩ := h
        left
        refine ⟨l ++ b, by rw [hdr, hd], ?_⟩
        rw [hty 6 h0]
        exact ⟨l, rfl, by omega, hbl ▸ hl⟩
      · obtain ⟨hbl, hd, hdr⟩ := h
        right
        refine ⟨hdr, ?_⟩
        rw [hty 6 h0, hd]
        exact ⟨l, m, rfl, hl, hbl⟩
    · cases h
  · rename_i h0
    split at h
    · rename_i b c' hb
      cases h
      obtain ⟨l, m, hl, _, hm, h | h⟩ := unpackUtf8_ok hb
      · obtain ⟨hbl, rest, hd, hdr⟩ := h
        left
        refine ⟨l ++ utf8Encode b, by rw [hdr, hd], ?_⟩
        rw [hty 7 h0]
        exact ⟨l, rfl, by omega, hbl ▸ hl⟩
      · obtain ⟨hbl, hd, hdr⟩ := h
        right
        refine ⟨hdr, ?_⟩
        rw [hty 7 h0, hd]
        exact ⟨l, m, rfl, hl, hbl⟩
    · cases h
  · rename_i h0
    split at h
    · cases h
    rename_i i hi
    split at h
    · rename_i us hus
      cases h
      left
      refine ⟨_, take_append_rest, ?_⟩
      rw [hty 8 h0]
      exact ⟨i, _, rfl, (unpackSigned_some (by omega) hi).1, hus⟩
    · cases h
  · rename_i h0
    split at h
    · rename_i hl
      cases h
      left
      refine ⟨_, take_append_rest, ?_⟩
      rw [hty 9 h0]
      refine ⟨_, rfl, hl, ?_⟩
      have hlt := beNat_lt (data.take 16)
      rw [hl, pow_256] at hlt
      simp only [BitVec.toNat_ofNat]
      rw [Nat.mod_eq_of_lt hlt]
    · cases h
  · cases h

theorem decodeHeader_ok {data rest : Bytes} {k : String} {v : HeaderValue}
    (h : decodeHeader data = .ok ((k, v), rest)) :
    (∃ b, data = b ++ rest ∧ ReadHeader (k, v) b) ∨
    (rest = [] ∧ ∃ l b, data = l ++ utf8Encode k ++ b ∧ IsBE 1 (utf8Encode k).length l ∧
      ShortValue v b) := by
  unfold decodeHeader at h
  split at h
  · cases h
  rename_i key c1 hk
  dsimp only at h
  split at h
  · cases h
  rename_i ty hty
  split at h
  · cases h
  rename_i v' c2 hv
  cases h
  obtain ⟨l, m, hl, hc1, _, hcase⟩ := unpackUtf8_ok hk
  rcases hcase with ⟨hkl, r1, hd1, hd2⟩ | ⟨_, _, hd2⟩
  · obtain ⟨hb, hlen⟩ := unpackUnsigned_some hty
    rw [hd2] at hb hlen hv ⊢
    cases r1 with
    | nil => simp at hlen
    | cons t0 r2 =>
      have ht0 : ty = t0.toNat := by
        have := hb.2; simp [beNat] at this; exact this.symm
      subst ht0
      simp only [List.drop_succ_cons, List.drop_zero] at hv ⊢
      rcases unpackValue_ok hv with ⟨t, ht, hr⟩ | ⟨hnil, hsv⟩
      · left
        refine ⟨l ++ utf8Encode k ++ t0 :: t, ?_, l, _, rfl, hkl ▸ hl, hr⟩
        rw [hd1]
        conv => lhs; rw [ht]
        simp
      · right
        exact ⟨hnil, l, _, hd1, hkl ▸ hl, hsv⟩
  · rw [hd2] at hty
    simp [unpackUnsigned] at hty

theorem readHeaders_nil {hs : List (String × HeaderValue)} (h : ReadHeaders hs []) : hs = [] := by
  generalize hb : ([] : Bytes) = b at h
  cases h with
  | nil => rfl
  | cons hh _ =>
    obtain ⟨l, _, rfl, hl, _⟩ := hh
    have h1 := congrArg List.length hb
    have h2 := hl.1
    simp at h1
    omega
  | short hl _ =>
    have h1 := congrArg List.length hb
    have h2 := hl.1
    simp at h1
    omega

theorem decodeHeadersLoop_ok {acc hs : List (String × HeaderValue)} {data : Bytes}
    (h : decodeHeadersLoop acc data = .ok hs) (hnd : (acc.map Prod.fst).Nodup) :
    (hs.map Prod.fst).Nodup ∧ ∃ hs', hs = acc ++ hs' ∧ ReadHeaders hs' data := by
  induction hn : data.length using Nat.strongRecOn generalizing acc data with
  | ind n ih =>
    rw [decodeHeadersLoop] at h
    split at h
    · rename_i hz
      cases h
      have : data = [] := by simpa using hz
      subst this
      exact ⟨hnd, [], by simp, .nil⟩
    · split at h
      · cases h
      · rename_i k v rest hd
        dsimp only at h
        split at h
        · cases h
        · rename_i hk
          have hlt := decodeHeader_shorter hd
          have hnd' : ((acc ++ [(k, v)]).map Prod.fst).Nodup := by
            rw [List.map_append, List.nodup_append]
            refine ⟨hnd, by simp, ?_⟩
            intro a ha b hb
            simp at hb
            subst hb
            intro heq
            subst heq
            exact hk ha
          obtain ⟨h1, hs', h2, h3⟩ := ih rest.length (by omega) h hnd' rfl
          refine ⟨h1, (k, v) :: hs', by rw [h2]; simp, ?_⟩
          rcases decodeHeader_ok hd with ⟨b, hb, hr⟩ | ⟨hnil, l, b, hb, hl, hs⟩
          · rw [hb]; exact .cons hr h3
          · subst hnil
            have := readHeaders_nil h3
            subst this
            rw [hb]; exact .short hl hs

end Verif.EventStream
