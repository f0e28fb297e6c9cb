import Verif.EventStream.Spec

/-! Helper lemmas for the event-stream codec. -/

set_option autoImplicit false

namespace Verif.EventStream
open Spec

theorem snoc_induction {α : Type} {P : List α → Prop} (h0 : P []) (h1 : ∀ l a, P l → P (l ++ [a]))
    (l : List α) : P l := by
  rw [← List.reverse_reverse l]
  induction l.reverse with
  | nil => exact h0
  | cons a t ih => rw [List.reverse_cons]; exact h1 _ _ ih

theorem beBytes_length (n v : Nat) : (beBytes n v).length = n := by
  induction n generalizing v with
  | zero => rfl
  | succ n ih => simp [beBytes, ih]

theorem beNat_append (a : Bytes) (b : UInt8) : beNat (a ++ [b]) = beNat a * 256 + b.toNat := by
  simp [beNat]

theorem beNat_beBytes (n v : Nat) (h : v < 256 ^ n) : beNat (beBytes n v) = v := by
  induction n generalizing v with
  | zero => simp at h; subst h; rfl
  | succ n ih =>
    rw [beBytes, beNat_append, ih]
    · simp only [UInt8.toNat_ofNat']
      omega
    · rw [Nat.pow_succ] at h
      exact Nat.div_lt_of_lt_mul (by omega)

theorem beNat_lt (bs : Bytes) : beNat bs < 256 ^ bs.length := by
  induction bs using snoc_induction with
  | h0 => simp [beNat]
  | h1 l a ih =>
    rw [beNat_append, List.length_append, List.length_singleton, Nat.pow_succ]
    have := a.toNat_lt
    omega

theorem beBytes_beNat (bs : Bytes) : beBytes bs.length (beNat bs) = bs := by
  induction bs using snoc_induction with
  | h0 => rfl
  | h1 l a ih =>
    rw [List.length_append, List.length_singleton, beBytes, beNat_append]
    have := a.toNat_lt
    have h1 : (beNat l * 256 + a.toNat) / 256 = beNat l := by omega
    rw [h1, ih]
    congr 2
    apply UInt8.toNat.inj
    simp only [UInt8.toNat_ofNat']
    omega

theorem isBE_iff (n v : Nat) (bs : Bytes) : IsBE n v bs ↔ v < 256 ^ n ∧ bs = beBytes n v := by
  constructor
  · rintro ⟨rfl, rfl⟩
    exact ⟨beNat_lt bs, (beBytes_beNat bs).symm⟩
  · rintro ⟨h, rfl⟩
    exact ⟨beBytes_length n v, beNat_beBytes n v h⟩

theorem isBE_inj {n v w : Nat} {bs : Bytes} (h1 : IsBE n v bs) (h2 : IsBE n w bs) : v = w := by
  rw [← h1.2, h2.2]

theorem unpackUnsigned_append {n v : Nat} {bs : Bytes} (rest : Bytes) (h : IsBE n v bs) :
    unpackUnsigned n (bs ++ rest) = some v := by
  unfold unpackUnsigned
  rw [← h.1, List.take_left']
  · simp [h.2]
  · rfl

theorem unpackUnsigned_some {n v : Nat} {data : Bytes} (h : unpackUnsigned n data = some v) :
    IsBE n v (data.take n) ∧ n ≤ data.length := by
  unfold unpackUnsigned at h
  split at h
  · rename_i hl
    cases h
    exact ⟨⟨hl, rfl⟩, by rw [List.length_take] at hl; omega⟩
  · cases h

theorem pow_256 (n : Nat) : (256 : Nat) ^ n = 2 ^ (8 * n) := by
  rw [Nat.pow_mul]

theorem two_pow_split (n : Nat) (hn : 0 < n) :
    (2 : Int) ^ (8 * n) = 2 * (2 : Int) ^ (8 * n - 1) := by
  have : 8 * n = (8 * n - 1) + 1 := by omega
  rw [this, Int.pow_succ]
  simp only [Nat.add_sub_cancel]
  omega

theorem packSigned_some {n : Nat} {v : Int} {bs : Bytes} (hn : 0 < n)
    (h : packSigned n v = some bs) : IsSignedBE n v bs := by
  unfold packSigned at h
  split at h
  · rename_i hf
    cases h
    refine ⟨hf, ?_⟩
    rw [isBE_iff]
    have h2 := two_pow_split n hn
    have hp : (0 : Int) < (2 : Int) ^ (8 * n - 1) := Int.pow_pos (by omega)
    have hc : ((256 ^ n : Nat) : Int) = 2 ^ (8 * n) := by rw [pow_256]; norm_cast
    have key : v % (2 : Int) ^ (8 * n) = if 0 ≤ v then v else v + 2 ^ (8 * n) := by
      split
      · exact Int.emod_eq_of_lt (by omega) (by omega)
      · rw [← Int.add_emod_right, Int.emod_eq_of_lt (by omega) (by omega)]
    constructor
    · split <;> omega
    · rw [key]; split <;> rfl
  · cases h

theorem packSigned_isSome_iff (n : Nat) (v : Int) : (∃ bs, packSigned n v = some bs) ↔ Fits n v := by
  unfold packSigned Fits
  split <;> simp_all

theorem unpackSigned_append {n : Nat} {v : Int} {bs : Bytes} (rest : Bytes) (hn : 0 < n)
    (h : IsSignedBE n v bs) : unpackSigned n (bs ++ rest) = some v := by
  obtain ⟨hf, hb⟩ := h
  unfold unpackSigned
  rw [← hb.1, List.take_left' rfl, hb.1, hb.2]
  simp only [if_true]
  unfold Fits at hf
  have h2 := two_pow_split n hn
  have hp : (0 : Int) < (2 : Int) ^ (8 * n - 1) := Int.pow_pos (by omega)
  congr 1
  split <;> split <;> omega

theorem unpackSigned_some {n : Nat} {v : Int} {data : Bytes} (hn : 0 < n)
    (h : unpackSigned n data = some v) : IsSignedBE n v (data.take n) ∧ n ≤ data.length := by
  unfold unpackSigned at h
  split at h
  · rename_i hl
    simp only [Option.some.injEq] at h
    have h2 := two_pow_split n hn
    have hp : (0 : Int) < (2 : Int) ^ (8 * n - 1) := Int.pow_pos (by omega)
    have hlt := beNat_lt (data.take n)
    rw [hl, pow_256] at hlt
    have hc : ((2 ^ (8 * n) : Nat) : Int) = 2 ^ (8 * n) := by norm_cast
    refine ⟨⟨?_, hl, ?_⟩, by rw [List.length_take] at hl; omega⟩
    · unfold Fits
      split at h <;> omega
    · split at h <;> split <;> omega
  · cases h

theorem utf8Decode_encode (s : String) : utf8Decode (utf8Encode s) = some s := by
  have h : (⟨(utf8Encode s).toArray⟩ : ByteArray) = s.toUTF8 := by
    simp [utf8Encode]
  unfold utf8Decode
  rw [h]
  exact dif_pos (c := s.toUTF8.IsValidUTF8) s.isValidUTF8

theorem utf8Encode_of_decode {b : Bytes} {s : String} (h : utf8Decode b = some s) :
    utf8Encode s = b := by
  unfold utf8Decode String.fromUTF8? at h
  split at h
  · cases h
    simp [utf8Encode, String.fromUTF8]
  · cases h

/-! ### encoder -/

theorem encodeKey_none {e e' : HEnc} {k : String} (h : e.encodeKey k = (e', none)) :
    k ∉ e.keys ∧ e'.keys = k :: e.keys ∧
      ∃ l, IsBE 1 (utf8Encode k).length l ∧ e'.buffer = e.buffer ++ (l ++ utf8Encode k) := by
  unfold HEnc.encodeKey at h
  split at h
  · cases h
  · rename_i hk
    dsimp only at h
    split at h
    · cases h
    · cases h
      refine ⟨hk, rfl, _, (isBE_iff _ _ _).2 ⟨?_, rfl⟩, ?_⟩
      · omega
      · simp [HEnc.write]

theorem encodeKey_isNone_iff (e : HEnc) (k : String) :
    (∃ e', e.encodeKey k = (e', none)) ↔ k ∉ e.keys ∧ (utf8Encode k).length ≤ 255 := by
  unfold HEnc.encodeKey
  by_cases h1 : k ∈ e.keys
  · simp [h1]
  · by_cases h2 : 255 < (utf8Encode k).length
    · simp [h1, h2]
    · simp [h1, h2]; omega

theorem andThen_none {r : EncR} {f : HEnc → EncR} {e' : HEnc} :
    r.andThen f = (e', none) ↔ ∃ e1, r = (e1, none) ∧ f e1 = (e', none) := by
  unfold EncR.andThen
  rcases r with ⟨e, _ | x⟩ <;> simp

theorem encodeHeader_none {e e' : HEnc} {k : String} {v : HeaderValue}
    (h : e.encodeHeader k v = (e', none)) :
    k ∉ e.keys ∧ e'.keys = k :: e.keys ∧
      ∃ b, WireHeader (k, v) b ∧ e'.buffer = e.buffer ++ b := by
  have fin : ∀ (e1 : HEnc) (vb : Bytes), e.encodeKey k = (e1, none) → WireValue v vb →
      e' = e1.write vb → k ∉ e.keys ∧ e'.keys = k :: e.keys ∧
      ∃ b, WireHeader (k, v) b ∧ e'.buffer = e.buffer ++ b := by
    intro e1 vb hk hv he
    obtain ⟨h1, h2, l, hl, hb⟩ := encodeKey_none hk
    subst he
    exact ⟨h1, h2, _, ⟨l, vb, rfl, hl, hv⟩, by simp [HEnc.write, hb]⟩
  have hint : ∀ (ty : UInt8) (n : Nat) (i : Int), 0 < n → e.encodeInt k ty n i = (e', none) →
      ∃ e1 t, e.encodeKey k = (e1, none) ∧ IsSignedBE n i t ∧ e' = e1.write (ty :: t) := by
    intro ty n i hn h
    unfold HEnc.encodeInt at h
    obtain ⟨e1, hk, h⟩ := andThen_none.1 h
    dsimp only at h
    split at h
    · rename_i b hb
      cases h
      exact ⟨e1, b, hk, packSigned_some hn hb, by simp [HEnc.write]⟩
    · cases h
  have hbytes : ∀ (ty : UInt8) (b : Bytes), e.encodeBytes k ty b = (e', none) →
      ∃ e1 l, e.encodeKey k = (e1, none) ∧ b.length ≤ 32767 ∧ IsBE 2 b.length l ∧
        e' = e1.write (ty :: l ++ b) := by
    intro ty b h
    unfold HEnc.encodeBytes at h
    split at h
    · cases h
    · rename_i hl
      have hl' : b.length ≤ 32767 := by simp only [maxHeaderValueByteLength] at hl; omega
      obtain ⟨e1, hk, h⟩ := andThen_none.1 h
      cases h
      exact ⟨e1, _, hk, hl', (isBE_iff _ _ _).2 ⟨by omega, rfl⟩, by simp [HEnc.write]⟩
  unfold HEnc.encodeHeader at h
  cases v with
  | bool b =>
    obtain ⟨e1, hk, h⟩ := andThen_none.1 h
    cases h
    cases b
    · exact fin e1 [1] hk rfl rfl
    · exact fin e1 [0] hk rfl rfl
  | byte i => obtain ⟨e1, t, hk, ht, he⟩ := hint _ _ _ (by omega) h; exact fin e1 _ hk ⟨t, rfl, ht⟩ he
  | short i => obtain ⟨e1, t, hk, ht, he⟩ := hint _ _ _ (by omega) h; exact fin e1 _ hk ⟨t, rfl, ht⟩ he
  | int i => obtain ⟨e1, t, hk, ht, he⟩ := hint _ _ _ (by omega) h; exact fin e1 _ hk ⟨t, rfl, ht⟩ he
  | long i => obtain ⟨e1, t, hk, ht, he⟩ := hint _ _ _ (by omega) h; exact fin e1 _ hk ⟨t, rfl, ht⟩ he
  | blob b =>
    obtain ⟨e1, l, hk, h1, h2, he⟩ := hbytes _ _ h
    exact fin e1 _ hk ⟨l, rfl, h1, h2⟩ he
  | str s =>
    obtain ⟨e1, l, hk, h1, h2, he⟩ := hbytes _ _ h
    exact fin e1 _ hk ⟨l, rfl, h1, h2⟩ he
  | timestamp us =>
    obtain ⟨e1, hk, h⟩ := andThen_none.1 h
    dsimp only at h
    split at h
    · rename_i b hb
      cases h
      exact fin e1 (8 :: b) hk ⟨b, rfl, packSigned_some (by omega) hb⟩ (by simp [HEnc.write])
    · cases h
  | uuid v =>
    obtain ⟨e1, hk, h⟩ := andThen_none.1 h
    cases h
    refine fin e1 (9 :: beBytes 16 v.toNat) hk ⟨_, rfl, (isBE_iff _ _ _).2 ⟨?_, rfl⟩⟩
      (by simp [HEnc.write])
    have := v.isLt
    rw [pow_256]; exact this
  | other => cases h

theorem encodeHeader_isNone_iff (e : HEnc) (k : String) (v : HeaderValue) :
    (∃ e', e.encodeHeader k v = (e', none)) ↔ k ∉ e.keys ∧ Representable (k, v) := by
  have hkey := encodeKey_isNone_iff e k
  have hint : ∀ (ty : UInt8) (n : Nat) (i : Int), (∃ e', e.encodeInt k ty n i = (e', none)) ↔
      (k ∉ e.keys ∧ (utf8Encode k).length ≤ 255) ∧ Fits n i := by
    intro ty n i
    rw [← hkey, ← packSigned_isSome_iff]
    unfold HEnc.encodeInt
    simp only [andThen_none]
    constructor
    · rintro ⟨e', e1, hk, h⟩
      refine ⟨⟨e1, hk⟩, ?_⟩
      split at h
      · rename_i b hb; exact ⟨b, hb⟩
      · cases h
    · rintro ⟨⟨e1, hk⟩, b, hb⟩
      exact ⟨_, e1, hk, by simp [hb]; rfl⟩
  have hbytes : ∀ (ty : UInt8) (b : Bytes), (∃ e', e.encodeBytes k ty b = (e', none)) ↔
      (k ∉ e.keys ∧ (utf8Encode k).length ≤ 255) ∧ b.length ≤ 32767 := by
    intro ty b
    rw [← hkey]
    unfold HEnc.encodeBytes
    by_cases hl : maxHeaderValueByteLength < b.length
    · simp only [maxHeaderValueByteLength] at hl
      simp only [maxHeaderValueByteLength, hl, if_true]
      constructor
      · rintro ⟨_, h⟩; cases h
      · rintro ⟨_, h⟩; omega
    · simp only [hl, if_false]
      simp only [maxHeaderValueByteLength] at hl
      simp only [andThen_none]
      constructor
      · rintro ⟨e', e1, hk, h⟩; exact ⟨⟨e1, hk⟩, by omega⟩
      · rintro ⟨⟨e1, hk⟩, _⟩; exact ⟨_, e1, hk, rfl⟩
  unfold HEnc.encodeHeader Representable
  cases v with
  | bool b =>
    simp only [andThen_none, and_true]
    rw [← hkey]
    constructor
    · rintro ⟨e', e1, hk, h⟩; exact ⟨e1, hk⟩
    · rintro ⟨e1, hk⟩; exact ⟨_, e1, hk, rfl⟩
  | byte i => simp only [hint, and_assoc]
  | short i => simp only [hint, and_assoc]
  | int i => simp only [hint, and_assoc]
  | long i => simp only [hint, and_assoc]
  | blob b => simp only [hbytes, and_assoc]
  | str s => simp only [hbytes, and_assoc]
  | timestamp us =>
    simp only [andThen_none, ← and_assoc]
    rw [← hkey, ← packSigned_isSome_iff]
    constructor
    · rintro ⟨e', e1, hk, h⟩
      refine ⟨⟨e1, hk⟩, ?_⟩
      split at h
      · rename_i b hb; exact ⟨b, hb⟩
      · cases h
    · rintro ⟨⟨e1, hk⟩, b, hb⟩
      exact ⟨_, e1, hk, by simp [hb]; rfl⟩
  | uuid v =>
    simp only [andThen_none, and_true]
    rw [← hkey]
    constructor
    · rintro ⟨e', e1, hk, h⟩; exact ⟨e1, hk⟩
    · rintro ⟨e1, hk⟩; exact ⟨_, e1, hk, rfl⟩
  | other => simp

theorem encodeHeaders_none {e e' : HEnc} {hs : List (String × HeaderValue)}
    (h : e.encodeHeaders hs = (e', none)) :
    e'.keys = (hs.map Prod.fst).reverse ++ e.keys ∧ (hs.map Prod.fst).Nodup ∧
    (∀ k ∈ hs.map Prod.fst, k ∉ e.keys) ∧
      ∃ b, WireHeaders hs b ∧ e'.buffer = e.buffer ++ b := by
  induction hs generalizing e with
  | nil =>
    cases h
    exact ⟨rfl, by simp, by simp, [], .nil, by simp⟩
  | cons kv rest ih =>
    obtain ⟨k, v⟩ := kv
    obtain ⟨e1, h1, h2⟩ := andThen_none.1 h
    obtain ⟨hk, hkeys, b, hb, hbuf⟩ := encodeHeader_none h1
    obtain ⟨ih1, ih2, ih3, b', hb', hbuf'⟩ := ih h2
    rw [hkeys] at ih1 ih3
    refine ⟨by simp [ih1], ?_, ?_, b ++ b', .cons hb hb', by simp [hbuf', hbuf]⟩
    · simp only [List.map_cons, List.nodup_cons]
      exact ⟨fun hm => ih3 k hm (by simp), ih2⟩
    · intro k' hk'
      simp only [List.map_cons, List.mem_cons] at hk'
      rcases hk' with rfl | hk'
      · exact hk
      · exact fun hm => ih3 k' hk' (by simp [hm])

theorem encodeHeaders_isNone_iff (e : HEnc) (hs : List (String × HeaderValue)) :
    (∃ e', e.encodeHeaders hs = (e', none)) ↔
      (hs.map Prod.fst).Nodup ∧ (∀ k ∈ hs.map Prod.fst, k ∉ e.keys) ∧ ∀ h ∈ hs, Representable h := by
  induction hs generalizing e with
  | nil => simp [HEnc.encodeHeaders]
  | cons kv rest ih =>
    obtain ⟨k, v⟩ := kv
    simp only [HEnc.encodeHeaders, andThen_none]
    constructor
    · rintro ⟨e', e1, h1, h2⟩
      obtain ⟨hk, hkeys, _⟩ := encodeHeader_none h1
      have hr := ((encodeHeader_isNone_iff e k v).1 ⟨e1, h1⟩).2
      have ⟨i1, i2, i3⟩ := (ih e1).1 ⟨e', h2⟩
      rw [hkeys] at i2
      grind
    · rintro ⟨h1, h2, h3⟩
      simp only [List.map_cons, List.nodup_cons, List.mem_cons, forall_eq_or_imp] at h1 h2 h3
      obtain ⟨e1, he1⟩ := (encodeHeader_isNone_iff e k v).2 ⟨h2.1, h3.1⟩
      obtain ⟨hk, hkeys, _⟩ := encodeHeader_none he1
      obtain ⟨e', he'⟩ := (ih e1).2 ⟨h1.2, by rw [hkeys]; grind, h3.2⟩
      exact ⟨e', e1, he1, he'⟩

theorem wireHeaders_unique_aux {v : HeaderValue} {a b : Bytes} (ha : WireValue v a)
    (hb : WireValue v b) : a = b := by
  have hs : ∀ {n i t u}, IsSignedBE n i t → IsSignedBE n i u → t = u := by
    intro n i t u h1 h2
    rw [((isBE_iff _ _ _).1 h1.2).2, ((isBE_iff _ _ _).1 h2.2).2]
  have hu : ∀ {n i t u}, IsBE n i t → IsBE n i u → t = u := by
    intro n i t u h1 h2
    rw [((isBE_iff _ _ _).1 h1).2, ((isBE_iff _ _ _).1 h2).2]
  cases v with
  | bool b => cases b <;> (simp only [WireValue] at *; simp_all)
  | byte i => obtain ⟨t, rfl, h⟩ := ha; obtain ⟨u, rfl, h'⟩ := hb; rw [hs h h']
  | short i => obtain ⟨t, rfl, h⟩ := ha; obtain ⟨u, rfl, h'⟩ := hb; rw [hs h h']
  | int i => obtain ⟨t, rfl, h⟩ := ha; obtain ⟨u, rfl, h'⟩ := hb; rw [hs h h']
  | long i => obtain ⟨t, rfl, h⟩ := ha; obtain ⟨u, rfl, h'⟩ := hb; rw [hs h h']
  | timestamp i => obtain ⟨t, rfl, h⟩ := ha; obtain ⟨u, rfl, h'⟩ := hb; rw [hs h h']
  | uuid i => obtain ⟨t, rfl, h⟩ := ha; obtain ⟨u, rfl, h'⟩ := hb; rw [hu h h']
  | blob x => obtain ⟨t, rfl, _, h⟩ := ha; obtain ⟨u, rfl, _, h'⟩ := hb; rw [hu h h']
  | str x => obtain ⟨t, rfl, _, h⟩ := ha; obtain ⟨u, rfl, _, h'⟩ := hb; rw [hu h h']
  | other => exact ha.elim

theorem wireHeaders_unique {hs : List (String × HeaderValue)} {a b : Bytes}
    (ha : WireHeaders hs a) (hb : WireHeaders hs b) : a = b := by
  induction ha generalizing b with
  | nil => cases hb; rfl
  | cons h1 _ ih =>
    cases hb with
    | cons h2 h3 =>
      rw [ih h3]
      obtain ⟨l, v, rfl, hl, hv⟩ := h1
      obtain ⟨l', v', rfl, hl', hv'⟩ := h2
      rw [wireHeaders_unique_aux hv hv', ((isBE_iff _ _ _).1 hl).2, ((isBE_iff _ _ _).1 hl').2]

/-! ### header decoder on encoder output -/

/-- What a header value reads back as. -/
def readBack : HeaderValue → Except Err HeaderValue
  | .timestamp us =>
    match fromTimestamp (rnd ((timestampMillis us : Rat) / 1000)) with
    | .ok u => .ok (.timestamp u)
    | .error x => .error x
  | v => .ok v

theorem unpackByteArray_append {n : Nat} {b l : Bytes} (rest : Bytes) (hb : b.length ≤ 32767)
    (hl : IsBE n b.length l) :
    unpackByteArray n (l ++ b ++ rest) = .ok (b, b.length + n) := by
  unfold unpackByteArray
  rw [List.append_assoc, unpackUnsigned_append _ hl]
  have : ¬ maxHeaderValueByteLength < b.length := by simp only [maxHeaderValueByteLength]; omega
  simp only [this, if_false]
  rw [List.drop_left' hl.1, List.take_left' rfl]

theorem unpackUtf8_append {n : Nat} {s : String} {l : Bytes} (rest : Bytes)
    (hb : (utf8Encode s).length ≤ 32767) (hl : IsBE n (utf8Encode s).length l) :
    unpackUtf8 n (l ++ utf8Encode s ++ rest) = .ok (s, (utf8Encode s).length + n) := by
  unfold unpackUtf8
  rw [unpackByteArray_append rest hb hl]
  simp only [utf8Decode_encode]

theorem unpackValue_wire {v : HeaderValue} {ty : UInt8} {t : Bytes} (rest : Bytes)
    (h : WireValue v (ty :: t)) :
    (∀ v', readBack v = .ok v' → unpackValue ty.toNat (t ++ rest) = .ok (v', t.length)) ∧
    (∀ x, readBack v = .error x → unpackValue ty.toNat (t ++ rest) = .error x) := by
  have hi : ∀ {n i t'} (mk : Int → HeaderValue), 0 < n → IsSignedBE n i t' →
      unpackInt n mk (t' ++ rest) = .ok (mk i, t'.length) := by
    intro n i t' mk hn ht
    unfold unpackInt
    rw [unpackSigned_append rest hn ht, ht.2.1]
  cases v with
  | bool b =>
    cases b <;> (simp only [WireValue, List.cons.injEq] at h; obtain ⟨rfl, rfl⟩ := h)
    · exact ⟨by intro v' hv; cases hv; rfl, by intro x hx; cases hx⟩
    · exact ⟨by intro v' hv; cases hv; rfl, by intro x hx; cases hx⟩
  | byte i =>
    obtain ⟨t', h, ht⟩ := h
    cases h
    exact ⟨by intro v' hv; cases hv; exact hi .byte (by omega) ht, by intro x hx; cases hx⟩
  | short i =>
    obtain ⟨t', h, ht⟩ := h
    cases h
    exact ⟨by intro v' hv; cases hv; exact hi .short (by omega) ht, by intro x hx; cases hx⟩
  | int i =>
    obtain ⟨t', h, ht⟩ := h
    cases h
    exact ⟨by intro v' hv; cases hv; exact hi .int (by omega) ht, by intro x hx; cases hx⟩
  | long i =>
    obtain ⟨t', h, ht⟩ := h
    cases h
    exact ⟨by intro v' hv; cases hv; exact hi .long (by omega) ht, by intro x hx; cases hx⟩
  | blob b =>
    obtain ⟨l, h, hb, hl⟩ := h
    cases h
    refine ⟨by
      intro v' hv; cases hv
      show unpackValue 6 ((l ++ b) ++ rest) = .ok (_, (l ++ b).length)
      unfold unpackValue
      rw [unpackByteArray_append rest hb hl]
      simp [hl.1]; omega, by intro x hx; cases hx⟩
  | str b =>
    obtain ⟨l, h, hb, hl⟩ := h
    cases h
    refine ⟨by
      intro v' hv; cases hv
      show unpackValue 7 ((l ++ utf8Encode b) ++ rest) = .ok (_, (l ++ utf8Encode b).length)
      unfold unpackValue
      rw [unpackUtf8_append rest hb hl]
      simp [hl.1]; omega, by intro x hx; cases hx⟩
  | timestamp us =>
    obtain ⟨t', h, ht⟩ := h
    cases h
    have key : unpackValue (8 : UInt8).toNat (t ++ rest) =
      match fromTimestamp (rnd ((timestampMillis us : Rat) / 1000)) with
      | .ok us => .ok (.timestamp us, 8)
      | .error x => .error x := by
      show unpackValue 8 _ = _
      unfold unpackValue
      rw [unpackSigned_append rest (by omega) ht]
      rfl
    rw [key]
    dsimp only [readBack]
    rw [ht.2.1]
    generalize fromTimestamp (rnd ((timestampMillis us : Rat) / 1000)) = r
    cases r with
    | ok u => exact ⟨by intro v' hv; cases hv; rfl, by intro x hx; cases hx⟩
    | error y => exact ⟨by intro v' hv; (cases hv), by intro x hx; cases hx; rfl⟩
  | uuid v =>
    obtain ⟨t', h, ht⟩ := h
    cases h
    refine ⟨by
      intro v' hv; cases hv
      show unpackValue 9 _ = _
      unfold unpackValue
      rw [List.take_left' ht.1]
      simp [ht.1, ht.2], by intro x hx; cases hx⟩
  | other => exact h.elim

theorem wireValue_cons {v : HeaderValue} {b : Bytes} (h : WireValue v b) : ∃ ty t, b = ty :: t := by
  cases v with
  | bool b => cases b <;> exact ⟨_, _, h⟩
  | byte i => obtain ⟨t, rfl, _⟩ := h; exact ⟨_, _, rfl⟩
  | short i => obtain ⟨t, rfl, _⟩ := h; exact ⟨_, _, rfl⟩
  | int i => obtain ⟨t, rfl, _⟩ := h; exact ⟨_, _, rfl⟩
  | long i => obtain ⟨t, rfl, _⟩ := h; exact ⟨_, _, rfl⟩
  | timestamp i => obtain ⟨t, rfl, _⟩ := h; exact ⟨_, _, rfl⟩
  | uuid i => obtain ⟨t, rfl, _⟩ := h; exact ⟨_, _, rfl⟩
  | blob x => obtain ⟨t, rfl, _⟩ := h; exact ⟨_, _, rfl⟩
  | str x => obtain ⟨t, rfl, _⟩ := h; exact ⟨_, _, rfl⟩
  | other => exact h.elim

theorem decodeHeader_wire {k : String} {v v' : HeaderValue} {b : Bytes} (rest : Bytes)
    (h : WireHeader (k, v) b) (hv : readBack v = .ok v') :
    decodeHeader (b ++ rest) = .ok ((k, v'), rest) := by
  obtain ⟨l, vb, rfl, hl, hvb⟩ := h
  obtain ⟨ty, t, rfl⟩ := wireValue_cons hvb
  have hlt : (utf8Encode k).length ≤ 255 := by
    have := beNat_lt l; rw [hl.2, hl.1] at this; dsimp only at this; omega
  unfold decodeHeader
  have e1 : l ++ utf8Encode (k, v).1 ++ ty :: t ++ rest
      = l ++ utf8Encode k ++ ([ty] ++ (t ++ rest)) := by simp
  rw [e1, unpackUtf8_append _ (by show (utf8Encode k).length ≤ _; omega) hl]
  dsimp only
  rw [List.drop_left' (by rw [List.length_append, hl.1]; omega)]
  have hty : IsBE 1 ty.toNat [ty] := ⟨rfl, by simp [beNat]⟩
  rw [unpackUnsigned_append _ hty]
  dsimp only
  rw [List.drop_left' (by rfl), (unpackValue_wire rest hvb).1 v' hv]
  simp

theorem decodeHeadersLoop_wire {hs : List (String × HeaderValue)} {b : Bytes}
    (f : HeaderValue → HeaderValue)
    (h : WireHeaders hs b) (acc : List (String × HeaderValue))
    (hrb : ∀ x ∈ hs, readBack x.2 = .ok (f x.2))
    (hnd : (hs.map Prod.fst).Nodup) (hdisj : ∀ k ∈ hs.map Prod.fst, k ∉ acc.map Prod.fst) :
    decodeHeadersLoop acc b = .ok (acc ++ hs.map fun x => (x.1, f x.2)) := by
  induction h generalizing acc with
  | nil => rw [decodeHeadersLoop]; simp
  | @cons hd tl b bs h1 h2 ih =>
    obtain ⟨k, v⟩ := hd
    have hv : readBack v = .ok (f v) := hrb (k, v) (by simp)
    rw [decodeHeadersLoop]
    have hd := decodeHeader_wire bs h1 hv
    have hne : ¬ (b ++ bs).length = 0 := by
      obtain ⟨l, vb, rfl, hl, hvb⟩ := h1
      have := hl.1
      simp only [List.length_append]; omega
    simp only [hne, if_false]
    split
    · rename_i x hx; rw [hd] at hx; cases hx
    · rename_i k2 v2 rest hx
      rw [hd] at hx
      cases hx
      simp only [List.map_cons, List.nodup_cons, List.mem_cons, forall_eq_or_imp] at hnd hdisj
      simp only [hdisj.1, if_false]
      rw [ih (acc ++ [(k, f v)]) (fun x hx => hrb x (by simp [hx])) hnd.2]
      · simp
      · grind

/-! ### frames -/

theorem crc32_append (a b : Bytes) (i : BitVec 32) : crc32 (a ++ b) i = crc32 b (crc32 a i) := by
  simp [crc32, List.foldl_append]

theorem isFrame_unique {h p f g : Bytes} (hf : IsFrame h p f) (hg : IsFrame h p g) : f = g := by
  obtain ⟨t, l, c, d, rfl, ht, hl, hc, hd⟩ := hf
  obtain ⟨t', l', c', d', rfl, ht', hl', hc', hd'⟩ := hg
  have ht2 := ((isBE_iff _ _ _).1 ht).2
  have ht2' := ((isBE_iff _ _ _).1 ht').2
  have e : t = t' := by
    rw [ht2, ht2']
    simp only [List.length_append, ht.1, hl.1, hc.1, hd.1, ht'.1, hl'.1, hc'.1, hd'.1]
  subst e
  have e : l = l' := by rw [((isBE_iff _ _ _).1 hl).2, ((isBE_iff _ _ _).1 hl').2]
  subst e
  have e : c = c' := by rw [((isBE_iff _ _ _).1 hc).2, ((isBE_iff _ _ _).1 hc').2]
  subst e
  rw [((isBE_iff _ _ _).1 hd).2, ((isBE_iff _ _ _).1 hd').2]

theorem encodeFrame_ok {h p f : Bytes} (he : encodeFrame h p = .ok f) :
    h.length ≤ 131072 ∧ p.length ≤ 16777216 ∧ IsFrame h p f := by
  unfold encodeFrame at he
  split at he
  · cases he
  · rename_i h1
    split at he
    · cases he
    · rename_i h2
      cases he
      simp only [maxHeadersLength, maxPayloadLength] at h1 h2
      refine ⟨by omega, by omega, ?_⟩
      have ht : IsBE 4 (h.length + p.length + messageMetadataSize)
          (beBytes 4 (h.length + p.length + messageMetadataSize)) :=
        (isBE_iff _ _ _).2 ⟨by simp only [messageMetadataSize]; omega, rfl⟩
      have hl : IsBE 4 h.length (beBytes 4 h.length) := (isBE_iff _ _ _).2 ⟨by omega, rfl⟩
      generalize beBytes 4 (h.length + p.length + messageMetadataSize) = t at *
      generalize beBytes 4 h.length = l at *
      have hc : IsBE 4 (crc32 (t ++ l)).toNat (beBytes 4 (crc32 (t ++ l)).toNat) :=
        (isBE_iff _ _ _).2 ⟨BitVec.isLt _, rfl⟩
      generalize beBytes 4 (crc32 (t ++ l)).toNat = c at *
      have hcrc : crc32 (c ++ h ++ p) (crc32 (t ++ l)) = crc32 (t ++ l ++ c ++ h ++ p) := by
        rw [← crc32_append]; simp
      have hd : IsBE 4 (crc32 (t ++ l ++ c ++ h ++ p)).toNat
          (beBytes 4 (crc32 (c ++ h ++ p) (crc32 (t ++ l))).toNat) := by
        rw [hcrc]; exact (isBE_iff _ _ _).2 ⟨BitVec.isLt _, rfl⟩
      generalize beBytes 4 (crc32 (c ++ h ++ p) (crc32 (t ++ l))).toNat = d at *
      refine ⟨t, l, c, d, by simp, ?_, hl, hc, hd⟩
      have : (t ++ l ++ (c ++ h ++ p) ++ d).length = h.length + p.length + messageMetadataSize := by
        simp only [List.length_append, ht.1, hl.1, hc.1, hd.1, messageMetadataSize]
        omega
      rw [this]
      exact ht

theorem encodeFrame_isOk_iff (h p : Bytes) :
    (∃ f, encodeFrame h p = .ok f) ↔ h.length ≤ 131072 ∧ p.length ≤ 16777216 := by
  unfold encodeFrame
  by_cases h1 : maxHeadersLength < h.length
  · simp only [h1, if_true]
    simp only [maxHeadersLength] at h1
    simp; omega
  · by_cases h2 : maxPayloadLength < p.length
    · simp only [h1, h2, if_true, if_false]
      simp only [maxPayloadLength] at h2
      simp; omega
    · simp only [h1, h2, if_false]
      simp only [maxHeadersLength, maxPayloadLength] at h1 h2
      simp; omega

theorem readSrc_append {a b : Bytes} {n : Int} (h : (a.length : Int) = n) :
    readSrc (a ++ b) n = (a, b) := by
  subst h
  unfold readSrc
  rw [if_neg (by omega)]
  simp

theorem encode_ok {m : EventMessage} {f : Bytes} (he : m.encode = .ok f) :
    ∃ h, WireHeaders m.headers h ∧ IsFrame h m.payload f ∧ (m.headers.map Prod.fst).Nodup ∧
      h.length ≤ 131072 ∧ m.payload.length ≤ 16777216 := by
  unfold EventMessage.encode at he
  split at he
  · cases he
  · rename_i h hh
    unfold EventMessage.headersBytes at hh
    split at hh
    · cases hh
    · rename_i e he'
      unfold HEnc.getResult at hh
      split at hh
      · cases hh
      · cases hh
        obtain ⟨_, hnd, _, b, hb, hbuf⟩ := encodeHeaders_none he'
        obtain ⟨h1, h2, h3⟩ := encodeFrame_ok he
        have : e.buffer = b := by rw [hbuf]; rfl
        rw [this] at h1 h3
        exact ⟨b, hb, h3, hnd, h1, h2⟩

/-- Decoding a source that starts with a frame. -/
theorem decode_frame {h p f rest : Bytes} {hs : List (String × HeaderValue)} (hf : IsFrame h p f)
    (hl : h.length ≤ 131072) (hp : p.length ≤ 16777216) (hd : decodeHeaders h = .ok hs) :
    ∃ e, Event.decode (f ++ rest) = (.ok (some e), rest) ∧ e.message = ⟨hs, p⟩ := by
  obtain ⟨t, l, c, d, hfe, ht, hl', hc, hd'⟩ := hf
  have hflen : f.length = h.length + p.length + 16 := by
    rw [hfe]; simp only [List.length_append, ht.1, hl'.1, hc.1, hd'.1]; omega
  unfold Event.decode
  have e1 : f ++ rest = (t ++ l) ++ (c ++ ((h ++ p) ++ (d ++ rest))) := by rw [hfe]; simp
  rw [e1, readSrc_append (by simp [ht.1, hl'.1])]
  have ne : t ++ l ≠ [] := by
    intro hh
    have := congrArg List.length hh
    simp only [List.length_append, ht.1, hl'.1] at this
    simp at this
  simp only [ne, if_false]
  rw [readSrc_append (by simp [hc.1])]
  have hc' : unpackUnsigned 4 c = some (crc32 (t ++ l)).toNat := by
    have := unpackUnsigned_append [] hc; simpa using this
  have hd2 : unpackUnsigned 4 d = some (crc32 (t ++ l ++ c ++ h ++ p)).toNat := by
    have := unpackUnsigned_append [] hd'; simpa using this
  simp only [hc']
  have hlen8 : (t ++ l).length = 8 := by simp [ht.1, hl'.1]
  simp only [hlen8, ne_eq, not_true_eq_false, if_false]
  have htake : (t ++ l).take 4 = t := List.take_left' ht.1
  have hdrop : (t ++ l).drop 4 = l := List.drop_left' ht.1
  simp only [htake, hdrop, ht.2, hl'.2, checksumOk, beq_self_eq_true, Bool.not_true,
    Bool.false_eq_true, if_false]
  have c1 : ¬ maxHeadersLength < h.length := by simp only [maxHeadersLength]; omega
  have c2 : ¬ ((maxPayloadLength : Int) < (f.length : Int) - (h.length : Int) - 16) := by
    simp only [maxPayloadLength, hflen]; omega
  simp only [c1, c2, if_false]
  rw [readSrc_append (a := h ++ p) (by simp [hflen, messageMetadataSize])]
  dsimp only
  rw [readSrc_append (by simp [hd'.1])]
  dsimp only
  simp only [hd2, BitVec.ofNat_toNat, BitVec.setWidth_eq]
  have hcrc : crc32 (c ++ (h ++ p)) (crc32 (t ++ l)) = crc32 (t ++ l ++ c ++ h ++ p) := by
    rw [← crc32_append]; simp
  simp only [hcrc, beq_self_eq_true, Bool.not_true, Bool.false_eq_true, if_false]
  simp only [List.take_left' rfl, hd, List.drop_left' rfl, EventMessage.mk?]
  have c3 : ¬ maxPayloadLength < p.length := by simp only [maxPayloadLength]; omega
  simp only [c3, if_false]
  exact ⟨_, rfl, rfl⟩

theorem decode_encode {m : EventMessage} {f : Bytes} (rest : Bytes) (g : HeaderValue → HeaderValue)
    (he : m.encode = .ok f) (hrb : ∀ x ∈ m.headers, readBack x.2 = .ok (g x.2)) :
    ∃ e, Event.decode (f ++ rest) = (.ok (some e), rest) ∧
      e.message = ⟨m.headers.map fun x => (x.1, g x.2), m.payload⟩ := by
  obtain ⟨h, hw, hf, hnd, h1, h2⟩ := encode_ok he
  refine decode_frame hf h1 h2 ?_
  unfold decodeHeaders
  have : ¬ maxHeadersLength < h.length := by simp only [maxHeadersLength]; omega
  simp only [this, if_false]
  rw [decodeHeadersLoop_wire g hw [] hrb hnd (by simp)]
  simp

end Verif.EventStream
