import Verif.EventStream.Spec

/-! Exactness of binary64 arithmetic on integers below 2^53. -/

set_option autoImplicit false

namespace Verif.EventStream
open Spec

theorem divRoundHalfEven_one (n : Nat) : divRoundHalfEven n 1 = n := by
  unfold divRoundHalfEven
  simp [Nat.mod_one]

theorem rndPos_nat {n : Nat} (h0 : n ≠ 0) (h : n < 2 ^ 53) : rndPos n 1 = (n : Rat) := by
  have hk : leadExp n 1 = (Nat.log2 n : Int) := by
    unfold leadExp
    have h1 : Nat.log2 1 = 0 := by decide
    simp only [h1]
    have := Nat.log2_self_le h0
    simp
    omega
  have hlog : Nat.log2 n < 53 := (Nat.log2_lt h0).2 h
  unfold rndPos
  simp only [hk]
  split
  · rename_i he
    have : ((Nat.log2 n : Int) - 52).toNat = 0 := by omega
    rw [this]
    simp [divRoundHalfEven_one]
  · rw [divRoundHalfEven_one, Rat.natCast_mul]
    generalize (-((Nat.log2 n : Int) - 52)).toNat = j
    have hp : ((2 ^ j : Nat) : Rat) ≠ 0 := by
      have : 0 < 2 ^ j := Nat.pow_pos (by omega)
      intro hz
      have := Rat.natCast_eq_zero_iff.1 hz
      omega
    rw [Rat.div_def, Rat.mul_assoc, Rat.mul_inv_cancel _ hp, Rat.mul_one]

theorem rnd_int {n : Int} (h : n.natAbs < 2 ^ 53) : rnd (n : Rat) = (n : Rat) := by
  have hn : (n : Rat).num = n := Rat.num_intCast n
  have hd : (n : Rat).den = 1 := Rat.den_intCast n
  unfold rnd
  rw [hn, hd]
  by_cases h0 : n = 0
  · subst h0; rfl
  · rw [if_neg h0, rndPos_nat (by omega) h]
    by_cases h1 : 0 < n
    · rw [if_pos h1, ← Rat.intCast_natCast]; congr 1; omega
    · rw [if_neg h1, ← Rat.intCast_natCast, ← Rat.intCast_neg]; congr 1; omega

theorem truncRat_int (n : Int) : truncRat (n : Rat) = n := by
  simp [truncRat]

theorem timestamp_whole {s : Int} (h : (s * 1000).natAbs < 2 ^ 53) :
    timestampMillis (s * 1000000) = s * 1000 := by
  unfold timestampMillis
  have h1 : ((s * 1000000 : Int) : Rat) / 1000000 = (s : Rat) := by
    rw [Rat.intCast_mul, Rat.div_def, Rat.mul_assoc]
    rw [show ((1000000 : Int) : Rat) = 1000000 from rfl, Rat.mul_inv_cancel _ (by decide), Rat.mul_one]
  rw [h1, rnd_int (by omega)]
  have h2 : (s : Rat) * 1000 = ((s * 1000 : Int) : Rat) := by rw [Rat.intCast_mul]; rfl
  rw [h2, rnd_int h, truncRat_int]

theorem fromTimestamp_int {s : Int} (h1 : minMicros ≤ s * 1000000) (h2 : s * 1000000 ≤ maxMicros) :
    fromTimestamp (s : Rat) = .ok (s * 1000000) := by
  have h0 : roundHalfEven (rnd (((s : Rat) - (s : Rat)) * 1000000)) = 0 := by
    rw [Rat.sub_self, Rat.zero_mul]; decide +kernel
  unfold fromTimestamp
  simp only [truncRat_int, h0, Int.add_zero, h1, h2, and_self, if_true]

theorem readBack_whole {us : Int} (h : us % 1000000 = 0) (h1 : minMicros ≤ us) (h2 : us ≤ maxMicros) :
    fromTimestamp (rnd ((timestampMillis us : Rat) / 1000)) = .ok us := by
  obtain ⟨s, rfl⟩ : ∃ s, us = s * 1000000 := ⟨us / 1000000, by omega⟩
  have hb : (s * 1000).natAbs < 2 ^ 53 := by simp only [minMicros, maxMicros] at h1 h2; omega
  rw [timestamp_whole hb]
  have e : ((s * 1000 : Int) : Rat) / 1000 = (s : Rat) := by
    rw [Rat.intCast_mul, Rat.div_def, Rat.mul_assoc]
    rw [show ((1000 : Int) : Rat) = 1000 from rfl, Rat.mul_inv_cancel _ (by decide), Rat.mul_one]
  rw [e, rnd_int (by omega), fromTimestamp_int h1 h2]

end Verif.EventStream
