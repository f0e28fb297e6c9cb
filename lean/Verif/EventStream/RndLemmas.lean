import Verif.EventStream.Float64Lemmas
import Mathlib.Tactic.Linarith
import Mathlib.Tactic.Ring
import Mathlib.Tactic.GCongr
import Mathlib.Tactic.FieldSimp
import Mathlib.Tactic.Positivity
import Mathlib.Algebra.Order.Field.Rat
import Mathlib.Algebra.Order.Field.Power
import Mathlib.Data.Rat.Cast.Defs

/-! Rounding to binary64: monotone, exact on floats, relative error at most `2^-53`. -/

set_option autoImplicit false

namespace Verif.EventStream

theorem divRoundHalfEven_spec (n d : Nat) (hd : 0 < d) :
    2 * n ≤ 2 * (divRoundHalfEven n d * d) + d ∧ 2 * (divRoundHalfEven n d * d) ≤ 2 * n + d ∧
    ((2 * n = 2 * (divRoundHalfEven n d * d) + d ∨ 2 * (divRoundHalfEven n d * d) = 2 * n + d) →
      divRoundHalfEven n d % 2 = 0) := by
  have h1 : d * (n / d) + n % d = n := Nat.div_add_mod n d
  have h2 : n % d < d := Nat.mod_lt n hd
  have h3 : n / d * d = d * (n / d) := Nat.mul_comm _ _
  have h4 : (n / d + 1) * d = d * (n / d) + d := by rw [Nat.add_mul, h3, Nat.one_mul]
  unfold divRoundHalfEven
  dsimp only
  split
  · rw [h3]; omega
  · split
    · rw [h4]; omega
    · split
      · rw [h3]; omega
      · rw [h4]; omega

/-- Distance of a rounded quotient, in rationals. -/
theorem divRoundHalfEven_dist (n d : Nat) (hd : 0 < d) :
    (n : ℚ) / d - 1 / 2 ≤ (divRoundHalfEven n d : ℚ) ∧ (divRoundHalfEven n d : ℚ) ≤ (n : ℚ) / d + 1 / 2 := by
  obtain ⟨h1, h2, _⟩ := divRoundHalfEven_spec n d hd
  have hd' : (0 : ℚ) < d := by exact_mod_cast hd
  have h1' : 2 * (n : ℚ) ≤ 2 * ((divRoundHalfEven n d : ℚ) * d) + d := by exact_mod_cast h1
  have h2' : 2 * ((divRoundHalfEven n d : ℚ) * d) ≤ 2 * (n : ℚ) + d := by exact_mod_cast h2
  constructor
  · rw [sub_le_iff_le_add, div_le_iff₀ hd']; nlinarith
  · rw [← sub_le_iff_le_add, le_div_iff₀ hd']; nlinarith

theorem divRoundHalfEven_mono {n₁ d₁ n₂ d₂ : Nat} (h₁ : 0 < d₁) (h₂ : 0 < d₂)
    (h : (n₁ : ℚ) / d₁ ≤ (n₂ : ℚ) / d₂) : divRoundHalfEven n₁ d₁ ≤ divRoundHalfEven n₂ d₂ := by
  by_contra hlt
  push Not at hlt
  obtain ⟨a1, a2, a3⟩ := divRoundHalfEven_spec n₁ d₁ h₁
  obtain ⟨b1, b2, b3⟩ := divRoundHalfEven_spec n₂ d₂ h₂
  have c1 := (divRoundHalfEven_dist n₁ d₁ h₁).2
  have c2 := (divRoundHalfEven_dist n₂ d₂ h₂).1
  have hd1 : (0 : ℚ) < d₁ := by exact_mod_cast h₁
  have hd2 : (0 : ℚ) < d₂ := by exact_mod_cast h₂
  have hlt' : (divRoundHalfEven n₂ d₂ : ℚ) + 1 ≤ divRoundHalfEven n₁ d₁ := by exact_mod_cast hlt
  have e1 : (divRoundHalfEven n₁ d₁ : ℚ) = (n₁ : ℚ) / d₁ + 1 / 2 := by linarith
  have e2 : (divRoundHalfEven n₂ d₂ : ℚ) = (n₂ : ℚ) / d₂ - 1 / 2 := by linarith
  have e3 : (divRoundHalfEven n₁ d₁ : ℚ) = (divRoundHalfEven n₂ d₂ : ℚ) + 1 := by linarith
  have f1 : 2 * (divRoundHalfEven n₁ d₁ * d₁) = 2 * n₁ + d₁ := by
    have : 2 * ((divRoundHalfEven n₁ d₁ : ℚ) * d₁) = 2 * n₁ + d₁ := by
      rw [e1]; field_simp
    exact_mod_cast this
  have f2 : 2 * n₂ = 2 * (divRoundHalfEven n₂ d₂ * d₂) + d₂ := by
    have : 2 * (n₂ : ℚ) = 2 * ((divRoundHalfEven n₂ d₂ : ℚ) * d₂) + d₂ := by
      rw [e2]; field_simp; ring
    exact_mod_cast this
  have g1 := a3 (.inr f1)
  have g2 := b3 (.inl f2)
  have e3' : divRoundHalfEven n₁ d₁ = divRoundHalfEven n₂ d₂ + 1 := by exact_mod_cast e3
  omega

theorem leadExp_spec {n d : Nat} (hn : 0 < n) (hd : 0 < d) :
    (2 : ℚ) ^ leadExp n d ≤ (n : ℚ) / d ∧ (n : ℚ) / d < 2 ^ (leadExp n d + 1) := by
  have hn1 : 2 ^ n.log2 ≤ n := Nat.log2_self_le (by omega)
  have hn2 : n < 2 ^ (n.log2 + 1) := Nat.lt_log2_self
  have hd1 : 2 ^ d.log2 ≤ d := Nat.log2_self_le (by omega)
  have hd2 : d < 2 ^ (d.log2 + 1) := Nat.lt_log2_self
  have hdq : (0 : ℚ) < d := by exact_mod_cast hd
  have hnq : (0 : ℚ) < n := by exact_mod_cast hn
  have qn1 : (2 : ℚ) ^ (n.log2 : ℤ) ≤ n := by rw [zpow_natCast]; exact_mod_cast hn1
  have qn2 : (n : ℚ) < 2 ^ ((n.log2 : ℤ) + 1) := by
    rw [show (n.log2 : ℤ) + 1 = ((n.log2 + 1 : ℕ) : ℤ) by push_cast; rfl, zpow_natCast]; exact_mod_cast hn2
  have qd1 : (2 : ℚ) ^ (d.log2 : ℤ) ≤ d := by rw [zpow_natCast]; exact_mod_cast hd1
  have qd2 : (d : ℚ) < 2 ^ ((d.log2 : ℤ) + 1) := by
    rw [show (d.log2 : ℤ) + 1 = ((d.log2 + 1 : ℕ) : ℤ) by push_cast; rfl, zpow_natCast]; exact_mod_cast hd2
  -- rough bounds
  have up : (n : ℚ) / d < 2 ^ ((n.log2 : ℤ) - d.log2 + 1) := by
    rw [div_lt_iff₀ hdq]
    calc (n : ℚ) < 2 ^ ((n.log2 : ℤ) + 1) := qn2
      _ = 2 ^ ((n.log2 : ℤ) - d.log2 + 1) * 2 ^ (d.log2 : ℤ) := by
        rw [← zpow_add₀ (by norm_num)]; congr 1; ring
      _ ≤ _ := by gcongr
  have low : (2 : ℚ) ^ ((n.log2 : ℤ) - d.log2 - 1) ≤ (n : ℚ) / d := by
    rw [le_div_iff₀ hdq]
    calc (2 : ℚ) ^ ((n.log2 : ℤ) - d.log2 - 1) * d ≤ 2 ^ ((n.log2 : ℤ) - d.log2 - 1) * 2 ^ ((d.log2 : ℤ) + 1) := by
          gcongr
      _ = 2 ^ (n.log2 : ℤ) := by rw [← zpow_add₀ (by norm_num)]; congr 1; ring
      _ ≤ n := qn1
  have test : ∀ k : ℤ, (if 0 ≤ k then n < d * 2 ^ k.toNat else n * 2 ^ (-k).toNat < d) ↔ (n : ℚ) / d < 2 ^ k := by
    intro k
    rw [div_lt_iff₀ hdq]
    split
    · rename_i hk
      obtain ⟨j, rfl⟩ := Int.eq_ofNat_of_zero_le hk
      rw [Int.toNat_natCast, zpow_natCast, mul_comm]
      exact_mod_cast Iff.rfl
    · rename_i hk
      obtain ⟨j, hj⟩ := Int.eq_ofNat_of_zero_le (show 0 ≤ -k by omega)
      obtain rfl : k = -(j : ℤ) := by omega
      rw [neg_neg, Int.toNat_natCast, zpow_neg, zpow_natCast, inv_mul_eq_div, lt_div_iff₀ (by positivity)]
      exact_mod_cast Iff.rfl
  have ht := test ((n.log2 : ℤ) - d.log2)
  unfold leadExp
  dsimp only
  by_cases hk : (0 : ℤ) ≤ (n.log2 : ℤ) - d.log2
  · rw [if_pos hk] at ht ⊢
    split
    · rename_i h
      exact ⟨low, by rw [sub_add_cancel]; exact ht.1 h⟩
    · rename_i h
      exact ⟨not_lt.1 (fun h' => h (ht.2 h')), up⟩
  · rw [if_neg hk] at ht ⊢
    split
    · rename_i h
      exact ⟨low, by rw [sub_add_cancel]; exact ht.1 h⟩
    · rename_i h
      exact ⟨not_lt.1 (fun h' => h (ht.2 h')), up⟩

/-- `rndPos` as a multiple of the spacing of floats in the binade. -/
theorem rndPos_eq {n d : Nat} (hd : 0 < d) : ∃ a b : Nat, 0 < b ∧
    (a : ℚ) / b = (n : ℚ) / d / 2 ^ (leadExp n d - 52) ∧
    rndPos n d = (divRoundHalfEven a b : ℚ) * 2 ^ (leadExp n d - 52) := by
  have hdq : (0 : ℚ) < d := by exact_mod_cast hd
  unfold rndPos
  dsimp only
  split
  · rename_i he
    obtain ⟨j, hj⟩ := Int.eq_ofNat_of_zero_le he
    refine ⟨n, d * 2 ^ (leadExp n d - 52).toNat, by positivity, ?_, ?_⟩
    · rw [hj, Int.toNat_natCast, zpow_natCast]
      push_cast
      rw [div_div]
    · rw [hj, Int.toNat_natCast, zpow_natCast]
      push_cast
      rfl
  · rename_i he
    obtain ⟨j, hj⟩ := Int.eq_ofNat_of_zero_le (show 0 ≤ -(leadExp n d - 52) by omega)
    have hj' : leadExp n d - 52 = -(j : ℤ) := by omega
    refine ⟨n * 2 ^ (-(leadExp n d - 52)).toNat, d, hd, ?_, ?_⟩
    · rw [hj', neg_neg, Int.toNat_natCast, zpow_neg, zpow_natCast]
      push_cast
      field_simp
    · rw [hj', neg_neg, Int.toNat_natCast, zpow_neg, zpow_natCast]
      push_cast
      rw [div_eq_mul_inv]

/-- A finite binary64 number (without bounds on the exponent). -/
def IsFloat (q : ℚ) : Prop := ∃ m e : ℤ, |m| ≤ 2 ^ 53 ∧ q = m * 2 ^ e

theorem rnd_pos {q : ℚ} (h : 0 < q) : rnd q = rndPos q.num.natAbs q.den := by
  have : 0 < q.num := Rat.num_pos.2 h
  unfold rnd
  rw [if_neg (by omega), if_pos this]

theorem rnd_zero : rnd 0 = 0 := by unfold rnd; simp

theorem rnd_neg (q : ℚ) : rnd (-q) = - rnd q := by
  unfold rnd
  have e1 : (-q).num = -q.num := rfl
  have e2 : (-q).den = q.den := rfl
  rw [e1, e2]
  rcases lt_trichotomy q.num 0 with h | h | h
  · rw [if_neg (by omega), if_pos (by omega), if_neg (by omega), if_neg (by omega), Int.natAbs_neg]; simp
  · simp [h]
  · rw [if_neg (by omega), if_neg (by omega), if_neg (by omega), if_pos (by omega), Int.natAbs_neg]

/-- The whole story for a positive number. -/
theorem rnd_pos_spec {q : ℚ} (h : 0 < q) : ∃ (k : ℤ) (a b : Nat), 0 < b ∧
    (2 : ℚ) ^ k ≤ q ∧ q < 2 ^ (k + 1) ∧ (a : ℚ) / b = q / 2 ^ (k - 52) ∧
    rnd q = (divRoundHalfEven a b : ℚ) * 2 ^ (k - 52) ∧
    2 ^ 52 ≤ divRoundHalfEven a b ∧ divRoundHalfEven a b ≤ 2 ^ 53 := by
  have hn : 0 < q.num.natAbs := by have := Rat.num_pos.2 h; omega
  have hq : (q.num.natAbs : ℚ) / q.den = q := by
    have hz : ((q.num.natAbs : ℤ) : ℚ) = (q.num : ℚ) := by
      congr 1; have := Rat.num_pos.2 h; omega
    rw [show (q.num.natAbs : ℚ) = ((q.num.natAbs : ℤ) : ℚ) from (Rat.intCast_natCast _).symm, hz, Rat.num_div_den]
  obtain ⟨l1, l2⟩ := leadExp_spec hn q.den_pos
  obtain ⟨a, b, hb, hab, hr⟩ := rndPos_eq (n := q.num.natAbs) q.den_pos
  rw [hq] at l1 l2 hab
  refine ⟨leadExp q.num.natAbs q.den, a, b, hb, l1, l2, hab, by rw [rnd_pos h]; exact hr, ?_, ?_⟩
  all_goals generalize leadExp q.num.natAbs q.den = k at *
  · have h1 : ((2 ^ 52 : ℕ) : ℚ) / (1 : ℕ) ≤ (a : ℚ) / b := by
      rw [hab, le_div_iff₀ (by positivity)]
      calc _ = (2 : ℚ) ^ (52 : ℤ) * 2 ^ (k - 52) := by norm_num
        _ = 2 ^ k := by rw [← zpow_add₀ (by norm_num)]; congr 1; ring
        _ ≤ q := l1
    have := divRoundHalfEven_mono (by norm_num) hb h1
    rwa [divRoundHalfEven_one] at this
  · have h1 : (a : ℚ) / b ≤ ((2 ^ 53 : ℕ) : ℚ) / (1 : ℕ) := by
      rw [hab, div_le_iff₀ (by positivity)]
      calc q ≤ 2 ^ (k + 1) := l2.le
        _ = (2 : ℚ) ^ (53 : ℤ) * 2 ^ (k - 52) := by rw [← zpow_add₀ (by norm_num)]; congr 1; ring
        _ = _ := by norm_num
    have := divRoundHalfEven_mono hb (by norm_num) h1
    rwa [divRoundHalfEven_one] at this

theorem rnd_isFloat (q : ℚ) : IsFloat (rnd q) := by
  have pos : ∀ q : ℚ, 0 < q → IsFloat (rnd q) := by
    intro q h
    obtain ⟨k, a, b, _, _, _, _, hr, _, h2⟩ := rnd_pos_spec h
    refine ⟨divRoundHalfEven a b, k - 52, ?_, by rw [hr]; norm_cast⟩
    rw [abs_of_nonneg (by positivity)]
    exact_mod_cast h2
  rcases lt_trichotomy q 0 with h | h | h
  · obtain ⟨m, e, h1, h2⟩ := pos (-q) (by linarith)
    refine ⟨-m, e, by rwa [abs_neg], ?_⟩
    rw [rnd_neg] at h2
    push_cast
    linarith
  · rw [h, rnd_zero]; exact ⟨0, 0, by norm_num, by norm_num⟩
  · exact pos q h

/-- Rounding keeps a binade: `2^k ≤ rnd q ≤ 2^(k+1)`. -/
theorem rnd_binade {q : ℚ} (h : 0 < q) : ∃ k : ℤ, (2 : ℚ) ^ k ≤ q ∧ q < 2 ^ (k + 1) ∧
    (2 : ℚ) ^ k ≤ rnd q ∧ rnd q ≤ 2 ^ (k + 1) := by
  obtain ⟨k, a, b, _, l1, l2, _, hr, h1, h2⟩ := rnd_pos_spec h
  have h1' : (2 : ℚ) ^ (52 : ℤ) ≤ divRoundHalfEven a b := by
    rw [show (2 : ℚ) ^ (52 : ℤ) = ((2 ^ 52 : ℕ) : ℚ) by norm_num]; exact_mod_cast h1
  have h2' : (divRoundHalfEven a b : ℚ) ≤ (2 : ℚ) ^ (53 : ℤ) := by
    rw [show (2 : ℚ) ^ (53 : ℤ) = ((2 ^ 53 : ℕ) : ℚ) by norm_num]; exact_mod_cast h2
  refine ⟨k, l1, l2, ?_, ?_⟩
  · rw [hr]
    calc (2 : ℚ) ^ k = 2 ^ (52 : ℤ) * 2 ^ (k - 52) := by rw [← zpow_add₀ (by norm_num)]; congr 1; ring
      _ ≤ _ := by gcongr
  · rw [hr]
    calc _ ≤ (2 : ℚ) ^ (53 : ℤ) * 2 ^ (k - 52) := by gcongr
      _ = 2 ^ (k + 1) := by rw [← zpow_add₀ (by norm_num)]; congr 1; ring

theorem rnd_pos_pos {q : ℚ} (h : 0 < q) : 0 < rnd q := by
  obtain ⟨k, _, _, h1, _⟩ := rnd_binade h
  exact lt_of_lt_of_le (by positivity) h1

theorem rnd_nonneg {q : ℚ} (h : 0 ≤ q) : 0 ≤ rnd q := by
  rcases h.lt_or_eq with h | h
  · exact (rnd_pos_pos h).le
  · rw [← h, rnd_zero]

theorem rnd_mono_pos {p q : ℚ} (hp : 0 < p) (h : p ≤ q) : rnd p ≤ rnd q := by
  have hq : 0 < q := lt_of_lt_of_le hp h
  obtain ⟨k, a, b, hb, l1, l2, hab, hr, h1, h2⟩ := rnd_pos_spec hp
  obtain ⟨k', a', b', hb', l1', l2', hab', hr', h1', h2'⟩ := rnd_pos_spec hq
  have hkk : k ≤ k' := by
    have : (2 : ℚ) ^ k < 2 ^ (k' + 1) := lt_of_le_of_lt l1 (lt_of_le_of_lt h l2')
    have := (zpow_lt_zpow_iff_right₀ (by norm_num : (1 : ℚ) < 2)).1 this
    omega
  rcases hkk.lt_or_eq with hlt | rfl
  · have e1 : rnd p ≤ 2 ^ (k + 1) := by
      rw [hr]
      have h2'' : (divRoundHalfEven a b : ℚ) ≤ (2 : ℚ) ^ (53 : ℤ) := by
        rw [show (2 : ℚ) ^ (53 : ℤ) = ((2 ^ 53 : ℕ) : ℚ) by norm_num]; exact_mod_cast h2
      calc _ ≤ (2 : ℚ) ^ (53 : ℤ) * 2 ^ (k - 52) := by gcongr
        _ = 2 ^ (k + 1) := by rw [← zpow_add₀ (by norm_num)]; congr 1; ring
    have e2 : (2 : ℚ) ^ k' ≤ rnd q := by
      rw [hr']
      have h1'' : (2 : ℚ) ^ (52 : ℤ) ≤ divRoundHalfEven a' b' := by
        rw [show (2 : ℚ) ^ (52 : ℤ) = ((2 ^ 52 : ℕ) : ℚ) by norm_num]; exact_mod_cast h1'
      calc (2 : ℚ) ^ k' = 2 ^ (52 : ℤ) * 2 ^ (k' - 52) := by rw [← zpow_add₀ (by norm_num)]; congr 1; ring
        _ ≤ _ := by gcongr
    have e3 : (2 : ℚ) ^ (k + 1) ≤ 2 ^ k' := zpow_le_zpow_right₀ (by norm_num) (by omega)
    linarith
  · rw [hr, hr']
    have : divRoundHalfEven a b ≤ divRoundHalfEven a' b' :=
      divRoundHalfEven_mono hb hb' (by rw [hab, hab']; gcongr)
    have : (divRoundHalfEven a b : ℚ) ≤ divRoundHalfEven a' b' := by exact_mod_cast this
    gcongr

/-- Rounding is monotone. -/
theorem rnd_mono {p q : ℚ} (h : p ≤ q) : rnd p ≤ rnd q := by
  rcases lt_trichotomy p 0 with hp | hp | hp
  · rcases lt_or_ge q 0 with hq | hq
    · have := rnd_mono_pos (p := -q) (q := -p) (by linarith) (by linarith)
      rw [rnd_neg, rnd_neg] at this
      linarith
    · have h1 := rnd_nonneg hq
      have h2 := rnd_pos_pos (q := -p) (by linarith)
      rw [rnd_neg] at h2
      linarith
  · rw [hp, rnd_zero]; exact rnd_nonneg (by linarith)
  · exact rnd_mono_pos hp h

/-- Rounding a float changes nothing. -/
theorem rnd_float {q : ℚ} (h : IsFloat q) : rnd q = q := by
  have pos : ∀ q : ℚ, 0 < q → IsFloat q → rnd q = q := by
    rintro q hq ⟨m, e, hm, rfl⟩
    obtain ⟨k, a, b, hb, l1, l2, hab, hr, -⟩ := rnd_pos_spec hq
    have hm0 : (0 : ℚ) < m := by
      by_contra hneg
      push Not at hneg
      have : (m : ℚ) * 2 ^ e ≤ 0 := mul_nonpos_of_nonpos_of_nonneg hneg (by positivity)
      linarith
    have hm' : (m : ℚ) ≤ 2 ^ (53 : ℤ) := by
      have h1 : m ≤ 2 ^ 53 := le_trans (le_abs_self m) hm
      rw [show (2 : ℚ) ^ (53 : ℤ) = ((2 ^ 53 : ℤ) : ℚ) by norm_num]; exact_mod_cast h1
    -- the quotient is an integer
    obtain ⟨N, hN⟩ : ∃ N : ℤ, (m : ℚ) * 2 ^ e / 2 ^ (k - 52) = N := by
      rcases le_or_gt (k - 52) e with hle | hlt
      · obtain ⟨j, hj⟩ := Int.eq_ofNat_of_zero_le (show 0 ≤ e - (k - 52) by omega)
        refine ⟨m * 2 ^ j, ?_⟩
        have : (2 : ℚ) ^ e = 2 ^ j * 2 ^ (k - 52) := by
          rw [← zpow_natCast, ← zpow_add₀ (by norm_num)]; congr 1; omega
        rw [this]
        push_cast
        field_simp
      · -- only `m = 2^53` just below the binade is left
        have h1 : (m : ℚ) * 2 ^ e ≤ 2 ^ (53 + e) := by
          rw [zpow_add₀ (by norm_num)]; gcongr
        have h2 : (2 : ℚ) ^ k ≤ 2 ^ (53 + e) := le_trans l1 h1
        have h3 := (zpow_le_zpow_iff_right₀ (by norm_num : (1 : ℚ) < 2)).1 h2
        have h4 : 53 + e = k := by omega
        have h5 : (m : ℚ) * 2 ^ e = 2 ^ k := le_antisymm (h4 ▸ h1) l1
        refine ⟨2 ^ 52, ?_⟩
        rw [h5, ← zpow_sub₀ (by norm_num)]
        rw [show k - (k - 52) = 52 by ring]
        norm_num
    have hq' : (m : ℚ) * 2 ^ e = N * 2 ^ (k - 52) := by
      rw [← hN]; field_simp
    have hNa : (a : ℚ) / b = N := by rw [hab, hN]
    have hN0 : (divRoundHalfEven a b : ℤ) = N := by
      obtain ⟨d1, d2⟩ := divRoundHalfEven_dist a b hb
      rw [hNa] at d1 d2
      have d1' : (N : ℚ) - 1 < (divRoundHalfEven a b : ℤ) := by push_cast; linarith
      have d2' : ((divRoundHalfEven a b : ℤ) : ℚ) < N + 1 := by push_cast; linarith
      have d1'' : N - 1 < (divRoundHalfEven a b : ℤ) := by exact_mod_cast d1'
      have d2'' : (divRoundHalfEven a b : ℤ) < N + 1 := by exact_mod_cast d2'
      omega
    rw [hr, hq', ← hN0]
    push_cast
    rfl
  rcases lt_trichotomy q 0 with hq | hq | hq
  · obtain ⟨m, e, h1, h2⟩ := h
    have := pos (-q) (by linarith) ⟨-m, e, by rwa [abs_neg], by rw [h2]; push_cast; ring⟩
    rw [rnd_neg] at this
    linarith
  · rw [hq, rnd_zero]
  · exact pos q hq h

/-- The relative error of rounding is at most `2^-53`. -/
theorem rnd_err (q : ℚ) : |rnd q - q| ≤ |q| * 2 ^ (-53 : ℤ) := by
  have pos : ∀ q : ℚ, 0 < q → |rnd q - q| ≤ |q| * 2 ^ (-53 : ℤ) := by
    intro q hq
    obtain ⟨k, a, b, hb, l1, l2, hab, hr, -⟩ := rnd_pos_spec hq
    obtain ⟨d1, d2⟩ := divRoundHalfEven_dist a b hb
    rw [hab] at d1 d2
    have hp : (0 : ℚ) < 2 ^ (k - 52) := by positivity
    have hq' : q = q / 2 ^ (k - 52) * 2 ^ (k - 52) := by field_simp
    have e1 : rnd q - q ≤ 1 / 2 * 2 ^ (k - 52) := by
      rw [hr]; nlinarith
    have e2 : -(1 / 2 * 2 ^ (k - 52)) ≤ rnd q - q := by
      rw [hr]; nlinarith
    have e3 : (1 / 2 : ℚ) * 2 ^ (k - 52) = 2 ^ k * 2 ^ (-53 : ℤ) := by
      rw [show (1 / 2 : ℚ) = 2 ^ (-1 : ℤ) by norm_num, ← zpow_add₀ (by norm_num),
        ← zpow_add₀ (by norm_num)]
      congr 1; ring
    rw [abs_of_pos hq]
    have e4 : (2 : ℚ) ^ k * 2 ^ (-53 : ℤ) ≤ q * 2 ^ (-53 : ℤ) := by gcongr
    rw [e3] at e1 e2
    exact abs_le.2 ⟨le_trans (neg_le_neg e4) e2, le_trans e1 e4⟩
  rcases lt_trichotomy q 0 with h | h | h
  · have := pos (-q) (by linarith)
    rw [rnd_neg, abs_neg] at this
    rwa [show |-rnd q - -q| = |rnd q - q| by rw [← abs_neg]; congr 1; ring] at this
  · rw [h, rnd_zero]; simp
  · exact pos q h

theorem isFloat_mul_pow {q : ℚ} (h : IsFloat q) (k : ℤ) : IsFloat (q * 2 ^ k) := by
  obtain ⟨m, e, h1, h2⟩ := h
  exact ⟨m, e + k, h1, by rw [h2, zpow_add₀ (by norm_num)]; ring⟩

theorem isFloat_int {m : ℤ} (h : |m| ≤ 2 ^ 53) : IsFloat (m : ℚ) := ⟨m, 0, h, by simp⟩

end Verif.EventStream
