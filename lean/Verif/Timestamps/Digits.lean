import Verif.Timestamps.Model

/-! # Digits of timestamps: lemmas -/

set_option autoImplicit false

namespace Verif.Timestamps

open Verif.Numerals (natText natValue natValue_natText)

namespace Spec

/-- The character of a digit. -/
def digitChar (k : Nat) : Char := Char.ofNat (48 + k)

/-- A number in exactly `w` digits. -/
def fixed : Nat → Nat → Text
  | 0, _ => []
  | w + 1, n => fixed w (n / 10) ++ [digitChar (n % 10)]

end Spec

open Spec

theorem digitChar_cases (k : Nat) (h : k < 10) :
    Scalars.Strict.ascii (digitChar k) = true ∧ (digitChar k).toNat - '0'.toNat = k ∧
    Nat.digitChar k = digitChar k := by
  have : k = 0 ∨ k = 1 ∨ k = 2 ∨ k = 3 ∨ k = 4 ∨ k = 5 ∨ k = 6 ∨ k = 7 ∨ k = 8 ∨ k = 9 := by omega
  rcases this with rfl | rfl | rfl | rfl | rfl | rfl | rfl | rfl | rfl | rfl <;> decide

theorem fixed_length (w n : Nat) : (fixed w n).length = w := by
  induction w generalizing n with
  | zero => rfl
  | succ w ih => simp [fixed, ih]

theorem fixed_ascii (w n : Nat) : ∀ c ∈ fixed w n, Scalars.Strict.ascii c = true := by
  induction w generalizing n with
  | zero => simp [fixed]
  | succ w ih =>
    intro c hc
    rw [fixed, List.mem_append, List.mem_singleton] at hc
    rcases hc with hc | rfl
    · exact ih _ c hc
    · exact (digitChar_cases _ (by omega)).1

theorem natValue_append (t : Text) (c : Char) : natValue (t ++ [c]) = 10 * natValue t + (c.toNat - '0'.toNat) := by
  simp [natValue, List.foldl_append]

theorem natValue_fixed (w n : Nat) (h : n < 10 ^ w) : natValue (fixed w n) = n := by
  induction w generalizing n with
  | zero => simp only [Nat.pow_zero] at h; simp [fixed, natValue]; omega
  | succ w ih =>
    rw [Nat.pow_succ] at h
    rw [fixed, natValue_append, ih (n / 10) (by omega), (digitChar_cases _ (by omega)).2.1]
    omega

theorem natText_step (n : Nat) : natText n = if n < 10 then [digitChar n] else natText (n / 10) ++ [digitChar (n % 10)] := by
  unfold natText
  rw [Nat.toDigits_eq_if (by omega)]
  split
  · rename_i h
    rw [(digitChar_cases n h).2.2]
  · rw [(digitChar_cases (n % 10) (by omega)).2.2]

theorem natText_length_le (w n : Nat) (hw : 0 < w) (h : n < 10 ^ w) : (natText n).length ≤ w := by
  induction w generalizing n with
  | zero => omega
  | succ w ih =>
    rw [natText_step]
    split
    · simp
    · rename_i h10
      rw [Nat.pow_succ] at h
      cases w with
      | zero => simp at h; omega
      | succ w =>
        have := ih (n / 10) (by omega) (by omega)
        simp only [List.length_append, List.length_singleton]
        omega

theorem fixed_zero (w : Nat) : fixed w 0 = List.replicate w '0' := by
  induction w with
  | zero => rfl
  | succ w ih =>
    rw [fixed, Nat.zero_div, ih, show digitChar (0 % 10) = '0' by decide]
    rw [List.replicate_succ']

/-- `'%0wd' % n` of a number that fits has exactly `w` digits. -/
theorem pad_eq (w n : Nat) (hw : 0 < w) (h : n < 10 ^ w) : pad w n = fixed w n := by
  induction w generalizing n with
  | zero => omega
  | succ w ih =>
    unfold pad
    rw [natText_step, fixed]
    split
    · rename_i h10
      rw [show n / 10 = 0 by omega, fixed_zero, show n % 10 = n by omega]
      simp
    · rename_i h10
      rw [Nat.pow_succ] at h
      cases w with
      | zero => simp at h; omega
      | succ w =>
        have := ih (n / 10) (by omega) (by omega)
        unfold pad at this
        rw [← this, List.length_append, List.length_singleton, ← List.append_assoc]
        congr 2
        congr 1
        omega

theorem natText_eq_fixed (n : Nat) (w : Nat) (h1 : 10 ^ w ≤ n) (h2 : n < 10 ^ (w + 1)) : natText n = fixed (w + 1) n := by
  induction w generalizing n with
  | zero =>
    simp only [Nat.zero_add, Nat.pow_one, Nat.pow_zero] at h1 h2
    rw [natText_step, if_pos h2]
    simp only [fixed, List.nil_append]
    rw [Nat.mod_eq_of_lt h2]
  | succ w ih =>
    rw [Nat.pow_succ] at h1
    rw [Nat.pow_succ] at h2
    have hp : 0 < 10 ^ w := Nat.pow_pos (by omega)
    rw [natText_step, if_neg (by omega), fixed, ih (n / 10) (by omega) (by omega)]

theorem digits_fixed (w n : Nat) (hw : 0 < w) (h : n < 10 ^ w) : digits w (fixed w n) = some n := by
  unfold digits
  rw [fixed_length, natValue_fixed w n h]
  have : (fixed w n).all Scalars.Strict.ascii = true := List.all_eq_true.2 (fixed_ascii w n)
  simp [this, hw]

/-- A character that is no digit. -/
theorem fixed_not_mem (w n : Nat) (c : Char) (h : Scalars.Strict.ascii c = false) : c ∉ fixed w n := by
  intro hc
  rw [fixed_ascii w n c hc] at h
  exact absurd h (by simp)

end Verif.Timestamps
