import Mathlib.Tactic.Common
import Verif.Scalars.Float

/-!
# Decimal numerals

`str(n)` of Python integers, and reading them back.
-/

set_option autoImplicit false

namespace Verif.Numerals

/-- `str(n)` of a natural number. -/
def natText (n : Nat) : List Char := Nat.toDigits 10 n

/-- `str(n)` of an integer.  (Python refuses more than 4300 digits unless told otherwise; not modelled.) -/
def intText (n : Int) : List Char :=
  if n < 0 then '-' :: natText n.natAbs else natText n.natAbs

/-- The value of decimal digits. -/
def natValue (t : List Char) : Nat := t.foldl (fun a c => 10 * a + (c.toNat - '0'.toNat)) 0

/-- The value of a numeral. -/
def intValue : List Char → Int
  | '-' :: t => -(natValue t : Int)
  | t => natValue t

theorem natText_ascii (n : Nat) : ∀ c ∈ natText n, Scalars.Strict.ascii c = true := by
  intro c hc
  have h := Nat.isDigit_of_mem_toDigits (by omega) (by omega) hc
  simp only [Char.isDigit, Bool.and_eq_true, decide_eq_true_eq, UInt32.le_iff_toNat_le] at h
  simp only [Scalars.Strict.ascii, Bool.and_eq_true, decide_eq_true_eq]
  exact h

theorem natText_ne_nil (n : Nat) : natText n ≠ [] := Nat.toDigits_ne_nil

theorem natValue_natText (n : Nat) : natValue (natText n) = n := by
  have h := Nat.ofDigitChars_ten_toDigits (n := n)
  rw [Nat.ofDigitChars] at h
  exact h

theorem natText_inj {m n : Nat} (h : natText m = natText n) : m = n := by
  rw [← natValue_natText m, h, natValue_natText]

/-- A numeral does not start with a zero, except for zero. -/
theorem natText_head (n : Nat) : natText n = ['0'] ∨ ∃ c ds, natText n = c :: ds ∧
    c ∈ ['1', '2', '3', '4', '5', '6', '7', '8', '9'] ∧ ∀ d ∈ ds, Scalars.Strict.ascii d = true := by
  have hd : ∀ k, 0 < k → k < 10 → Nat.digitChar k ∈ ['1', '2', '3', '4', '5', '6', '7', '8', '9'] := by
    intro k h0 h1
    have : k = 1 ∨ k = 2 ∨ k = 3 ∨ k = 4 ∨ k = 5 ∨ k = 6 ∨ k = 7 ∨ k = 8 ∨ k = 9 := by omega
    rcases this with rfl | rfl | rfl | rfl | rfl | rfl | rfl | rfl | rfl <;> decide
  have key : ∀ n, 0 < n → ∃ c ds, natText n = c :: ds ∧
      c ∈ ['1', '2', '3', '4', '5', '6', '7', '8', '9'] := by
    intro n
    induction n using Nat.strongRecOn with
    | _ n ih =>
      intro hn
      unfold natText at *
      rw [Nat.toDigits_eq_if (by omega)]
      split
      · rename_i h
        exact ⟨_, [], rfl, hd n hn h⟩
      · obtain ⟨c, ds, h1, h2⟩ := ih (n / 10) (by omega) (by omega)
        exact ⟨c, ds ++ [Nat.digitChar (n % 10)], by rw [h1]; rfl, h2⟩
  by_cases hn : n = 0
  · subst hn
    exact .inl (Nat.toDigits_zero 10)
  · obtain ⟨c, ds, h1, h2⟩ := key n (by omega)
    refine .inr ⟨c, ds, h1, h2, fun d hd => natText_ascii n d ?_⟩
    rw [h1]
    exact List.mem_cons_of_mem _ hd

theorem natText_head_ne (n : Nat) (c : Char) (t : List Char) (h : natText n = c :: t) : c ≠ '-' := by
  have := natText_ascii n c (by rw [h]; simp)
  intro hc
  subst hc
  exact absurd this (by decide)

theorem intValue_intText (n : Int) : intValue (intText n) = n := by
  unfold intText
  split
  · simp only [intValue, natValue_natText]
    omega
  · cases h : natText n.natAbs with
    | nil => exact absurd h (natText_ne_nil _)
    | cons c t =>
      have hc := natText_head_ne _ c t h
      have hv := natValue_natText n.natAbs
      rw [h] at hv
      unfold intValue
      split
      · rename_i heq
        simp only [List.cons.injEq] at heq
        exact absurd heq.1 hc
      · rw [hv]; omega

theorem intText_inj {m n : Int} (h : intText m = intText n) : m = n := by
  rw [← intValue_intText m, h, intValue_intText]

end Verif.Numerals
