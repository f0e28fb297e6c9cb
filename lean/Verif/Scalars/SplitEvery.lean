import Verif.Text
import Mathlib.Tactic.Common

/-!
# Splitting at every n-th separator (C56)

Models `split_every` (smithy_core/utils.py:99-108) for a separator of one character, as its parameter
`split_char` says.
-/

set_option autoImplicit false

namespace Verif.Scalars

open Verif.Text

/-! ## Model -/

/-- The start indices `range(0, length, n)`; `ValueError` when the step is zero. -/
def steps (length : Nat) (n : Int) : Option (List Nat) :=
  if n = 0 then none
  else if n < 0 then some []
  else some ((List.range ((length + n.toNat - 1) / n.toNat)).map (· * n.toNat))

/-- `split_every` (utils.py:99-108); `none` is `ValueError`. -/
def splitEvery (given : List Char) (sep : Char) (n : Int) : Option (List (List Char)) :=
  let parts := split sep given
  (steps parts.length n).map fun is =>
    is.map fun i => join sep ((parts.drop i).take n.toNat)

/-! ## Theorems -/

theorem join_flatten (sep : Char) (cs : List (List (List Char))) (h : ∀ c ∈ cs, c ≠ []) :
    join sep (cs.map (join sep)) = join sep cs.flatten := by
  induction cs with
  | nil => rfl
  | cons c cs ih =>
    cases cs with
    | nil => simp [join]
    | cons d cs =>
      have hd : (d :: cs).flatten ≠ [] := by
        have := h d (by simp)
        simp [this]
      rw [List.map_cons, join_cons _ _ _ (by simp), ih fun x hx => h x (by simp [hx]),
        ← join_append _ _ _ (h c (by simp)) hd]
      rfl

theorem count_join (sep : Char) (ps : List (List Char)) (h : ∀ p ∈ ps, sep ∉ p) :
    (join sep ps).count sep = ps.length - 1 := by
  induction ps with
  | nil => rfl
  | cons p ps ih =>
    have hp : p.count sep = 0 := List.count_eq_zero.2 (h p (by simp))
    cases ps with
    | nil => simpa [join] using hp
    | cons q ps =>
      rw [join_cons _ _ _ (by simp), List.count_append, hp, List.count_cons,
        ih fun x hx => h x (by simp [hx])]
      simp

theorem flatten_chunks {α : Type} (l : List α) (n k : Nat) :
    ((List.range k).map fun i => (l.drop (i * n)).take n).flatten = l.take (k * n) := by
  induction k with
  | zero => simp
  | succ k ih =>
    rw [List.range_succ, List.map_append, List.flatten_append, ih, Nat.succ_mul, List.take_add]
    simp

/-- **C56**: for a positive `n`, the pieces joined by the separator are the text; every piece but the
last has exactly `n - 1` separators, and the last at most that many. -/
theorem C56_split_every (given : List Char) (sep : Char) (n : Nat) (hn : 0 < n) :
    ∃ init last, splitEvery given sep n = some (init ++ [last]) ∧
      join sep (init ++ [last]) = given ∧
      (∀ p ∈ init, p.count sep = n - 1) ∧ last.count sep ≤ n - 1 := by
  have hlen : 0 < (split sep given).length := List.length_pos_iff.2 (split_ne_nil _ _)
  obtain ⟨k, hk⟩ : ∃ k, ((split sep given).length + n - 1) / n = k + 1 := by
    have : 0 < ((split sep given).length + n - 1) / n := Nat.div_pos (by omega) hn
    exact ⟨_, (Nat.succ_pred_eq_of_pos this).symm⟩
  have hmul := Nat.div_add_mod ((split sep given).length + n - 1) n
  have hmod := Nat.mod_lt ((split sep given).length + n - 1) hn
  rw [hk] at hmul
  have hkm : n * (k + 1) = k * n + n := by rw [Nat.mul_comm, Nat.succ_mul]
  have hk0 : k * n < (split sep given).length := by omega
  have hk1 : (split sep given).length ≤ (k + 1) * n := by rw [Nat.succ_mul]; omega
  have hlt : ∀ i, i < k → (i + 1) * n ≤ k * n := fun i hi => Nat.mul_le_mul_right n hi
  have hpieces : splitEvery given sep n = some (((List.range (k + 1)).map
      fun i => ((split sep given).drop (i * n)).take n).map (join sep)) := by
    have h2 : ¬ ((n : Int) < 0) := by omega
    simp [splitEvery, steps, h2, hk, Function.comp_def]
    omega
  have hno : ∀ i m, ∀ p ∈ ((split sep given).drop i).take m, sep ∉ p := fun i m p hp =>
    split_no_sep sep given p (List.mem_of_mem_drop (List.mem_of_mem_take hp))
  refine ⟨((List.range k).map fun i => ((split sep given).drop (i * n)).take n).map (join sep),
    join sep (((split sep given).drop (k * n)).take n), ?_, ?_, ?_, ?_⟩
  · rw [hpieces, List.range_succ, List.map_append, List.map_append]; rfl
  · have h := join_flatten sep ((List.range (k + 1)).map
      fun i => ((split sep given).drop (i * n)).take n) ?_
    · rw [flatten_chunks, List.take_of_length_le hk1, join_split] at h
      rw [List.range_succ, List.map_append, List.map_append] at h
      exact h
    · intro c hc
      obtain ⟨i, hi, rfl⟩ := List.mem_map.1 hc
      rw [List.mem_range] at hi
      have : i * n ≤ k * n := Nat.mul_le_mul_right n (by omega)
      intro h0
      have := congrArg List.length h0
      simp only [List.length_take, List.length_drop, List.length_nil] at this
      omega
  · intro p hp
    obtain ⟨c, hc, rfl⟩ := List.mem_map.1 hp
    obtain ⟨i, hi, rfl⟩ := List.mem_map.1 hc
    rw [List.mem_range] at hi
    rw [count_join _ _ (hno _ _), List.length_take, List.length_drop]
    have := hlt i hi
    rw [Nat.succ_mul] at this
    omega
  · rw [count_join _ _ (hno _ _), List.length_take]
    omega

/-- **C56**: a step of zero is rejected. -/
theorem C56_zero_rejected (given : List Char) (sep : Char) : splitEvery given sep 0 = none := rfl

example : splitEvery "Mon, 1 Jan, Tue, 2 Jan, Wed".toList ',' 2 =
    some ["Mon, 1 Jan".toList, " Tue, 2 Jan".toList, " Wed".toList] := by decide +kernel

end Verif.Scalars
