import Verif.Uri.Percent
import Mathlib.Data.List.Sort

/-!
# Sorting text

`sorted` (Python) over strings and over pairs of strings.  Text is its UTF-8 bytes; comparing those
byte by byte is comparing code points, which is what Python does.
-/

set_option autoImplicit false

namespace Verif.Signing

open Verif.Uri

/-- `a <= b` for strings. -/
def leB : Bytes → Bytes → Bool
  | [], _ => true
  | _ :: _, [] => false
  | a :: as, b :: bs => a.toNat < b.toNat || (a = b && leB as bs)

/-- `a <= b` for pairs of strings. -/
def leP (p q : Bytes × Bytes) : Bool := if p.1 = q.1 then leB p.2 q.2 else leB p.1 q.1

theorem leB_refl (a : Bytes) : leB a a = true := by
  induction a with
  | nil => rfl
  | cons x a ih => simp [leB, ih]

theorem leB_total (a : Bytes) : ∀ b, leB a b = true ∨ leB b a = true := by
  induction a with
  | nil => intro b; exact Or.inl rfl
  | cons x a ih =>
    intro b
    cases b with
    | nil => exact Or.inr rfl
    | cons y b =>
      simp only [leB, Bool.or_eq_true, Bool.and_eq_true, decide_eq_true_eq]
      rcases Nat.lt_trichotomy x.toNat y.toNat with h | h | h
      · exact Or.inl (Or.inl h)
      · have : x = y := UInt8.toNat_inj.1 h
        subst this
        rcases ih b with h | h
        · exact Or.inl (Or.inr ⟨rfl, h⟩)
        · exact Or.inr (Or.inr ⟨rfl, h⟩)
      · exact Or.inr (Or.inl h)

theorem leB_trans (a : Bytes) : ∀ b c, leB a b = true → leB b c = true → leB a c = true := by
  induction a with
  | nil => intros; rfl
  | cons x a ih =>
    intro b c h1 h2
    match b, c, h1, h2 with
    | [], _, h1, _ => cases h1
    | _ :: _, [], _, h2 => cases h2
    | y :: b, z :: c, h1, h2 =>
      simp only [leB, Bool.or_eq_true, Bool.and_eq_true, decide_eq_true_eq] at h1 h2 ⊢
      rcases h1 with h1 | ⟨rfl, h1⟩
      · rcases h2 with h2 | ⟨rfl, _⟩
        · exact Or.inl (by omega)
        · exact Or.inl h1
      · rcases h2 with h2 | ⟨rfl, h2⟩
        · exact Or.inl h2
        · exact Or.inr ⟨rfl, ih _ _ h1 h2⟩

theorem leB_antisymm (a : Bytes) : ∀ b, leB a b = true → leB b a = true → a = b := by
  induction a with
  | nil =>
    intro b _ h
    cases b with
    | nil => rfl
    | cons y b => cases h
  | cons x a ih =>
    intro b h1 h2
    cases b with
    | nil => cases h1
    | cons y b =>
      simp only [leB, Bool.or_eq_true, Bool.and_eq_true, decide_eq_true_eq] at h1 h2
      rcases h1 with h1 | ⟨rfl, h1⟩
      · rcases h2 with h2 | ⟨rfl, _⟩ <;> omega
      · rcases h2 with h2 | ⟨_, h2⟩
        · omega
        · rw [ih b h1 h2]

theorem leP_total (p q : Bytes × Bytes) : leP p q = true ∨ leP q p = true := by
  unfold leP
  by_cases h : p.1 = q.1
  · rw [if_pos h, if_pos h.symm]; exact leB_total _ _
  · rw [if_neg h, if_neg (Ne.symm h)]; exact leB_total _ _

theorem leP_antisymm (p q : Bytes × Bytes) (h1 : leP p q = true) (h2 : leP q p = true) : p = q := by
  unfold leP at h1 h2
  by_cases h : p.1 = q.1
  · rw [if_pos h] at h1; rw [if_pos h.symm] at h2
    exact Prod.ext h (leB_antisymm _ _ h1 h2)
  · rw [if_neg h] at h1; rw [if_neg (Ne.symm h)] at h2
    exact absurd (leB_antisymm _ _ h1 h2) h

theorem leP_trans (p q r : Bytes × Bytes) (h1 : leP p q = true) (h2 : leP q r = true) :
    leP p r = true := by
  unfold leP at h1 h2 ⊢
  by_cases hpq : p.1 = q.1 <;> by_cases hqr : q.1 = r.1
  · rw [if_pos hpq] at h1; rw [if_pos hqr] at h2
    rw [if_pos (hpq.trans hqr)]; exact leB_trans _ _ _ h1 h2
  · rw [if_neg hqr] at h2
    rw [hpq, if_neg hqr]; exact h2
  · rw [if_neg hpq] at h1
    rw [← hqr, if_neg hpq]; exact h1
  · rw [if_neg hpq] at h1; rw [if_neg hqr] at h2
    by_cases hpr : p.1 = r.1
    · exact absurd (leB_antisymm _ _ h1 (hpr ▸ h2)) hpq
    · rw [if_neg hpr]; exact leB_trans _ _ _ h1 h2

/-- `sorted` over pairs.  Any sorting algorithm gives the same list, the order being total. -/
def sortPairs (l : List (Bytes × Bytes)) : List (Bytes × Bytes) :=
  l.insertionSort fun p q => leP p q = true

instance : Std.Total fun p q : Bytes × Bytes => leP p q = true := ⟨leP_total⟩
instance : IsTrans (Bytes × Bytes) fun p q => leP p q = true := ⟨leP_trans⟩

theorem sortPairs_perm (l : List (Bytes × Bytes)) : (sortPairs l).Perm l :=
  List.perm_insertionSort _ l

theorem sortPairs_sorted (l : List (Bytes × Bytes)) :
    (sortPairs l).Pairwise fun p q => leP p q = true :=
  List.pairwise_insertionSort _ l

theorem sorted_unique {l m : List (Bytes × Bytes)} (h : l.Perm m)
    (hl : l.Pairwise fun p q => leP p q = true) (hm : m.Pairwise fun p q => leP p q = true) :
    l = m :=
  h.eq_of_pairwise (fun a b _ _ h1 h2 => leP_antisymm a b h1 h2) hl hm

/-- Sorting forgets the order and nothing else. -/
theorem sortPairs_eq_iff (l m : List (Bytes × Bytes)) : sortPairs l = sortPairs m ↔ l.Perm m := by
  constructor
  · intro h
    exact (sortPairs_perm l).symm.trans (h ▸ sortPairs_perm m)
  · intro h
    exact sorted_unique ((sortPairs_perm l).trans (h.trans (sortPairs_perm m).symm))
      (sortPairs_sorted l) (sortPairs_sorted m)

end Verif.Signing
