import Verif.Common
import Mathlib.Tactic.Common

/-!
# Regular expressions

The part of Python's `re` the code uses: character classes, sequence, alternative and repetition.
`Lang` is the language of an expression; `fullmatch` decides it by derivatives
(`fullmatch_iff`).  For expressions of this kind `re.fullmatch` succeeds exactly on the language.
-/

set_option autoImplicit false

namespace Verif

inductive Regex where
  /-- No text. -/
  | fail
  /-- The empty text. -/
  | empty
  /-- One character of a class. -/
  | char (p : Char → Bool)
  | seq (a b : Regex)
  | alt (a b : Regex)
  | star (a : Regex)

namespace Regex

abbrev Text := List Char

/-- The texts an expression stands for. -/
inductive Lang : Regex → Text → Prop
  | empty : Lang .empty []
  | char (p : Char → Bool) (c : Char) : p c = true → Lang (.char p) [c]
  | seq (a b : Regex) (s t : Text) : Lang a s → Lang b t → Lang (.seq a b) (s ++ t)
  | altL (a b : Regex) (t : Text) : Lang a t → Lang (.alt a b) t
  | altR (a b : Regex) (t : Text) : Lang b t → Lang (.alt a b) t
  | starNil (a : Regex) : Lang (.star a) []
  | starCons (a : Regex) (s t : Text) : Lang a s → Lang (.star a) t → Lang (.star a) (s ++ t)

/-- Whether the empty text matches. -/
def nullable : Regex → Bool
  | .fail => false
  | .empty => true
  | .char _ => false
  | .seq a b => a.nullable && b.nullable
  | .alt a b => a.nullable || b.nullable
  | .star _ => true

/-- What is left to match after a character. -/
def deriv (c : Char) : Regex → Regex
  | .fail => .fail
  | .empty => .fail
  | .char p => if p c then .empty else .fail
  | .seq a b => if a.nullable then .alt (.seq (a.deriv c) b) (b.deriv c) else .seq (a.deriv c) b
  | .alt a b => .alt (a.deriv c) (b.deriv c)
  | .star a => .seq (a.deriv c) (.star a)

/-- `re.fullmatch`. -/
def fullmatch (r : Regex) : Text → Bool
  | [] => r.nullable
  | c :: t => (r.deriv c).fullmatch t

/-! Shorthands. -/

/-- `a?` -/
def opt (a : Regex) : Regex := .alt a .empty
/-- `a+` -/
def plus (a : Regex) : Regex := .seq a (.star a)
/-- A literal character. -/
def lit (c : Char) : Regex := .char fun d => d = c
/-- A literal text. -/
def lits : Text → Regex
  | [] => .empty
  | c :: t => .seq (lit c) (lits t)

/-! Inversion. -/

theorem not_fail {t : Text} : ¬ Lang .fail t := by intro h; cases h

theorem empty_iff {t : Text} : Lang .empty t ↔ t = [] :=
  ⟨fun h => by cases h; rfl, fun h => h ▸ .empty⟩

theorem char_iff {p : Char → Bool} {t : Text} : Lang (.char p) t ↔ ∃ c, p c = true ∧ t = [c] :=
  ⟨fun h => by cases h with | char _ c hc => exact ⟨c, hc, rfl⟩,
    fun ⟨c, hc, ht⟩ => ht ▸ .char p c hc⟩

theorem seq_iff {a b : Regex} {t : Text} :
    Lang (.seq a b) t ↔ ∃ s u, Lang a s ∧ Lang b u ∧ t = s ++ u := by
  constructor
  · intro h
    generalize hr : Regex.seq a b = r at h
    cases h with
    | seq a' b' s u ha hb => cases hr; exact ⟨s, u, ha, hb, rfl⟩
    | _ => cases hr
  · rintro ⟨s, u, ha, hb, rfl⟩
    exact .seq _ _ _ _ ha hb

theorem alt_iff {a b : Regex} {t : Text} : Lang (.alt a b) t ↔ Lang a t ∨ Lang b t := by
  constructor
  · intro h
    cases h with
    | altL _ _ _ h => exact .inl h
    | altR _ _ _ h => exact .inr h
  · rintro (h | h)
    exacts [.altL _ _ _ h, .altR _ _ _ h]

theorem opt_iff {a : Regex} {t : Text} : Lang (opt a) t ↔ Lang a t ∨ t = [] := by
  rw [opt, alt_iff, empty_iff]

theorem lit_iff {c : Char} {t : Text} : Lang (lit c) t ↔ t = [c] := by
  rw [lit, char_iff]
  constructor
  · rintro ⟨d, hd, rfl⟩; simpa using hd
  · rintro rfl; exact ⟨c, by simp, rfl⟩

theorem lits_iff {s t : Text} : Lang (lits s) t ↔ t = s := by
  induction s generalizing t with
  | nil => rw [lits, empty_iff]
  | cons c s ih =>
    rw [lits, seq_iff]
    constructor
    · rintro ⟨u, v, hu, hv, rfl⟩
      rw [lit_iff.1 hu, ih.1 hv]; rfl
    · rintro rfl
      exact ⟨[c], s, lit_iff.2 rfl, ih.2 rfl, rfl⟩

theorem star_char_iff {p : Char → Bool} {t : Text} :
    Lang (.star (.char p)) t ↔ ∀ c ∈ t, p c = true := by
  constructor
  · intro h
    generalize hr : Regex.star (.char p) = r at h
    induction h with
    | starNil => simp
    | starCons a s t h1 _ _ ih =>
      cases hr
      obtain ⟨c, hc, rfl⟩ := char_iff.1 h1
      intro d hd
      rcases List.mem_cons.1 hd with rfl | hd
      · exact hc
      · exact ih rfl d hd
    | _ => cases hr
  · intro h
    induction t with
    | nil => exact .starNil _
    | cons c t ih =>
      exact .starCons _ [c] t (char_iff.2 ⟨c, h c (by simp), rfl⟩) (ih fun d hd => h d (by simp [hd]))

theorem plus_char_iff {p : Char → Bool} {t : Text} :
    Lang (plus (.char p)) t ↔ t ≠ [] ∧ ∀ c ∈ t, p c = true := by
  rw [plus, seq_iff]
  constructor
  · rintro ⟨s, u, hs, hu, rfl⟩
    obtain ⟨c, hc, rfl⟩ := char_iff.1 hs
    refine ⟨by simp, ?_⟩
    intro d hd
    rcases List.mem_cons.1 hd with rfl | hd
    · exact hc
    · exact star_char_iff.1 hu d hd
  · rintro ⟨hne, h⟩
    obtain ⟨c, t, rfl⟩ := List.exists_cons_of_ne_nil hne
    exact ⟨[c], t, char_iff.2 ⟨c, h c (by simp), rfl⟩, star_char_iff.2 fun d hd => h d (by simp [hd]),
      rfl⟩

theorem nullable_iff (r : Regex) : r.nullable = true ↔ Lang r [] := by
  induction r with
  | fail => simp [nullable, not_fail]
  | empty => simp [nullable, empty_iff]
  | char p => simp [nullable, char_iff]
  | seq a b iha ihb =>
    simp only [nullable, Bool.and_eq_true, iha, ihb, seq_iff]
    constructor
    · rintro ⟨h1, h2⟩; exact ⟨[], [], h1, h2, rfl⟩
    · rintro ⟨s, u, h1, h2, h⟩
      obtain ⟨rfl, rfl⟩ := List.append_eq_nil_iff.1 h.symm
      exact ⟨h1, h2⟩
  | alt a b iha ihb => simp only [nullable, Bool.or_eq_true, iha, ihb, alt_iff]
  | star a _ => simp only [nullable, true_iff]; exact .starNil a

theorem star_cons (a : Regex) (c : Char) (t : Text) (h : Lang (.star a) (c :: t)) :
    ∃ s u, Lang a (c :: s) ∧ Lang (.star a) u ∧ t = s ++ u := by
  generalize hr : Regex.star a = r at h
  generalize hw : c :: t = w at h
  induction h with
  | starCons b s u h1 h2 _ ih =>
    cases hr
    cases s with
    | nil => exact ih rfl hw
    | cons d s =>
      simp only [List.cons_append, List.cons.injEq] at hw
      exact ⟨s, u, hw.1 ▸ h1, h2, hw.2⟩
  | starNil => cases hw
  | _ => cases hr

theorem deriv_iff (c : Char) (r : Regex) (t : Text) : Lang (r.deriv c) t ↔ Lang r (c :: t) := by
  induction r generalizing t with
  | fail => simp [deriv, not_fail]
  | empty => simp [deriv, not_fail, empty_iff]
  | char p =>
    simp only [deriv]
    by_cases hp : p c = true
    · rw [if_pos hp, empty_iff, char_iff]
      constructor
      · rintro rfl; exact ⟨c, hp, rfl⟩
      · rintro ⟨d, _, h⟩; simp only [List.cons.injEq] at h; exact h.2
    · rw [if_neg hp, char_iff]
      constructor
      · intro h; exact absurd h not_fail
      · rintro ⟨d, hd, h⟩
        simp only [List.cons.injEq] at h
        exact absurd (h.1 ▸ hd) hp
  | seq a b iha ihb =>
    have h1 : Lang (.seq (a.deriv c) b) t ↔ ∃ s u, Lang a (c :: s) ∧ Lang b u ∧ t = s ++ u := by
      rw [seq_iff]
      constructor
      · rintro ⟨s, u, hs, hu, ht⟩; exact ⟨s, u, (iha s).1 hs, hu, ht⟩
      · rintro ⟨s, u, hs, hu, ht⟩; exact ⟨s, u, (iha s).2 hs, hu, ht⟩
    have h2 : Lang (.seq a b) (c :: t) ↔
        (∃ s u, Lang a (c :: s) ∧ Lang b u ∧ t = s ++ u) ∨ (Lang a [] ∧ Lang b (c :: t)) := by
      rw [seq_iff]
      constructor
      · rintro ⟨s, u, hs, hu, ht⟩
        cases s with
        | nil => exact .inr ⟨hs, by rw [ht]; exact hu⟩
        | cons d s =>
          simp only [List.cons_append, List.cons.injEq] at ht
          exact .inl ⟨s, u, ht.1 ▸ hs, hu, ht.2⟩
      · rintro (⟨s, u, hs, hu, rfl⟩ | ⟨hs, hu⟩)
        · exact ⟨c :: s, u, hs, hu, rfl⟩
        · exact ⟨[], c :: t, hs, hu, rfl⟩
    simp only [deriv]
    by_cases hn : a.nullable = true
    · rw [if_pos hn, alt_iff, h1, ihb, h2]
      have := (nullable_iff a).1 hn
      simp [this]
    · rw [if_neg hn, h1, h2]
      have : ¬ Lang a [] := fun h => hn ((nullable_iff a).2 h)
      simp [this]
  | alt a b iha ihb => simp only [deriv, alt_iff, iha, ihb]
  | star a iha =>
    simp only [deriv, seq_iff]
    constructor
    · rintro ⟨s, u, hs, hu, rfl⟩
      exact .starCons a (c :: s) u ((iha s).1 hs) hu
    · intro h
      obtain ⟨s, u, hs, hu, ht⟩ := star_cons a c t h
      exact ⟨s, u, (iha s).2 hs, hu, ht⟩

theorem fullmatch_iff (r : Regex) (t : Text) : r.fullmatch t = true ↔ Lang r t := by
  induction t generalizing r with
  | nil => exact nullable_iff r
  | cons c t ih => rw [fullmatch, ih, deriv_iff]

end Regex

end Verif
