import Verif.HeaderText.Accept
import Verif.Text

/-!
# Reading integers

Models Python's `int(text)`, which the code uses to read header values.  `isSpace` is `str.isspace` and
`digit` the decimal value of a digit character (`unicodedata.decimal`; Python accepts the digits of all
scripts).  `limit` is the interpreter's limit on the number of digits (`sys.get_int_max_str_digits`,
4300 unless configured).
-/

set_option autoImplicit false

namespace Verif.Scalars

open Verif.HeaderText (strip)
open Verif.Text (join)

abbrev Text := List Char

/-! ## Model -/

/-- The digits of `int(text)`: a single underscore is allowed between two digits.  `prev` tells whether
a digit has just been read. -/
def readDigits (digit : Char → Option Nat) : Text → Bool → Nat → Option Nat
  | [], prev, acc => if prev then some acc else none
  | c :: cs, prev, acc =>
    if c = '_' then (if prev then readDigits digit cs false acc else none)
    else
      match digit c with
      | none => none
      | some d => readDigits digit cs true (10 * acc + d)

/-- The sign of a text and the rest. -/
def sign : Text → Bool × Text
  | '+' :: r => (false, r)
  | '-' :: r => (true, r)
  | r => (false, r)

/-- `int(text)`; `none` is `ValueError`. -/
def pyInt (isSpace : Char → Bool) (digit : Char → Option Nat) (limit : Nat) (t : Text) : Option Int :=
  let r := sign (strip isSpace t)
  if limit < (r.2.filter fun c => c ≠ '_').length then none
  else (readDigits digit r.2 false 0).map fun n : Nat => if r.1 then -(n : Int) else n

/-! ## Specification -/

/-- The value of a text of digits. -/
def decimal (digit : Char → Option Nat) (ds : Text) : Nat :=
  ds.foldl (fun acc c => 10 * acc + (digit c).getD 0) 0

/-- Groups of digits with single underscores between them. -/
def DigitGroups (digit : Char → Option Nat) (gs : List Text) : Prop :=
  gs ≠ [] ∧ ∀ g ∈ gs, g ≠ [] ∧ ∀ c ∈ g, (digit c).isSome

/-- `t` is a numeral for `n`: blanks, a sign, groups of digits, blanks. -/
def Numeral (isSpace : Char → Bool) (digit : Char → Option Nat) (limit : Nat) (t : Text) (n : Int) :
    Prop :=
  ∃ (before sign after : Text) (gs : List Text),
    (∀ c ∈ before, isSpace c = true) ∧ (∀ c ∈ after, isSpace c = true) ∧
    (sign = [] ∨ sign = ['+'] ∨ sign = ['-']) ∧ DigitGroups digit gs ∧ gs.flatten.length ≤ limit ∧
    t = before ++ sign ++ join '_' gs ++ after ∧
    n = if sign = ['-'] then -(decimal digit gs.flatten : Int) else decimal digit gs.flatten

/-- What is known of the character classes: digits are no blanks and none of the three punctuation
characters, which are no blanks either. -/
structure Classes (isSpace : Char → Bool) (digit : Char → Option Nat) : Prop where
  digit_space : ∀ c, (digit c).isSome → isSpace c = false
  underscore : digit '_' = none
  plus : digit '+' = none
  minus : digit '-' = none
  plus_space : isSpace '+' = false
  minus_space : isSpace '-' = false

/-! ## Theorems -/

variable {isSpace : Char → Bool} {digit : Char → Option Nat}

/-- Reading digits and groups from an accumulator on. -/
def decFrom (digit : Char → Option Nat) (acc : Nat) (ds : Text) : Nat :=
  ds.foldl (fun acc c => 10 * acc + (digit c).getD 0) acc

theorem readDigits_sound (t : Text) : ∀ (acc n : Nat),
    (readDigits digit t false acc = some n →
      ∃ gs, DigitGroups digit gs ∧ t = join '_' gs ∧ n = decFrom digit acc gs.flatten) ∧
    (readDigits digit t true acc = some n →
      ∃ ds gs, (∀ c ∈ ds, (digit c).isSome) ∧ ((gs = [] ∧ t = ds) ∨
        (DigitGroups digit gs ∧ t = ds ++ '_' :: join '_' gs)) ∧
        n = decFrom digit acc (ds ++ gs.flatten)) := by
  induction t with
  | nil =>
    intro acc n
    refine ⟨by simp [readDigits], fun h => ?_⟩
    simp only [readDigits, if_true, Option.some.injEq] at h
    exact ⟨[], [], by simp, .inl ⟨rfl, rfl⟩, by simp [decFrom, h]⟩
  | cons c t ih =>
    intro acc n
    have hd : ∀ d, digit c = some d → readDigits digit t true (10 * acc + d) = some n →
        ∃ ds gs, (∀ c ∈ ds, (digit c).isSome) ∧ ((gs = [] ∧ c :: t = c :: ds) ∨
          (DigitGroups digit gs ∧ c :: t = c :: ds ++ '_' :: join '_' gs)) ∧
          n = decFrom digit acc (c :: ds ++ gs.flatten) := by
      intro d hd h
      obtain ⟨ds, gs, h1, h2, h3⟩ := (ih _ _).2 h
      refine ⟨ds, gs, h1, ?_, ?_⟩
      · rcases h2 with ⟨e1, e2⟩ | ⟨e1, e2⟩
        · exact .inl ⟨e1, by rw [e2]⟩
        · exact .inr ⟨e1, by rw [e2]; rfl⟩
      · rw [h3]; simp [decFrom, hd]
    constructor
    · intro h
      simp only [readDigits] at h
      by_cases hc : c = '_'
      · rw [if_pos hc] at h; simp at h
      · rw [if_neg hc] at h
        cases hdc : digit c with
        | none => rw [hdc] at h; simp at h
        | some d =>
          rw [hdc] at h
          obtain ⟨ds, gs, h1, h2, h3⟩ := hd d hdc h
          refine ⟨(c :: ds) :: gs, ⟨by simp, ?_⟩, ?_, by rw [h3]; simp⟩
          · intro g hg
            rcases List.mem_cons.1 hg with rfl | hg
            · refine ⟨by simp, ?_⟩
              intro x hx
              rcases List.mem_cons.1 hx with rfl | hx
              · simp [hdc]
              · exact h1 x hx
            · rcases h2 with ⟨e1, _⟩ | ⟨e1, _⟩
              · rw [e1] at hg; simp at hg
              · exact e1.2 g hg
          · rcases h2 with ⟨e1, e2⟩ | ⟨e1, e2⟩
            · rw [e1]; simpa [join] using e2
            · rw [Verif.Text.join_cons _ _ _ e1.1]; exact e2
    · intro h
      simp only [readDigits] at h
      by_cases hc : c = '_'
      · rw [if_pos hc] at h
        simp only [if_true] at h
        obtain ⟨gs, h1, h2, h3⟩ := (ih _ _).1 h
        exact ⟨[], gs, by simp, .inr ⟨h1, by simp [hc, h2]⟩, by simpa using h3⟩
      · rw [if_neg hc] at h
        cases hdc : digit c with
        | none => rw [hdc] at h; simp at h
        | some d =>
          rw [hdc] at h
          obtain ⟨ds, gs, h1, h2, h3⟩ := hd d hdc h
          refine ⟨c :: ds, gs, ?_, h2, h3⟩
          intro x hx
          rcases List.mem_cons.1 hx with rfl | hx
          · simp [hdc]
          · exact h1 x hx

theorem readDigits_run (hu : digit '_' = none) (ds : Text) (hds : ∀ c ∈ ds, (digit c).isSome) :
    ∀ (prev : Bool) (acc : Nat) (rest : Text), readDigits digit (ds ++ rest) prev acc =
      readDigits digit rest (prev || !ds.isEmpty) (decFrom digit acc ds) := by
  induction ds with
  | nil => intro prev acc rest; simp [decFrom]
  | cons c ds ih =>
    intro prev acc rest
    obtain ⟨d, hd⟩ := Option.isSome_iff_exists.1 (hds c (by simp))
    have hc : c ≠ '_' := by rintro rfl; rw [hu] at hd; cases hd
    rw [List.cons_append, readDigits, if_neg hc, hd]
    simp only
    rw [ih (fun x hx => hds x (by simp [hx]))]
    simp [decFrom, hd]

theorem readDigits_complete (hu : digit '_' = none) (gs : List Text) (h : DigitGroups digit gs) :
    ∀ acc, readDigits digit (join '_' gs) false acc = some (decFrom digit acc gs.flatten) := by
  induction gs with
  | nil => exact absurd rfl h.1
  | cons g gs ih =>
    intro acc
    have hg := h.2 g (by simp)
    have hne : (!g.isEmpty) = true := by
      have := hg.1
      cases g with
      | nil => exact absurd rfl this
      | cons => rfl
    cases gs with
    | nil =>
      have := readDigits_run hu g hg.2 false acc []
      rw [List.append_nil] at this
      simp only [join, List.flatten_cons, List.flatten_nil, List.append_nil]
      rw [this, hne]; simp [readDigits]
    | cons g' gs =>
      rw [Verif.Text.join_cons _ _ _ (by simp), readDigits_run hu g hg.2, hne]
      simp only [Bool.or_true, readDigits, if_true]
      rw [ih ⟨by simp, fun x hx => h.2 x (by simp [hx])⟩]
      simp [decFrom]

theorem filter_groups (hu : digit '_' = none) (gs : List Text) (h : DigitGroups digit gs) :
    ((join '_' gs).filter fun c => c ≠ '_') = gs.flatten := by
  have key : ∀ g : Text, (∀ c ∈ g, (digit c).isSome) → (g.filter fun c => c ≠ '_') = g := by
    intro g hg
    rw [List.filter_eq_self]
    intro c hc
    have := hg c hc
    rw [decide_eq_true_iff]
    rintro rfl
    rw [hu] at this; cases this
  obtain ⟨hne, hg⟩ := h
  induction gs with
  | nil => exact absurd rfl hne
  | cons g gs ih =>
    cases gs with
    | nil => simp only [join, List.flatten_cons, List.flatten_nil, List.append_nil]
             exact key g (hg g (by simp)).2
    | cons g' gs =>
      rw [Verif.Text.join_cons _ _ _ (by simp), List.filter_append, List.filter_cons,
        key g (hg g (by simp)).2, if_neg (by simp), ih (by simp) fun x hx => hg x (by simp [hx])]
      simp

theorem join_ends (gs : List Text) (h : DigitGroups digit gs) :
    (∃ c ∈ (join '_' gs).head?, (digit c).isSome) ∧
      (∃ c ∈ (join '_' gs).getLast?, (digit c).isSome) := by
  induction gs with
  | nil => exact absurd rfl h.1
  | cons g gs ih =>
    obtain ⟨g1, g2⟩ := h.2 g (by simp)
    have hh : ∀ rest : Text, ∃ c ∈ (g ++ rest).head?, (digit c).isSome := by
      intro rest
      cases g with
      | nil => exact absurd rfl g1
      | cons c g => exact ⟨c, by simp, g2 c (by simp)⟩
    cases gs with
    | nil =>
      have := hh []
      rw [List.append_nil] at this
      refine ⟨this, ?_⟩
      have hl : g.getLast? = some (g.getLast g1) := List.getLast?_eq_some_getLast g1
      exact ⟨g.getLast g1, by simp [join, hl], g2 _ (List.getLast_mem g1)⟩
    | cons g' gs =>
      rw [Verif.Text.join_cons _ _ _ (by simp)]
      refine ⟨hh _, ?_⟩
      obtain ⟨c, hc, hd⟩ := (ih ⟨by simp, fun x hx => h.2 x (by simp [hx])⟩).2
      refine ⟨c, ?_, hd⟩
      rw [List.getLast?_append, List.getLast?_cons]
      rw [Option.mem_def] at hc
      simp [hc]

theorem sign_other (c : Char) (r : Text) (h1 : c ≠ '+') (h2 : c ≠ '-') :
    sign (c :: r) = (false, c :: r) := by
  unfold sign
  split <;> simp_all

/-- `int` accepts exactly the numerals. -/
theorem pyInt_iff (hcl : Classes isSpace digit) (limit : Nat) (t : Text) (n : Int) :
    pyInt isSpace digit limit t = some n ↔ Numeral isSpace digit limit t n := by
  have hu := hcl.underscore
  constructor
  · intro h
    obtain ⟨a, b, ha, hb, ht⟩ := HeaderText.strip_decomp (isSpace := isSpace) t
    have finish : ∀ (neg : Bool) (sign body : Text),
        (sign = [] ∧ neg = false ∨ sign = ['+'] ∧ neg = false ∨ sign = ['-'] ∧ neg = true) →
        strip isSpace t = sign ++ body →
        (if limit < (body.filter fun c => c ≠ '_').length then none
          else (readDigits digit body false 0).map fun n : Nat => if neg then -(n : Int) else n) = some n →
        Numeral isSpace digit limit t n := by
      intro neg sign body hs hbody h
      split at h
      · cases h
      · next hlim =>
        cases hr : readDigits digit body false 0 with
        | none => rw [hr] at h; cases h
        | some m =>
          rw [hr] at h
          simp only [Option.map_some, Option.some.injEq] at h
          obtain ⟨gs, h1, h2, h3⟩ := (readDigits_sound body 0 m).1 hr
          refine ⟨a, sign, b, gs, ha, hb, ?_, h1, ?_, ?_, ?_⟩
          · rcases hs with ⟨h, _⟩ | ⟨h, _⟩ | ⟨h, _⟩ <;> simp [h]
          · rw [← filter_groups hu gs h1, ← h2]; omega
          · rw [List.append_assoc a, ← h2, ← hbody]; exact ht
          · rw [← h, h3]
            rcases hs with ⟨h, h'⟩ | ⟨h, h'⟩ | ⟨h, h'⟩ <;> simp [h, h', decimal, decFrom]
    unfold pyInt at h
    simp only at h
    cases hr : strip isSpace t with
    | nil => rw [hr] at h; exact finish false [] [] (by simp) hr h
    | cons c r =>
      rw [hr] at h
      by_cases h1 : c = '+'
      · subst h1; exact finish false ['+'] r (by simp) hr h
      · by_cases h2 : c = '-'
        · subst h2; exact finish true ['-'] r (by simp) hr h
        · rw [sign_other c r h1 h2] at h
          exact finish false [] (c :: r) (by simp) hr h
  · rintro ⟨before, sgn, after, gs, hb, ha, hs, hg, hl, rfl, rfl⟩
    obtain ⟨⟨c, hc, hcd⟩, ⟨e, he, hed⟩⟩ := join_ends gs hg
    have hjne : join '_' gs ≠ [] := by intro e'; rw [e'] at hc; simp at hc
    have hstrip : strip isSpace (before ++ sgn ++ join '_' gs ++ after) = sgn ++ join '_' gs := by
      have htrim : HeaderText.Trimmed isSpace (sgn ++ join '_' gs) := by
        refine ⟨by simp [hjne], ?_, ?_⟩
        · intro x hx
          rcases hs with rfl | rfl | rfl
          · rw [List.nil_append] at hx
            rw [Option.mem_def] at hc hx
            rw [hc] at hx; cases hx
            exact hcl.digit_space _ hcd
          · simp only [List.cons_append, List.nil_append, List.head?_cons, Option.mem_def,
              Option.some.injEq] at hx
            subst hx; exact hcl.plus_space
          · simp only [List.cons_append, List.nil_append, List.head?_cons, Option.mem_def,
              Option.some.injEq] at hx
            subst hx; exact hcl.minus_space
        · intro x hx
          rw [List.getLast?_append] at hx
          rw [Option.mem_def] at he hx
          rw [he] at hx
          simp only [Option.some_or, Option.some.injEq] at hx
          subst hx
          exact hcl.digit_space _ hed
      have h2 := HeaderText.strip_trimmed (isSpace := isSpace) _ after htrim ha
      rw [List.append_assoc before, List.append_assoc before]
      unfold HeaderText.strip at h2 ⊢
      rw [HeaderText.dropWhile_all _ _ _ hb]
      exact h2
    unfold pyInt
    simp only [hstrip]
    have hlim : ¬ limit < ((join '_' gs).filter fun c => c ≠ '_').length := by
      rw [filter_groups hu gs hg]; omega
    have hread := readDigits_complete hu gs hg 0
    rcases hs with rfl | rfl | rfl
    · have hp : ∀ x r, join '_' gs = x :: r → x ≠ '+' ∧ x ≠ '-' := by
        intro x r hx
        rw [hx] at hc
        simp only [List.head?_cons, Option.mem_def, Option.some.injEq] at hc
        subst hc
        constructor
        · rintro rfl; rw [hcl.plus] at hcd; cases hcd
        · rintro rfl; rw [hcl.minus] at hcd; cases hcd
      rw [List.nil_append]
      obtain ⟨x, r, hx⟩ := List.exists_cons_of_ne_nil hjne
      rw [hx, sign_other x r (hp x r hx).1 (hp x r hx).2, ← hx]
      rw [if_neg hlim, hread]
      simp [decimal, decFrom]
    · simp only [List.cons_append, List.nil_append, sign]
      rw [if_neg hlim, hread]
      simp [decimal, decFrom]
    · simp only [List.cons_append, List.nil_append, sign]
      rw [if_neg hlim, hread]
      simp [decimal, decFrom]

/-! ## Concrete classes -/

/-- The ASCII digits. -/
def asciiDigit (c : Char) : Option Nat :=
  if '0'.toNat ≤ c.toNat ∧ c.toNat ≤ '9'.toNat then some (c.toNat - '0'.toNat) else none

theorem classes_ascii : Classes HeaderText.blank asciiDigit := by
  refine ⟨?_, by decide, by decide, by decide, by decide, by decide⟩
  intro c h
  unfold asciiDigit at h
  split at h
  · next hc =>
    unfold HeaderText.blank
    simp only [Bool.or_eq_false_iff, decide_eq_false_iff_not]
    constructor
    · rintro rfl; exact absurd hc (by decide)
    · rintro rfl; exact absurd hc (by decide)
  · cases h

example : pyInt HeaderText.blank asciiDigit 4300 " -1_2\t".toList = some (-12) := by decide +kernel
example : pyInt HeaderText.blank asciiDigit 4300 "1__2".toList = none := by decide +kernel
example : pyInt HeaderText.blank asciiDigit 4300 "".toList = none := by decide +kernel
example : pyInt HeaderText.blank asciiDigit 4300 "1.5".toList = none := by decide +kernel

end Verif.Scalars
