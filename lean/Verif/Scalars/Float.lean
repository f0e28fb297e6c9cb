import Verif.Regex

/-!
# Strict booleans and floats (C55)

Models `strict_parse_bool` (smithy_core/utils.py:111-124), `_FLOAT_REGEX` and `strict_parse_float`
(127-160) and `serialize_float` (163-183).  `isDigit` is what `\d` matches in a `str` pattern: the
decimal digits of every script.  The conversion `float(text)` and the shortest text `str(x)` of a float
are parameters: Python guarantees that the first undoes the second.
-/

set_option autoImplicit false

namespace Verif.Scalars.Strict

open Verif Verif.Regex

abbrev Text := List Char

/-! ## Model -/

/-- `strict_parse_bool` (utils.py:111-124); `none` is `ExpectationNotMetError`. -/
def parseBool (given : Text) : Option Bool :=
  if given = "true".toList then some true
  else if given = "false".toList then some false
  else none

/-- The texts the serializers write for booleans (`write_boolean`,
smithy_http/serializers.py:479-481, 590-592 and 654-655). -/
def serializeBool (b : Bool) : Text := if b then "true".toList else "false".toList

/-- `[1-9]` -/
def oneToNine (c : Char) : Bool := '1'.toNat ≤ c.toNat && c.toNat ≤ '9'.toNat

/-- The numeric group of `_FLOAT_REGEX` (utils.py:130-140). -/
def numericRegex (isDigit : Char → Bool) : Regex :=
  .seq (opt (lit '-'))
    (.seq (.alt (lit '0') (.seq (.char oneToNine) (.star (.char isDigit))))
      (.seq (opt (.seq (lit '.') (plus (.char isDigit))))
        (opt (.seq (.char fun c => c = 'e' || c = 'E')
          (.seq (opt (.char fun c => c = '+' || c = '-')) (plus (.char isDigit)))))))

/-- `_FLOAT_REGEX` (utils.py:127-145). -/
def floatRegex (isDigit : Char → Bool) : Regex :=
  .alt (numericRegex isDigit)
    (.alt (.seq (opt (lit '-')) (lits "Infinity".toList)) (lits "NaN".toList))

/-- `strict_parse_float` (utils.py:148-160); `none` is `ExpectationNotMetError`. -/
def parseFloat {F : Type} (isDigit : Char → Bool) (float : Text → F) (given : Text) : Option F :=
  if (floatRegex isDigit).fullmatch given then some (float given) else none

/-- A float or decimal number. -/
inductive Num (α : Type) where
  | nan
  | inf (neg : Bool)
  | finite (x : α)

/-- `serialize_float` (utils.py:163-183).  `str` is `str(given)`, for a decimal `str(given.normalize())`;
`isNumeric` is the character class of `str.isnumeric`. -/
def serializeFloat {α : Type} (isNumeric : Char → Bool) (str : α → Text) : Num α → Text
  | .nan => "NaN".toList
  | .inf neg => if neg then "-Infinity".toList else "Infinity".toList
  | .finite x =>
    let result := str x
    if result ≠ [] ∧ result.all isNumeric then result ++ ".0".toList else result

/-! ## Specification -/

/-- A number as the JSON grammar (RFC 8259, section 6) writes it, in parts. -/
structure JsonNumber where
  neg : Bool
  int : Text
  frac : Option Text
  exp : Option (Char × Option Char × Text)

def JsonNumber.text (n : JsonNumber) : Text :=
  (if n.neg then ['-'] else []) ++ n.int ++
    (match n.frac with | none => [] | some f => '.' :: f) ++
    (match n.exp with | none => [] | some (e, sign, ds) => e :: (sign.toList ++ ds))

def Digits (isDigit : Char → Bool) (t : Text) : Prop := t ≠ [] ∧ ∀ c ∈ t, isDigit c = true

/-- The integral part is a single zero or does not start with one; fraction and exponent have digits;
the exponent starts with `e` or `E` and may have a sign. -/
structure JsonNumber.Ok (isDigit : Char → Bool) (n : JsonNumber) : Prop where
  int : n.int = ['0'] ∨ ∃ c ds, n.int = c :: ds ∧
    c ∈ ['1', '2', '3', '4', '5', '6', '7', '8', '9'] ∧ ∀ d ∈ ds, isDigit d = true
  frac : ∀ f, n.frac = some f → Digits isDigit f
  exp : ∀ e sign ds, n.exp = some (e, sign, ds) →
    (e = 'e' ∨ e = 'E') ∧ (∀ s, sign = some s → s = '+' ∨ s = '-') ∧ Digits isDigit ds

def ascii (c : Char) : Bool := '0'.toNat ≤ c.toNat && c.toNat ≤ '9'.toNat

/-! ## Theorems -/

/-- **C55**: a boolean is read from exactly the two texts that are written for booleans. -/
theorem C55_bool (t : Text) (b : Bool) : parseBool t = some b ↔ t = serializeBool b := by
  have hne : "false".toList ≠ "true".toList := by decide
  unfold parseBool serializeBool
  cases b with
  | true =>
    by_cases h : t = "true".toList
    · rw [if_pos h, if_pos rfl]; exact ⟨fun _ => h, fun _ => rfl⟩
    · rw [if_neg h, if_pos rfl]
      refine ⟨fun h' => ?_, fun h' => absurd h' h⟩
      split at h' <;> cases h'
  | false =>
    rw [if_neg (by decide : ¬ (false = true))]
    by_cases h : t = "true".toList
    · rw [if_pos h]
      refine ⟨fun h' => (by cases h'), fun h' => absurd (h'.symm.trans h) hne⟩
    · rw [if_neg h]
      by_cases h2 : t = "false".toList
      · rw [if_pos h2]; exact ⟨fun _ => h2, fun _ => rfl⟩
      · rw [if_neg h2]; exact ⟨fun h' => (by cases h'), fun h' => absurd h' h2⟩

theorem oneToNine_iff (c : Char) :
    oneToNine c = true ↔ c ∈ ['1', '2', '3', '4', '5', '6', '7', '8', '9'] := by
  constructor
  · intro h
    simp only [oneToNine, Bool.and_eq_true, decide_eq_true_eq] at h
    have hall : ∀ n, n < 58 → 49 ≤ n →
        ∃ d ∈ ['1', '2', '3', '4', '5', '6', '7', '8', '9'], d.toNat = n := by decide +kernel
    obtain ⟨d, hd, he⟩ := hall c.toNat (Nat.lt_succ_of_le h.2) h.1
    have : d = c := Char.ext (UInt32.toNat_inj.1 he)
    exact this ▸ hd
  · revert c
    decide

theorem numeric_iff (isDigit : Char → Bool) (t : Text) :
    Lang (numericRegex isDigit) t ↔ ∃ n : JsonNumber, n.Ok isDigit ∧ n.text = t := by
  unfold numericRegex
  constructor
  · intro h
    obtain ⟨sgn, r1, h1, g1, rfl⟩ := seq_iff.1 h
    obtain ⟨int, r2, h2, g2, rfl⟩ := seq_iff.1 g1
    obtain ⟨fr, ex, h3, h4, rfl⟩ := seq_iff.1 g2
    have hs : ∃ neg : Bool, sgn = if neg then ['-'] else [] := by
      rcases opt_iff.1 h1 with h | h
      · exact ⟨true, lit_iff.1 h⟩
      · exact ⟨false, h⟩
    have hi : int = ['0'] ∨ ∃ c ds, int = c :: ds ∧
        c ∈ ['1', '2', '3', '4', '5', '6', '7', '8', '9'] ∧ ∀ d ∈ ds, isDigit d = true := by
      rcases alt_iff.1 h2 with h | h
      · exact .inl (lit_iff.1 h)
      · obtain ⟨a, b, ha, hb, rfl⟩ := seq_iff.1 h
        obtain ⟨c, hc, rfl⟩ := char_iff.1 ha
        exact .inr ⟨c, b, rfl, (oneToNine_iff c).1 hc, star_char_iff.1 hb⟩
    have hf : ∃ frac : Option Text, (∀ f, frac = some f → Digits isDigit f) ∧
        fr = match frac with | none => [] | some f => '.' :: f := by
      rcases opt_iff.1 h3 with h | h
      · obtain ⟨a, b, ha, hb, rfl⟩ := seq_iff.1 h
        rw [lit_iff.1 ha]
        refine ⟨some b, ?_, rfl⟩
        rintro f ⟨⟩
        exact plus_char_iff.1 hb
      · exact ⟨none, by simp, h⟩
    have he : ∃ exp : Option (Char × Option Char × Text), (∀ e sign ds, exp = some (e, sign, ds) →
        (e = 'e' ∨ e = 'E') ∧ (∀ s, sign = some s → s = '+' ∨ s = '-') ∧ Digits isDigit ds) ∧
        ex = match exp with | none => [] | some (e, sign, ds) => e :: (sign.toList ++ ds) := by
      rcases opt_iff.1 h4 with h | h
      · obtain ⟨a, b, ha, hb, rfl⟩ := seq_iff.1 h
        obtain ⟨e, hec, rfl⟩ := char_iff.1 ha
        obtain ⟨s, ds, hs, hds, rfl⟩ := seq_iff.1 hb
        have hec' : e = 'e' ∨ e = 'E' := by simpa using hec
        rcases opt_iff.1 hs with hs | hs
        · obtain ⟨c, hc, rfl⟩ := char_iff.1 hs
          refine ⟨some (e, some c, ds), ?_, rfl⟩
          rintro _ _ _ ⟨⟩
          refine ⟨hec', ?_, plus_char_iff.1 hds⟩
          rintro _ ⟨⟩
          simpa using hc
        · subst hs
          refine ⟨some (e, none, ds), ?_, rfl⟩
          rintro _ _ _ ⟨⟩
          exact ⟨hec', by simp, plus_char_iff.1 hds⟩
      · exact ⟨none, by simp, h⟩
    obtain ⟨neg, rfl⟩ := hs
    obtain ⟨frac, hf1, rfl⟩ := hf
    obtain ⟨exp, he1, rfl⟩ := he
    refine ⟨⟨neg, int, frac, exp⟩, ⟨hi, hf1, he1⟩, ?_⟩
    simp [JsonNumber.text]
  · rintro ⟨⟨neg, int, frac, exp⟩, ⟨hi, hf, he⟩, rfl⟩
    simp only [JsonNumber.text, List.append_assoc]
    simp only at hi hf he
    refine .seq _ _ _ _ ?_ (.seq _ _ _ _ ?_ (.seq _ _ _ _ ?_ ?_))
    · rw [opt_iff, lit_iff]; cases neg <;> simp
    · rw [alt_iff, lit_iff]
      rcases hi with rfl | ⟨c, ds, rfl, hc, hd⟩
      · exact .inl rfl
      · exact .inr (seq_iff.2 ⟨[c], ds, char_iff.2 ⟨c, (oneToNine_iff c).2 hc, rfl⟩, star_char_iff.2 hd,
          rfl⟩)
    · rw [opt_iff]
      cases frac with
      | none => exact .inr rfl
      | some f =>
        exact .inl (seq_iff.2 ⟨['.'], f, lit_iff.2 rfl, plus_char_iff.2 (hf f rfl), rfl⟩)
    · rw [opt_iff]
      cases exp with
      | none => exact .inr rfl
      | some x =>
        obtain ⟨e, sign, ds⟩ := x
        obtain ⟨h1, h2, h3⟩ := he e sign ds rfl
        refine .inl (seq_iff.2 ⟨[e], sign.toList ++ ds, char_iff.2 ⟨e, by simpa using h1, rfl⟩,
          .seq _ _ _ _ ?_ (plus_char_iff.2 h3), rfl⟩)
        rw [opt_iff]
        cases sign with
        | none => exact .inr rfl
        | some s => exact .inl (char_iff.2 ⟨s, by simpa using h2 s rfl, rfl⟩)

/-- **C55**: a float is read from exactly the numbers of the JSON grammar and three names, and it is
the value of the text. -/
theorem C55_float {F : Type} (isDigit : Char → Bool) (float : Text → F) (t : Text) (x : F) :
    parseFloat isDigit float t = some x ↔ x = float t ∧
      ((∃ n : JsonNumber, n.Ok isDigit ∧ n.text = t) ∨ t = "NaN".toList ∨ t = "Infinity".toList ∨
        t = "-Infinity".toList) := by
  have key : (floatRegex isDigit).fullmatch t = true ↔
      ((∃ n : JsonNumber, n.Ok isDigit ∧ n.text = t) ∨ t = "NaN".toList ∨ t = "Infinity".toList ∨
        t = "-Infinity".toList) := by
    rw [fullmatch_iff, floatRegex, alt_iff, alt_iff, numeric_iff, lits_iff, seq_iff]
    have : (∃ s u, Lang (opt (lit '-')) s ∧ Lang (lits "Infinity".toList) u ∧ t = s ++ u) ↔
        t = "Infinity".toList ∨ t = "-Infinity".toList := by
      constructor
      · rintro ⟨s, u, hs, hu, rfl⟩
        rw [lits_iff.1 hu]
        rcases opt_iff.1 hs with h | h
        · rw [lit_iff.1 h]; exact .inr rfl
        · rw [h]; exact .inl rfl
      · rintro (rfl | rfl)
        · exact ⟨[], _, opt_iff.2 (.inr rfl), lits_iff.2 rfl, rfl⟩
        · exact ⟨['-'], "Infinity".toList, opt_iff.2 (.inl (lit_iff.2 rfl)), lits_iff.2 rfl, rfl⟩
    rw [this]
    constructor
    · rintro (h | (h | h) | h)
      exacts [.inl h, .inr (.inr (.inl h)), .inr (.inr (.inr h)), .inr (.inl h)]
    · rintro (h | h | h | h)
      exacts [.inl h, .inr (.inr h), .inr (.inl (.inl h)), .inr (.inl (.inr h))]
  unfold parseFloat
  by_cases h : (floatRegex isDigit).fullmatch t = true
  · rw [if_pos h]
    constructor
    · intro h'; exact ⟨(Option.some.inj h').symm, key.1 h⟩
    · rintro ⟨rfl, _⟩; rfl
  · rw [if_neg h]
    constructor
    · intro h'; cases h'
    · rintro ⟨_, h'⟩; exact absurd (key.2 h') h

theorem not_digit_of_text (isDigit : Char → Bool) (n : JsonNumber) (hn : n.Ok isDigit) (c : Char)
    (hc : c ∈ n.text) : c = '-' ∨ c = '0' ∨ oneToNine c = true ∨ isDigit c = true ∨ c = '.' ∨
      c = 'e' ∨ c = 'E' ∨ c = '+' := by
  obtain ⟨hi, hf, he⟩ := hn
  unfold JsonNumber.text at hc
  rw [List.mem_append, List.mem_append, List.mem_append] at hc
  rcases hc with ((hc | hc) | hc) | hc
  · split at hc <;> simp at hc
    exact .inl hc
  · rcases hi with h | ⟨d, ds, h, hd, hds⟩
    · rw [h] at hc; simp at hc; exact .inr (.inl hc)
    · rw [h] at hc
      rcases List.mem_cons.1 hc with rfl | hc
      · exact .inr (.inr (.inl ((oneToNine_iff _).2 hd)))
      · have := hds c hc; tauto
  · cases hfr : n.frac with
    | none => rw [hfr] at hc; cases hc
    | some f =>
      rw [hfr] at hc
      rcases List.mem_cons.1 hc with rfl | hc
      · tauto
      · have := (hf f hfr).2 c hc; tauto
  · cases hex : n.exp with
    | none => rw [hex] at hc; cases hc
    | some x =>
      obtain ⟨e, sign, ds⟩ := x
      obtain ⟨h1, h2, h3⟩ := he e sign ds hex
      rw [hex] at hc
      rcases List.mem_cons.1 hc with rfl | hc
      · tauto
      · rw [List.mem_append] at hc
        rcases hc with hc | hc
        · cases sign with
          | none => simp at hc
          | some s =>
            simp at hc
            have := h2 s rfl
            subst hc; tauto
        · have := h3.2 c hc; tauto

/-- With the digits of other scripts in `\d`, texts are accepted that are not JSON numbers: `1٢`. -/
theorem C55_json_grammar_fails {F : Type} (isDigit : Char → Bool) (float : Text → F)
    (h : isDigit '٢' = true) :
    parseFloat isDigit float ['1', '٢'] = some (float ['1', '٢']) ∧
      ¬ ∃ n : JsonNumber, n.Ok ascii ∧ n.text = ['1', '٢'] := by
  refine ⟨(C55_float isDigit float _ _).2 ⟨rfl, .inl ⟨⟨false, ['1', '٢'], none, none⟩,
    ⟨.inr ⟨'1', ['٢'], rfl, by decide, by simpa using h⟩, by simp, by simp⟩, rfl⟩⟩, ?_⟩
  rintro ⟨n, hn, ht⟩
  have := not_digit_of_text ascii n hn '٢' (by rw [ht]; simp)
  revert this
  decide

/-- **C55**: what is written for a float or decimal number is read back as that number, provided
`float` undoes `str`, adding a zero fraction does not change the value, and the names mean what they
say. -/
theorem C55_round_trip {α F : Type} (isDigit isNumeric : Char → Bool) (str : α → Text)
    (float : Text → F) (value : Num α → F)
    (hdig : ∀ c, ascii c = true → isDigit c = true)
    (hnum : isNumeric '-' = false ∧ isNumeric '.' = false ∧ isNumeric 'e' = false ∧
      isNumeric 'E' = false)
    (hstr : ∀ x, ∃ n : JsonNumber, n.Ok isDigit ∧ n.text = str x)
    (hval : ∀ x, float (str x) = value (.finite x))
    (hzero : ∀ t : Text, (∀ c ∈ t, isNumeric c = true) → float (t ++ ".0".toList) = float t)
    (hnan : float "NaN".toList = value .nan) (hinf : float "Infinity".toList = value (.inf false))
    (hninf : float "-Infinity".toList = value (.inf true)) (x : Num α) :
    parseFloat isDigit float (serializeFloat isNumeric str x) = some (value x) := by
  rw [C55_float]
  cases x with
  | nan => exact ⟨hnan.symm, .inr (.inl rfl)⟩
  | inf neg =>
    cases neg with
    | true => exact ⟨hninf.symm, .inr (.inr (.inr rfl))⟩
    | false => exact ⟨hinf.symm, .inr (.inr (.inl rfl))⟩
  | finite x =>
    obtain ⟨n, hn, ht⟩ := hstr x
    simp only [serializeFloat]
    by_cases h : str x ≠ [] ∧ (str x).all isNumeric = true
    · rw [if_pos h]
      have hall : ∀ c ∈ str x, isNumeric c = true := by simpa using h.2
      refine ⟨by rw [hzero _ hall, hval], .inl ⟨⟨n.neg, n.int, some ['0'], none⟩, ?_, ?_⟩⟩
      · refine ⟨hn.int, ?_, by simp⟩
        rintro f ⟨⟩
        exact ⟨by simp, by simpa using hdig '0' (by decide)⟩
      · have hfr : n.frac = none := by
          cases hf : n.frac with
          | none => rfl
          | some f =>
            have := hall '.' (by rw [← ht]; simp [JsonNumber.text, hf])
            rw [hnum.2.1] at this; cases this
        have hex : n.exp = none := by
          cases he : n.exp with
          | none => rfl
          | some y =>
            obtain ⟨e, s, ds⟩ := y
            have h1 := (hn.exp e s ds he).1
            have h2 := hall e (by rw [← ht]; simp [JsonNumber.text, he])
            rcases h1 with rfl | rfl
            · rw [hnum.2.2.1] at h2; cases h2
            · rw [hnum.2.2.2] at h2; cases h2
        have : str x = (if n.neg then ['-'] else []) ++ n.int := by
          rw [← ht]; simp [JsonNumber.text, hfr, hex]
        rw [this]
        simp only [JsonNumber.text, List.append_nil]
        rfl
    · rw [if_neg h]
      exact ⟨(hval x).symm, .inl ⟨n, hn, ht⟩⟩

/-- The text of a negative whole decimal has no fractional part although the documentation promises
one, because `"-5".isnumeric()` is false. -/
theorem C55_fraction_fails (isNumeric : Char → Bool) (h : isNumeric '-' = false) :
    serializeFloat isNumeric (fun _ : Unit => "-5".toList) (.finite ()) = "-5".toList := by
  have : ("-5".toList).all isNumeric = false := by simp [h]
  simp only [serializeFloat, this]
  rw [if_neg (by simp)]

/-! ## The hypotheses are met -/

example : parseFloat ascii id "-10.50e+3".toList = some "-10.50e+3".toList := by decide +kernel
example : parseFloat ascii id "01".toList = none := by decide +kernel
example : parseFloat ascii id "inf".toList = none := by decide +kernel
example : parseFloat ascii id "1.".toList = none := by decide +kernel
example : parseFloat ascii id "+1".toList = none := by decide +kernel
example : parseFloat ascii id "Infinity".toList = some "Infinity".toList := by decide +kernel
example : parseBool "True".toList = none := by decide +kernel

def exampleNumber : JsonNumber := ⟨true, "10".toList, some "50".toList, some ('e', some '+', "3".toList)⟩
example : exampleNumber.Ok ascii :=
  ⟨.inr ⟨'1', ['0'], rfl, by decide, by decide⟩,
    by rintro f ⟨⟩; exact ⟨by decide, by decide⟩,
    by rintro e s ds ⟨⟩; exact ⟨.inl rfl, by rintro s ⟨⟩; exact .inl rfl, by decide, by decide⟩⟩

/-- The assumptions of the round trip are met, for instance by decimals in steps of a half with `float`
reading them. -/
example : ∃ (str : Bool → Text) (float : Text → Option Bool) (value : Num Bool → Option Bool),
    (∀ x, ∃ n : JsonNumber, n.Ok ascii ∧ n.text = str x) ∧
    (∀ x, float (str x) = value (.finite x)) ∧
    (∀ t : Text, (∀ c ∈ t, ascii c = true) → float (t ++ ".0".toList) = float t) ∧
    float "NaN".toList = value .nan ∧ float "Infinity".toList = value (.inf false) ∧
    float "-Infinity".toList = value (.inf true) := by
  refine ⟨fun b => if b then "0.5".toList else "0.25".toList,
    fun t => if t = "0.5".toList then some true else if t = "0.25".toList then some false else none,
    fun n => match n with | .finite x => some x | _ => none, ?_, ?_, ?_, by decide, by decide,
    by decide⟩
  · intro x
    cases x with
    | true => exact ⟨⟨false, ['0'], some ['5'], none⟩,
        ⟨.inl rfl, by rintro f ⟨⟩; exact ⟨by decide, by decide⟩, by simp⟩, rfl⟩
    | false => exact ⟨⟨false, ['0'], some ['2', '5'], none⟩,
        ⟨.inl rfl, by rintro f ⟨⟩; exact ⟨by decide, by decide⟩, by simp⟩, rfl⟩
  · intro x; cases x <;> decide
  · intro t ht
    have h1 : t ≠ "0.5".toList := by
      rintro rfl; exact absurd (ht '.' (by decide)) (by decide)
    have h2 : t ≠ "0.25".toList := by
      rintro rfl; exact absurd (ht '.' (by decide)) (by decide)
    have hl : ∀ u : Text, u.getLast? = some '5' → t ++ ".0".toList ≠ u := by
      intro u hu he
      rw [← he, List.getLast?_append] at hu
      have h5 : (".0".toList).getLast? = some '0' := by decide
      rw [h5] at hu
      simp at hu
    show (if _ then _ else _) = (if _ then _ else _)
    rw [if_neg h1, if_neg h2, if_neg (hl _ (by decide)), if_neg (hl _ (by decide))]

end Verif.Scalars.Strict
