import Verif.Timestamps.Rfc3339
import Verif.Scalars.PyInt

/-!
# Timestamps in the format `http-date` (C76)

What `TimestampFormat.HTTP_DATE` writes and reads (`smithy_core/types.py` lines 147-180): `format_datetime`
(modelled in `Model.lean`) and `parsedate_to_datetime` (`email/utils.py` lines 313-321, `email/_parseaddr.py`
lines 57-179, of Python 3.11).
-/

set_option autoImplicit false

namespace Verif.Timestamps

open Verif.Text (split)
open Verif.Scalars (pyInt Classes Numeral pyInt_iff)

/-! ## Model -/

/-- What Python knows about characters: `str.isspace`, `str.isdigit`, the value of decimal digits, `str.lower`,
`str.upper`, and the limit on the digits of an `int`. -/
structure Py where
  isSpace : Char → Bool
  isDigit : Char → Bool
  digit : Char → Option Nat
  lower : Text → Text
  upper : Text → Text
  limit : Nat

/-- `int(text)`. -/
def Py.int (py : Py) (t : Text) : Option Int := pyInt py.isSpace py.digit py.limit t

/-- `text.split()`: the words of a text; `word` is the word being read, backwards. -/
def words (isSpace : Char → Bool) : Text → Text → List Text
  | word, [] => if word.isEmpty then [] else [word.reverse]
  | word, c :: t =>
    if isSpace c then (if word.isEmpty then words isSpace [] t else word.reverse :: words isSpace [] t)
    else words isSpace (c :: word) t

/-- `_daynames`, _parseaddr.py line 28. -/
def dayNames : List Text := ["mon", "tue", "wed", "thu", "fri", "sat", "sun"].map String.toList

/-- `_monthnames`, _parseaddr.py lines 23-26. -/
def monthNames : List Text :=
  ["jan", "feb", "mar", "apr", "may", "jun", "jul", "aug", "sep", "oct", "nov", "dec",
   "january", "february", "march", "april", "may", "june", "july", "august", "september", "october", "november",
   "december"].map String.toList

/-- `_timezones`, _parseaddr.py lines 36-42. -/
def timezones : List (Text × Int) :=
  [("UT", 0), ("UTC", 0), ("GMT", 0), ("Z", 0), ("AST", -400), ("ADT", -300), ("EST", -500), ("EDT", -400),
   ("CST", -600), ("CDT", -500), ("MST", -700), ("MDT", -600), ("PST", -800), ("PDT", -700)].map
    fun (n, o) => (n.toList, o)

/-- The day of the week is skipped: _parseaddr.py lines 72-80. -/
def skipDay (py : Py) : List Text → List Text
  | [] => []
  | w :: ws =>
    if w.getLast? == some ',' || (py.lower w ∈ dayNames) then ws
    else if ',' ∈ w then (w.reverse.takeWhile (· != ',')).reverse :: ws
    else w :: ws

/-- Dates of RFC 850: _parseaddr.py lines 81-84. -/
def rfc850 (ws : List Text) : List Text :=
  match ws with
  | [a, b, c] => if (split '-' a).length == 3 then split '-' a ++ [b, c] else ws
  | _ => ws

/-- A time zone that is joined to the time, or none: _parseaddr.py lines 85-93. -/
def splitZone (ws : List Text) : List Text :=
  match ws with
  | [a, b, c, s] =>
    match (find '+' s).orElse fun _ => find '-' s with
    | some (i + 1) => [a, b, c, s.take (i + 1), s.drop (i + 1)]
    | _ => [a, b, c, s, []]
  | _ => ws

/-- A comma at the end is cut: _parseaddr.py lines 108-109, 113-114, 119-120. -/
def cutComma (t : Text) : Text := if t.getLast? == some ',' then t.dropLast else t

/-- Hours, minutes and seconds: _parseaddr.py lines 121-138. -/
def clockParts (tm : Text) : Option (Text × Text × Text) :=
  match split ':' tm with
  | [h, m] => some (h, m, ['0'])
  | [h, m, s] => some (h, m, s)
  | [t] =>
    if '.' ∈ t then
      match split '.' t with
      | [h, m] => some (h, m, ['0'])
      | [h, m, s] => some (h, m, s)
      | _ => none
    else none
  | _ => none

/-- Years of two digits: _parseaddr.py lines 147-158. -/
def fullYear (yy : Int) : Int := if yy < 100 then (if 68 < yy then yy + 1900 else yy + 2000) else yy

/-- The time zone, in seconds: _parseaddr.py lines 159-177. -/
def zoneSeconds (py : Py) (tz : Text) : Option Int :=
  let tz := py.upper tz
  let o :=
    match timezones.lookup tz with
    | some o => some o
    | none =>
      match py.int tz with
      | some 0 => if tz.head? == some '-' then none else some 0
      | o => o
  o.map fun o => if o < 0 then -((-o / 100) * 3600 + (-o % 100) * 60) else (o / 100) * 3600 + (o % 100) * 60

/-- The fields of a date as `_parsedate_tz` returns them. -/
structure Parsed where
  year : Int
  month : Nat
  day : Int
  hour : Int
  minute : Int
  second : Int
  zone : Option Int
deriving Repr, DecidableEq

/-- The month and the day, whichever comes first: _parseaddr.py lines 100-105. -/
def monthOf (py : Py) (dd mm : Text) : Option (Nat × Text) :=
  if py.lower mm ∈ monthNames then some (monthNames.idxOf (py.lower mm), dd)
  else if py.lower dd ∈ monthNames then some (monthNames.idxOf (py.lower dd), py.lower mm)
  else none

/-- `_parsedate_tz` on the five parts, _parseaddr.py lines 97-179. -/
def parseParts (py : Py) (dd mm yy tm tz : Text) : Option Parsed :=
  if dd.isEmpty || mm.isEmpty || yy.isEmpty then none
  else
    match monthOf py dd mm with
    | none => none
    | some (k, dd) =>
      let month := if 12 < k + 1 then k + 1 - 12 else k + 1
      let dd := cutComma dd
      let swap := match find ':' yy with | some (_ + 1) => true | _ => false
      let yt := if swap then (tm, yy) else (yy, tm)
      let yy := cutComma yt.1
      match yy with
      | [] => none
      | c :: _ =>
        let yz := if py.isDigit c then (yy, tz) else (tz, yy)
        match clockParts (cutComma yt.2) with
        | none => none
        | some (h, m, s) =>
          match py.int yz.1, py.int dd, py.int h, py.int m, py.int s with
          | some y, some d, some h, some m, some s =>
            some ⟨fullYear y, month, d, h, m, s, zoneSeconds py yz.2⟩
          | _, _, _, _, _ => none

/-- `_parsedate_tz`, _parseaddr.py lines 57-179. -/
def parsedate (py : Py) (t : Text) : Option Parsed :=
  match splitZone (rfc850 (skipDay py (words py.isSpace [] t))) with
  | dd :: mm :: yy :: tm :: tz :: _ => parseParts py dd mm yy tm tz
  | _ => none

/-- `parsedate_to_datetime`, email/utils.py lines 313-321.  (The C constructor raises `OverflowError` for numbers
beyond 32 bits; here `ValueError` as in datetime.py.) -/
def toDatetime (py : Py) (t : Text) : Except Err DateTime :=
  match parsedate py t with
  | none => .error .value
  | some p =>
    if p.year < 0 ∨ p.day < 0 ∨ p.hour < 0 ∨ p.minute < 0 ∨ p.second < 0 then .error .value
    else
      match p.zone with
      | none => make ⟨p.year.toNat, p.month, p.day.toNat⟩ p.hour.toNat p.minute.toNat p.second.toNat 0 none
      | some z =>
        if offsetOk (z * 1000000) then
          make ⟨p.year.toNat, p.month, p.day.toNat⟩ p.hour.toNat p.minute.toNat p.second.toNat 0 (some (z * 1000000))
        else .error .value

/-- `TimestampFormat.HTTP_DATE.deserialize` of a string, types.py lines 179-180. -/
def readHttpDate (py : Py) (t : Text) : Except Err DateTime := toDatetime py t >>= ensureUtc

/-- `TimestampFormat.HTTP_DATE.serialize`, types.py lines 154-159. -/
def writeHttpDate (dt : DateTime) : Except Err Text := (ensureUtc dt).map formatHttpDate

/-! ## Specification -/

namespace Spec

/-- The names of the days, from Monday on (`day-name` of RFC 9110, section 5.6.7). -/
def weekdays : List Text := [['M', 'o', 'n'], ['T', 'u', 'e'], ['W', 'e', 'd'], ['T', 'h', 'u'], ['F', 'r', 'i'],
  ['S', 'a', 't'], ['S', 'u', 'n']]

/-- The names of the months (`month` of RFC 9110, section 5.6.7). -/
def months : List Text := [['J', 'a', 'n'], ['F', 'e', 'b'], ['M', 'a', 'r'], ['A', 'p', 'r'], ['M', 'a', 'y'],
  ['J', 'u', 'n'], ['J', 'u', 'l'], ['A', 'u', 'g'], ['S', 'e', 'p'], ['O', 'c', 't'], ['N', 'o', 'v'], ['D', 'e', 'c']]

/-- `IMF-fixdate` of RFC 9110, section 5.6.7. -/
def imfFixdate (weekday month : Text) (year day h m s : Nat) : Text :=
  weekday ++ [',', ' '] ++ fixed 2 day ++ [' '] ++ month ++ [' '] ++ fixed 4 year ++ [' '] ++
    fixed 2 h ++ [':'] ++ fixed 2 m ++ [':'] ++ fixed 2 s ++ [' ', 'G', 'M', 'T']

/-- The same with another time zone (`date-time` of RFC 5322, section 3.3). -/
def mailDate (weekday month : Text) (year day h m s : Nat) (zone : Text) : Text :=
  weekday ++ [',', ' '] ++ fixed 2 day ++ [' '] ++ month ++ [' '] ++ fixed 4 year ++ [' '] ++
    fixed 2 h ++ [':'] ++ fixed 2 m ++ [':'] ++ fixed 2 s ++ [' '] ++ zone

/-- `zone` of RFC 5322, section 3.3: a sign, hours and minutes. -/
def zoneOf (negative : Bool) (h m : Nat) : Text := (if negative then '-' else '+') :: (fixed 2 h ++ fixed 2 m)

/-- What is used about characters: blanks and digits are told apart, ASCII behaves as expected. -/
structure _root_.Verif.Timestamps.Py.Sane (py : Py) : Prop where
  classes : Classes py.isSpace py.digit
  blank : py.isSpace ' ' = true
  printable : ∀ c : Char, 33 ≤ c.toNat → c.toNat ≤ 126 → py.isSpace c = false
  digits : ∀ k, k < 10 → py.digit (digitChar k) = some k ∧ py.isDigit (digitChar k) = true
  lower : ∀ t : Text, (∀ c ∈ t, c.toNat < 128) → py.lower t = t.map Char.toLower
  upper : ∀ t : Text, (∀ c ∈ t, c.toNat < 128) → py.upper t = t.map Char.toUpper
  limit : 4 ≤ py.limit

end Spec

open Spec

/-! ## Lemmas -/

section
variable {py : Py} (hpy : py.Sane)
include hpy

theorem isSpace_fixed (w n : Nat) (c : Char) (hc : c ∈ fixed w n) : py.isSpace c = false := by
  have := fixed_ascii w n c hc
  simp only [Scalars.Strict.ascii, Bool.and_eq_true, decide_eq_true_eq] at this
  have e : '0'.toNat = 48 := rfl
  have e9 : '9'.toNat = 57 := rfl
  exact hpy.printable c (by omega) (by omega)

omit hpy in
theorem fixed_mem (w n : Nat) (c : Char) (hc : c ∈ fixed w n) : ∃ k, k < 10 ∧ c = digitChar k := by
  induction w generalizing n with
  | zero => simp [fixed] at hc
  | succ w ih =>
    rw [fixed, List.mem_append, List.mem_singleton] at hc
    rcases hc with hc | rfl
    · exact ih _ hc
    · exact ⟨n % 10, by omega, rfl⟩

theorem decimal_fixed (w n : Nat) (h : n < 10 ^ w) : Scalars.decimal py.digit (fixed w n) = n := by
  induction w generalizing n with
  | zero => simp only [Nat.pow_zero] at h; simp [fixed, Scalars.decimal]; omega
  | succ w ih =>
    rw [Nat.pow_succ] at h
    have := ih (n / 10) (by omega)
    unfold Scalars.decimal at this ⊢
    rw [fixed, List.foldl_append, this, List.foldl_cons, List.foldl_nil, (hpy.digits _ (by omega)).1]
    simp only [Option.getD_some]
    omega

theorem int_fixed (w n : Nat) (hw : 0 < w) (hw4 : w ≤ 4) (h : n < 10 ^ w) : py.int (fixed w n) = some (n : Int) := by
  unfold Py.int
  rw [pyInt_iff hpy.classes]
  refine ⟨[], [], [], [fixed w n], by simp, by simp, .inl rfl, ⟨by simp, ?_⟩, ?_, by simp [Text.join], ?_⟩
  · intro g hg
    simp only [List.mem_singleton] at hg
    subst hg
    refine ⟨?_, ?_⟩
    · intro h
      have := fixed_length w n
      rw [h] at this
      simp at this
      omega
    · intro c hc
      obtain ⟨k, hk, rfl⟩ := fixed_mem w n c hc
      rw [(hpy.digits k hk).1]
      rfl
  · have := hpy.limit
    simp [fixed_length]
    omega
  · simp only [List.flatten_cons, List.flatten_nil, List.append_nil]
    rw [if_neg (by simp), decimal_fixed hpy w n h]

end

theorem words_word (isSpace : Char → Bool) (w acc t : Text) (h : ∀ c ∈ w, isSpace c = false) :
    words isSpace acc (w ++ t) = words isSpace (w.reverse ++ acc) t := by
  induction w generalizing acc with
  | nil => rfl
  | cons c w ih =>
    rw [List.cons_append, words, h c (by simp), if_neg (by simp), ih _ fun c hc => h c (by simp [hc])]
    simp

theorem words_step (isSpace : Char → Bool) (w t : Text) (b : Char) (hw : w ≠ []) (h : ∀ c ∈ w, isSpace c = false)
    (hb : isSpace b = true) : words isSpace [] (w ++ b :: t) = w :: words isSpace [] t := by
  rw [words_word isSpace w [] _ h, List.append_nil, words, hb, if_pos rfl, if_neg (by simpa using hw), List.reverse_reverse]

theorem words_last (isSpace : Char → Bool) (w : Text) (hw : w ≠ []) (h : ∀ c ∈ w, isSpace c = false) :
    words isSpace [] w = [w] := by
  have := words_word isSpace w [] [] h
  rw [List.append_nil, List.append_nil] at this
  rw [this, words, if_neg (by simpa using hw), List.reverse_reverse]

theorem fixed_ne_nil (w n : Nat) (hw : 0 < w) : fixed w n ≠ [] := by
  intro h
  have := fixed_length w n
  rw [h] at this
  simp at this
  omega

theorem printable_ascii {py : Py} (hpy : py.Sane) (t : Text) (h : t.all (fun c => decide (33 ≤ c.toNat ∧ c.toNat ≤ 126)) = true) :
    ∀ c ∈ t, py.isSpace c = false := by
  intro c hc
  have := List.all_eq_true.1 h c hc
  simp only [decide_eq_true_eq] at this
  exact hpy.printable c this.1 this.2

theorem weekday_cases (w : Text) (h : w ∈ weekdays) : w.length = 3 ∧
    (w ++ [',']).all (fun c => decide (33 ≤ c.toNat ∧ c.toNat ≤ 126)) = true := by
  have : ∀ w ∈ weekdays, w.length = 3 ∧ (w ++ [',']).all (fun c => decide (33 ≤ c.toNat ∧ c.toNat ≤ 126)) = true := by
    decide +kernel
  exact this w h

theorem month_cases (k : Nat) (hk : k < 12) : ∃ m, months[k]? = some m ∧ m ≠ [] ∧
    m.all (fun c => decide (33 ≤ c.toNat ∧ c.toNat ≤ 126)) = true ∧
    m.map Char.toLower ∈ monthNames ∧ monthNames.idxOf (m.map Char.toLower) = k := by
  have : ∀ k, k < 12 → ∃ m ∈ months, months[k]? = some m ∧ m ≠ [] ∧
    m.all (fun c => decide (33 ≤ c.toNat ∧ c.toNat ≤ 126)) = true ∧
    m.map Char.toLower ∈ monthNames ∧ monthNames.idxOf (m.map Char.toLower) = k := by
    decide +kernel
  obtain ⟨m, _, h⟩ := this k hk
  exact ⟨m, h⟩

theorem getLast_fixed (w n : Nat) (hw : 0 < w) : ((fixed w n).getLast? == some ',') = false := by
  cases w with
  | zero => omega
  | succ w =>
    rw [fixed, List.getLast?_append]
    simp only [List.getLast?_singleton, Option.some_or]
    have := (digitChar_cases (n % 10) (by omega)).1
    rw [beq_eq_false_iff_ne]
    intro h
    simp only [Option.some.injEq] at h
    rw [h] at this
    exact absurd this (by decide)

theorem cutComma_fixed (w n : Nat) (hw : 0 < w) : cutComma (fixed w n) = fixed w n := by
  unfold cutComma
  rw [getLast_fixed w n hw, if_neg (by simp)]

theorem cutComma_clock (p : Text) (n : Nat) : cutComma (p ++ fixed 2 n) = p ++ fixed 2 n := by
  unfold cutComma
  have : ((p ++ fixed 2 n).getLast? == some ',') = false := by
    have h := getLast_fixed 2 n (by omega)
    rw [List.getLast?_append]
    cases hx : (fixed 2 n).getLast? with
    | none => exact absurd (List.getLast?_eq_none_iff.1 hx) (fixed_ne_nil 2 n (by omega))
    | some x => rw [hx] at h; simpa using h
  rw [this, if_neg (by simp)]

theorem clockParts_text (h m s : Nat) :
    clockParts (fixed 2 h ++ ':' :: (fixed 2 m ++ ':' :: fixed 2 s)) = some (fixed 2 h, fixed 2 m, fixed 2 s) := by
  have n := fun k => fixed_not_mem 2 k ':' (by decide)
  unfold clockParts
  rw [Text.split_append ':' _ _ (n h), Text.split_append ':' _ _ (n m), Text.split_of_not_mem ':' _ (n s)]

/-- The fields of a date, whatever its day of the week and its zone. -/
theorem parsedate_mail {py : Py} (hpy : py.Sane) (weekday month zone : Text) (k year day h m s : Nat) (hzn : zone ≠ [])
    (hzp : ∀ c ∈ zone, py.isSpace c = false) (hw : weekday ∈ weekdays)
    (hm : months[k]? = some month) (hy : year < 10000) (hd : day < 100) (hh : h < 100) (hmi : m < 100) (hs : s < 100) :
    parsedate py (mailDate weekday month year day h m s zone) =
      some ⟨fullYear year, k + 1, day, h, m, s, zoneSeconds py zone⟩ := by
  have hk : k < 12 := by
    by_contra hk
    rw [List.getElem?_eq_none (by simp [months]; omega)] at hm
    exact absurd hm (by simp)
  obtain ⟨month', hm', m1, m2, m3, m4⟩ := month_cases k hk
  rw [hm] at hm'
  simp only [Option.some.injEq] at hm'
  subst hm'
  obtain ⟨w1, w2⟩ := weekday_cases weekday hw
  have hwords : words py.isSpace [] (mailDate weekday month year day h m s zone) =
      [weekday ++ [','], fixed 2 day, month, fixed 4 year, fixed 2 h ++ ':' :: (fixed 2 m ++ ':' :: fixed 2 s),
        zone] := by
    have e : mailDate weekday month year day h m s zone = (weekday ++ [',']) ++ ' ' :: (fixed 2 day ++ ' ' :: (month ++ ' ' ::
        (fixed 4 year ++ ' ' :: ((fixed 2 h ++ ':' :: (fixed 2 m ++ ':' :: fixed 2 s)) ++ ' ' :: zone)))) := by
      simp [mailDate, List.append_assoc]
    have hclock : ∀ c ∈ fixed 2 h ++ ':' :: (fixed 2 m ++ ':' :: fixed 2 s), py.isSpace c = false := by
      intro c hc
      simp only [List.mem_append, List.mem_cons] at hc
      have hcolon : py.isSpace ':' = false := hpy.printable ':' (by decide) (by decide)
      rcases hc with hc | rfl | hc | rfl | hc
      · exact isSpace_fixed hpy _ _ c hc
      · exact hcolon
      · exact isSpace_fixed hpy _ _ c hc
      · exact hcolon
      · exact isSpace_fixed hpy _ _ c hc
    rw [e, words_step py.isSpace _ _ ' ' (by simp) (printable_ascii hpy _ w2) hpy.blank,
      words_step py.isSpace _ _ ' ' (fixed_ne_nil 2 day (by omega)) (isSpace_fixed hpy _ _) hpy.blank,
      words_step py.isSpace _ _ ' ' m1 (printable_ascii hpy _ m2) hpy.blank,
      words_step py.isSpace _ _ ' ' (fixed_ne_nil 4 year (by omega)) (isSpace_fixed hpy _ _) hpy.blank,
      words_step py.isSpace _ _ ' ' (by simp) hclock hpy.blank,
      words_last py.isSpace _ hzn hzp]
  unfold parsedate
  rw [hwords]
  have hsk : ∀ ws, skipDay py ((weekday ++ [',']) :: ws) = ws := by
    intro ws
    simp [skipDay, List.getLast?_append]
  rw [hsk]
  have hlow : py.lower month = month.map Char.toLower := hpy.lower month fun c hc => by
    have := List.all_eq_true.1 m2 c hc
    simp only [decide_eq_true_eq] at this
    omega
  simp only [rfc850, splitZone]
  unfold parseParts
  have hdn := fixed_ne_nil 2 day (by omega)
  have hyn := fixed_ne_nil 4 year (by omega)
  have hcond : ((fixed 2 day).isEmpty || month.isEmpty || (fixed 4 year).isEmpty) = false := by
    simp [hdn, hyn, m1]
  rw [hcond, if_neg (by simp)]
  have hmo : monthOf py (fixed 2 day) month = some (k, fixed 2 day) := by
    unfold monthOf
    rw [hlow, if_pos m3, m4]
  rw [hmo]
  simp only
  rw [find_none ':' (fixed 4 year) (fixed_not_mem 4 year ':' (by decide))]
  simp only [Bool.false_eq_true, if_false]
  rw [cutComma_fixed 2 day (by omega), cutComma_fixed 4 year (by omega)]
  have hcc : cutComma (fixed 2 h ++ ':' :: (fixed 2 m ++ ':' :: fixed 2 s)) =
      fixed 2 h ++ ':' :: (fixed 2 m ++ ':' :: fixed 2 s) := by
    have := cutComma_clock (fixed 2 h ++ ':' :: (fixed 2 m ++ [':'])) s
    simpa [List.append_assoc] using this
  rw [hcc, clockParts_text]
  have hiy := int_fixed hpy 4 year (by omega) (by omega) (by omega)
  have hfd : ∀ c r, fixed 4 year = c :: r → py.isDigit c = true := by
    intro c r hcr
    obtain ⟨j, hj, rfl⟩ := fixed_mem 4 year c (by rw [hcr]; simp)
    exact (hpy.digits j hj).2
  cases hf : fixed 4 year with
  | nil => exact absurd hf hyn
  | cons c r =>
    rw [hf] at hiy
    simp only [hfd c r hf, if_true, hiy, int_fixed hpy 2 day (by omega) (by omega) (by omega),
      int_fixed hpy 2 h (by omega) (by omega) (by omega), int_fixed hpy 2 m (by omega) (by omega) (by omega),
      int_fixed hpy 2 s (by omega) (by omega) (by omega)]
    rw [if_neg (by omega)]

/-- The fields of an `IMF-fixdate`, whatever its day of the week. -/
theorem parsedate_text {py : Py} (hpy : py.Sane) (weekday month : Text) (k year day h m s : Nat) (hw : weekday ∈ weekdays)
    (hm : months[k]? = some month) (hy : year < 10000) (hd : day < 100) (hh : h < 100) (hmi : m < 100) (hs : s < 100) :
    parsedate py (imfFixdate weekday month year day h m s) =
      some ⟨fullYear year, k + 1, day, h, m, s, some 0⟩ := by
  have hup : py.upper ['G', 'M', 'T'] = ['G', 'M', 'T'] := by
    rw [hpy.upper _ (by decide)]
    decide
  have hz : zoneSeconds py ['G', 'M', 'T'] = some 0 := by
    unfold zoneSeconds
    simp only [hup]
    rw [show timezones.lookup ['G', 'M', 'T'] = some 0 by decide +kernel]
    rfl
  have e : imfFixdate weekday month year day h m s = mailDate weekday month year day h m s ['G', 'M', 'T'] := by
    simp [imfFixdate, mailDate]
  rw [e, parsedate_mail hpy weekday month ['G', 'M', 'T'] k year day h m s (by simp)
    (printable_ascii hpy _ (by decide)) hw hm hy hd hh hmi hs, hz]

theorem int_signed {py : Py} (hpy : py.Sane) (negative : Bool) (n : Nat) (h : n < 10000) :
    py.int ((if negative then '-' else '+') :: fixed 4 n) = some (if negative then -(n : Int) else n) := by
  unfold Py.int
  rw [pyInt_iff hpy.classes]
  refine ⟨[], [if negative then '-' else '+'], [], [fixed 4 n], by simp, by simp, ?_, ⟨by simp, ?_⟩, ?_,
    by simp [Text.join], ?_⟩
  · cases negative
    · exact .inr (.inl rfl)
    · exact .inr (.inr rfl)
  · intro g hg
    simp only [List.mem_singleton] at hg
    subst hg
    refine ⟨fixed_ne_nil 4 n (by omega), fun c hc => ?_⟩
    obtain ⟨k, hk, rfl⟩ := fixed_mem 4 n c hc
    rw [(hpy.digits k hk).1]
    rfl
  · have := hpy.limit
    simp [fixed_length]
    omega
  · simp only [List.flatten_cons, List.flatten_nil, List.append_nil]
    rw [decimal_fixed hpy 4 n h]
    cases negative <;> simp

theorem fixed_hhmm (a b : Nat) (hb : b < 100) : fixed 2 a ++ fixed 2 b = fixed 4 (a * 100 + b) := by
  have h1 : (a * 100 + b) % 10 = b % 10 := by omega
  have h2 : (a * 100 + b) / 10 % 10 = b / 10 % 10 := by omega
  have h3 : (a * 100 + b) / 10 / 10 % 10 = a % 10 := by omega
  have h4 : (a * 100 + b) / 10 / 10 / 10 % 10 = a / 10 % 10 := by omega
  simp only [fixed, List.nil_append, List.cons_append, h1, h2, h3, h4]

/-- The seconds of a zone; none for `-0000`. -/
theorem zoneSeconds_zone {py : Py} (hpy : py.Sane) (negative : Bool) (h m : Nat) (hh : h < 100) (hm : m < 100) :
    zoneSeconds py (zoneOf negative h m) =
      if negative ∧ h = 0 ∧ m = 0 then none
      else some ((if negative then -1 else 1) * ((h : Int) * 3600 + (m : Int) * 60)) := by
  have hlt : ∀ c ∈ zoneOf negative h m, c.toNat < 128 := by
    intro c hc
    unfold zoneOf at hc
    rcases List.mem_cons.1 hc with rfl | hc
    · cases negative <;> decide
    · rw [fixed_hhmm h m hm] at hc
      have := fixed_ascii 4 _ c hc
      simp only [Scalars.Strict.ascii, Bool.and_eq_true, decide_eq_true_eq] at this
      have e9 : '9'.toNat = 57 := rfl
      omega
  have hmap : (zoneOf negative h m).map Char.toUpper = zoneOf negative h m := by
    unfold zoneOf
    rw [fixed_hhmm h m hm, List.map_cons]
    congr 1
    · cases negative <;> decide
    · have hd : ∀ k, k < 10 → (digitChar k).toUpper = digitChar k := by decide
      have : ∀ c ∈ fixed 4 (h * 100 + m), c.toUpper = id c := by
        intro c hc
        obtain ⟨k, hk, rfl⟩ := fixed_mem 4 _ c hc
        exact hd k hk
      rw [List.map_congr_left this, List.map_id]
  have hup : py.upper (zoneOf negative h m) = zoneOf negative h m := by rw [hpy.upper _ hlt, hmap]
  have hint : py.int (zoneOf negative h m) = some (if negative then -((h * 100 + m : Nat) : Int) else (h * 100 + m : Nat)) := by
    unfold zoneOf
    rw [fixed_hhmm h m hm]
    exact int_signed hpy negative _ (by omega)
  have hlook : timezones.lookup (zoneOf negative h m) = none := by
    have hkeys : ∀ e ∈ timezones, e.1.head? ≠ some '-' ∧ e.1.head? ≠ some '+' := by decide +kernel
    rw [List.lookup_eq_none_iff]
    intro e he
    have := hkeys e he
    rw [bne_iff_ne]
    intro heq
    rw [← heq] at this
    unfold zoneOf at this
    cases negative <;> simp at this
  unfold zoneSeconds
  simp only [hup, hlook, hint]
  have hhead : (zoneOf negative h m).head? = some (if negative then '-' else '+') := rfl
  rw [hhead]
  cases negative with
  | false =>
    simp only [Bool.false_eq_true, if_false, false_and]
    by_cases h0 : h * 100 + m = 0
    · have : h = 0 ∧ m = 0 := by omega
      obtain ⟨rfl, rfl⟩ := this
      rfl
    · have : ((h * 100 + m : Nat) : Int) ≠ 0 := by omega
      split
      · rename_i heq
        simp only [Option.some.injEq] at heq
        omega
      · simp only [Option.map_some]
        rw [if_neg (by omega)]
        congr 1
        omega
  | true =>
    simp only [if_true, true_and]
    by_cases h0 : h * 100 + m = 0
    · have : h = 0 ∧ m = 0 := by omega
      obtain ⟨rfl, rfl⟩ := this
      rfl
    · have : ((h * 100 + m : Nat) : Int) ≠ 0 := by omega
      have h1 : ¬ (h = 0 ∧ m = 0) := by omega
      rw [if_neg h1]
      split
      · rename_i heq
        simp only [Option.some.injEq] at heq
        omega
      · simp only [Option.map_some]
        rw [if_pos (by omega)]
        congr 1
        push_cast
        omega

/-! ## Theorems -/

/-- The instant of a date and time of the day in UTC. -/
def Spec.utcInstant (d : Date) (h m s : Nat) : Int :=
  dayNumber d * 86400000000 + ((h * 3600 + m * 60 + s) * 1000000 : Nat)

/-- **C76**: an `IMF-fixdate` of the years 100 to 9999, whatever its day of the week, is read as the instant it
denotes, in UTC. -/
theorem C76_read_http_date {py : Py} (hpy : py.Sane) (weekday month : Text) (d : Date) (h m s : Nat)
    (hw : weekday ∈ weekdays) (hd : IsDate d) (hm : months[d.month - 1]? = some month) (hy : 100 ≤ d.year)
    (hy' : d.year ≤ 9999) (hh : h ≤ 23) (hmi : m ≤ 59) (hs : s ≤ 59) :
    ∃ u, readHttpDate py (imfFixdate weekday month d.year d.day h m s) = .ok u ∧ UtcOf (utcInstant d h m s) u := by
  have hday : d.day < 100 := by
    have := hd.2.2.2.2
    have : monthLength d.year d.month ≤ 31 := by
      unfold monthLength; split
      · omega
      · split
        · split <;> omega
        · omega
    omega
  have hp := parsedate_text hpy weekday month (d.month - 1) d.year d.day h m s hw hm (by omega) hday (by omega) (by omega)
    (by omega)
  have hf : fullYear (d.year : Int) = d.year := by unfold fullYear; rw [if_neg (by omega)]
  have hmo := hd.2.1
  rw [hf, show d.month - 1 + 1 = d.month by omega] at hp
  have ht : toDatetime py (imfFixdate weekday month d.year d.day h m s) = .ok ⟨d, h, m, s, 0, some 0⟩ := by
    unfold toDatetime
    rw [hp]
    simp only
    rw [if_neg (by omega), if_pos (by decide)]
    exact make_ok d h m s 0 (some 0) hd hy' (by omega) (by omega) (by omega) (by omega)
  have hu : UtcOf (utcInstant d h m s) ⟨d, h, m, s, 0, some 0⟩ := by
    refine ⟨⟨hd, hy', by simp only; omega, by simp only; omega, by simp only; omega, by simp, ?_⟩, rfl, ?_⟩
    · intro o ho
      simp only [Option.some.injEq] at ho
      omega
    · simp [instant, utcInstant]
  refine ⟨_, ?_, hu⟩
  unfold readHttpDate
  rw [ht]
  exact ensureUtc_utc hu

/-- **C76**: a date with a numeric time zone less than a day from UTC is read as the instant it denotes, in UTC. -/
theorem C76_read_mail_date {py : Py} (hpy : py.Sane) (weekday month : Text) (d : Date) (h m s : Nat) (negative : Bool)
    (zh zm : Nat) (hw : weekday ∈ weekdays) (hd : IsDate d) (hm : months[d.month - 1]? = some month)
    (hy : 100 ≤ d.year) (hy' : d.year ≤ 9999) (hh : h ≤ 23) (hmi : m ≤ 59) (hs : s ≤ 59) (hzh : zh ≤ 23)
    (hzm : zm ≤ 59)
    (hr : Representable (utcInstant d h m s - (if negative then -1 else 1) * ((zh * 60 + zm : Nat) : Int) * 60000000)) :
    ∃ u, readHttpDate py (mailDate weekday month d.year d.day h m s (zoneOf negative zh zm)) = .ok u ∧
      UtcOf (utcInstant d h m s - (if negative then -1 else 1) * ((zh * 60 + zm : Nat) : Int) * 60000000) u := by
  have hday : d.day < 100 := by
    have := hd.2.2.2.2
    have : monthLength d.year d.month ≤ 31 := by
      unfold monthLength; split
      · omega
      · split
        · split <;> omega
        · omega
    omega
  have hzp : ∀ c ∈ zoneOf negative zh zm, py.isSpace c = false := by
    intro c hc
    unfold zoneOf at hc
    rcases List.mem_cons.1 hc with rfl | hc
    · cases negative
      · exact hpy.printable '+' (by decide) (by decide)
      · exact hpy.printable '-' (by decide) (by decide)
    · rw [fixed_hhmm zh zm (by omega)] at hc
      exact isSpace_fixed hpy _ _ c hc
  have hp := parsedate_mail hpy weekday month (zoneOf negative zh zm) (d.month - 1) d.year d.day h m s (by simp [zoneOf])
    hzp hw hm (by omega) hday (by omega) (by omega) (by omega)
  have hf : fullYear (d.year : Int) = d.year := by unfold fullYear; rw [if_neg (by omega)]
  have hmo := hd.2.1
  rw [hf, show d.month - 1 + 1 = d.month by omega, zoneSeconds_zone hpy negative zh zm (by omega) (by omega)] at hp
  -- what is made of it
  have fin : ∀ o : Option Int, (∀ x, o = some x → -86400000000 < x ∧ x < 86400000000) →
      toDatetime py (mailDate weekday month d.year d.day h m s (zoneOf negative zh zm)) = .ok ⟨d, h, m, s, 0, o⟩ →
      utcInstant d h m s - o.getD 0 =
        utcInstant d h m s - (if negative then -1 else 1) * ((zh * 60 + zm : Nat) : Int) * 60000000 →
      ∃ u, readHttpDate py (mailDate weekday month d.year d.day h m s (zoneOf negative zh zm)) = .ok u ∧
        UtcOf (utcInstant d h m s - (if negative then -1 else 1) * ((zh * 60 + zm : Nat) : Int) * 60000000) u := by
    intro o ho ht hi
    have hv : Valid ⟨d, h, m, s, 0, o⟩ :=
      ⟨hd, hy', by simp only; omega, by simp only; omega, by simp only; omega, by simp, ho⟩
    have hin : instant ⟨d, h, m, s, 0, o⟩ = utcInstant d h m s - o.getD 0 := by
      simp [instant, utcInstant]
    obtain ⟨u, hu1, hu2⟩ := (C75_ensure_utc hv).1 (by rw [hin, hi]; exact hr)
    refine ⟨u, ?_, by rw [hin, hi] at hu2; exact hu2⟩
    unfold readHttpDate
    rw [ht]
    exact hu1
  by_cases h0 : negative = true ∧ zh = 0 ∧ zm = 0
  · rw [if_pos h0] at hp
    refine fin none (by simp) ?_ ?_
    · unfold toDatetime
      rw [hp]
      simp only
      rw [if_neg (by omega)]
      exact make_ok d h m s 0 none hd hy' (by omega) (by omega) (by omega) (by omega)
    · obtain ⟨_, rfl, rfl⟩ := h0
      simp
  · rw [if_neg h0] at hp
    have hb : ∀ x : Int, x = (if negative then -1 else 1) * ((zh : Int) * 3600 + (zm : Int) * 60) →
        -86400 < x ∧ x < 86400 := by
      intro x hx
      cases negative <;> simp at hx <;> omega
    generalize hz : (if negative then -1 else 1) * ((zh : Int) * 3600 + (zm : Int) * 60) = z at hp
    obtain ⟨hz1, hz2⟩ := hb z hz.symm
    refine fin (some (z * 1000000)) (by intro x hx; simp only [Option.some.injEq] at hx; omega) ?_ ?_
    · unfold toDatetime
      rw [hp]
      simp only
      rw [if_neg (by omega), if_pos ?_]
      · exact make_ok d h m s 0 (some (z * 1000000)) hd hy' (by omega) (by omega) (by omega) (by omega)
      · unfold offsetOk
        simp only [Bool.and_eq_true, decide_eq_true_eq]
        omega
    · rw [← hz, Option.getD_some]
      cases negative <;> simp <;> omega

theorem dayName_eq (k : Nat) (h : k < 7) : weekdays[k]? = some (dayName k) := by
  have : k = 0 ∨ k = 1 ∨ k = 2 ∨ k = 3 ∨ k = 4 ∨ k = 5 ∨ k = 6 := by omega
  rcases this with rfl | rfl | rfl | rfl | rfl | rfl | rfl <;> rfl

theorem monthName_eq (m : Nat) (h1 : 1 ≤ m) (h2 : m ≤ 12) : months[m - 1]? = some (monthName m) := by
  have : m = 1 ∨ m = 2 ∨ m = 3 ∨ m = 4 ∨ m = 5 ∨ m = 6 ∨ m = 7 ∨ m = 8 ∨ m = 9 ∨ m = 10 ∨ m = 11 ∨ m = 12 := by omega
  rcases this with rfl | rfl | rfl | rfl | rfl | rfl | rfl | rfl | rfl | rfl | rfl | rfl <;> rfl

/-- **C76**: every `datetime` is written as the `IMF-fixdate` of its instant in UTC, cut to whole seconds, with the
right day of the week (the 1st of January 1970 was a Thursday). -/
theorem C76_write_http_date {dt : DateTime} (h : Valid dt) (hr : Representable (instant dt)) :
    ∃ (d : Date) (hh mi s micro : Nat) (weekday month : Text),
      writeHttpDate dt = .ok (imfFixdate weekday month d.year d.day hh mi s) ∧
      IsDate d ∧ d.year ≤ 9999 ∧ hh ≤ 23 ∧ mi ≤ 59 ∧ s ≤ 59 ∧ micro < 1000000 ∧
      months[d.month - 1]? = some month ∧ weekdays[((dayNumber d + 3) % 7).toNat]? = some weekday ∧
      utcInstant d hh mi s + micro = instant dt := by
  obtain ⟨u, hu, hv, ho, hi⟩ := (C75_ensure_utc h).1 hr
  obtain ⟨h1, h2, h3, h4, h5, h6, _⟩ := hv
  have hmo : u.date.month < 100 := by have := h1.2.2.1; omega
  have hda : u.date.day < 100 := by
    have := h1.2.2.2.2
    have : monthLength u.date.year u.date.month ≤ 31 := by
      unfold monthLength; split
      · omega
      · split
        · split <;> omega
        · omega
    omega
  refine ⟨u.date, u.hour, u.minute, u.second, u.micro, dayName ((toOrdinal u.date + 6) % 7), monthName u.date.month, ?_,
    h1, h2, by omega, by omega, by omega, h6, monthName_eq _ h1.2.1 h1.2.2.1, ?_, ?_⟩
  · unfold writeHttpDate
    rw [hu]
    simp only [Except.map]
    refine congrArg Except.ok ?_
    unfold formatHttpDate imfFixdate
    rw [pad_eq 2 u.date.day (by omega) (by omega), pad_eq 4 _ (by omega) (by omega), pad_eq 2 u.hour (by omega) (by omega),
      pad_eq 2 u.minute (by omega) (by omega), pad_eq 2 u.second (by omega) (by omega)]
    simp [List.append_assoc]
  · rw [dayNumber_eq h1, ← dayName_eq _ (by omega)]
    congr 1
    omega
  · rw [← hi]
    unfold utcInstant instant
    rw [ho]
    simp only [Option.getD_some]
    omega

/-- **C76**: reading what was written gives the instant back, cut to whole seconds, from the year 100 on. -/
theorem C76_http_date_round_trip {py : Py} (hpy : py.Sane) {dt : DateTime} (h : Valid dt)
    (hr : Representable (instant dt)) (hy : -59011459200000000 ≤ instant dt) :
    ∃ t u, writeHttpDate dt = .ok t ∧ readHttpDate py t = .ok u ∧
      UtcOf (instant dt / 1000000 * 1000000) u := by
  obtain ⟨d, hh, mi, s, micro, weekday, month, h1, h2, h3, h4, h5, h6, h7, h8, h9, h10⟩ := C76_write_http_date h hr
  have hy100 : 100 ≤ d.year := by
    by_contra hlt
    have a := (toOrdinal_year h2).2
    have b : daysBeforeYear (d.year + 1) ≤ daysBeforeYear 100 := daysBeforeYear_mono (by omega)
    have e : daysBeforeYear 100 = 36159 := by decide
    unfold utcInstant at h10
    rw [dayNumber_eq h2] at h10
    omega
  obtain ⟨u, hu, huv⟩ := C76_read_http_date hpy weekday month d hh mi s (List.mem_of_getElem? h9) h2 h8 hy100 h3 h4 h5 h6
  refine ⟨_, u, h1, hu, ?_⟩
  have : instant dt / 1000000 * 1000000 = utcInstant d hh mi s := by
    rw [← h10]
    unfold utcInstant
    omega
  rw [this]
  exact huv

/-! ## The hypotheses are met -/

/-- ASCII. -/
def asciiPy : Py where
  isSpace := HeaderText.blank
  isDigit := Scalars.Strict.ascii
  digit := Scalars.asciiDigit
  lower := List.map Char.toLower
  upper := List.map Char.toUpper
  limit := 4300

theorem asciiPy_sane : asciiPy.Sane where
  classes := Scalars.classes_ascii
  blank := by decide
  printable := by
    intro c h1 h2
    simp only [asciiPy, HeaderText.blank]
    simp only [Bool.or_eq_false_iff, decide_eq_false_iff_not]
    constructor <;> (rintro rfl; revert h1; decide)
  digits := by
    intro k h
    have : k = 0 ∨ k = 1 ∨ k = 2 ∨ k = 3 ∨ k = 4 ∨ k = 5 ∨ k = 6 ∨ k = 7 ∨ k = 8 ∨ k = 9 := by omega
    rcases this with rfl | rfl | rfl | rfl | rfl | rfl | rfl | rfl | rfl | rfl <;> decide
  lower := fun _ _ => rfl
  upper := fun _ _ => rfl
  limit := by decide

/-- **C76** is false of the code before the year 100: the year 50 is read back as 2050. -/
theorem C76_first_century_fails :
    writeHttpDate ⟨⟨50, 1, 1⟩, 0, 0, 0, 0, none⟩ = .ok "Sat, 01 Jan 0050 00:00:00 GMT".toList ∧
    readHttpDate asciiPy "Sat, 01 Jan 0050 00:00:00 GMT".toList = .ok ⟨⟨2050, 1, 1⟩, 0, 0, 0, 0, some 0⟩ := by
  constructor <;> decide +kernel

example : writeHttpDate leapNight = .ok "Thu, 29 Feb 2024 23:30:00 GMT".toList := by decide +kernel

example : mailDate "Thu".toList "Feb".toList 2024 29 23 30 0 (zoneOf true 1 30) =
    "Thu, 29 Feb 2024 23:30:00 -0130".toList ∧
    Representable (utcInstant ⟨2024, 2, 29⟩ 23 30 0 - -1 * ((1 * 60 + 30 : Nat) : Int) * 60000000) := by
  constructor <;> decide +kernel

example : readHttpDate asciiPy "Thu, 29 Feb 2024 23:30:00 GMT".toList =
    .ok ⟨⟨2024, 2, 29⟩, 23, 30, 0, 0, some 0⟩ := by decide +kernel

example : readHttpDate asciiPy "Thursday, 29-Feb-24 23:30:00 EST".toList =
    .ok ⟨⟨2024, 3, 1⟩, 4, 30, 0, 0, some 0⟩ := by decide +kernel

example : -59011459200000000 ≤ instant leapNight := by decide +kernel

end Verif.Timestamps
