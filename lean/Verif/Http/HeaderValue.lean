import Verif.Timestamps.HttpDate
import Verif.Timestamps.Epoch
import Verif.HeaderText.Props
import Verif.Scalars.Float
import Verif.Json.Base64
import Verif.Json.Decimal
import Verif.EventStream.Lemmas

/-!
# Values of headers (C78)

How scalars and lists of them are written to headers and read back: `HTTPHeaderSerializer`
(smithy_http/serializers.py:445-527), `HTTPHeaderDeserializer` and `HTTPHeaderListDeserializer`
(smithy_http/deserializers.py:156-235).
-/

set_option autoImplicit false

namespace Verif.Http.HeaderValue

open Verif.Scalars.Strict (Num JsonNumber ascii parseBool serializeBool parseFloat serializeFloat)
open Verif.HeaderText (splitHeader Trimmed)
open Verif.Numerals (natText intText)
open Verif.Json (Dec numberValue)
open Verif.Timestamps (DateTime)
open Verif.EventStream (rnd utf8Encode utf8Decode)

abbrev Text := List Char

/-! ## Model -/

/-- `TimestampFormat` (smithy_core/types.py:127-145). -/
inductive Format where
  | dateTime | httpDate | epochSeconds
deriving Repr, DecidableEq

/-- The shapes of scalars, with the traits that matter: `MediaTypeTrait` of strings and `TimestampFormatTrait` of
timestamps.  Integers of all sizes are treated alike (deserializers.py:175-188). -/
inductive Kind where
  | boolean
  | integer
  | float
  | decimal
  | string (mediaType : Bool)
  | timestamp (format : Option Format)
deriving Repr, DecidableEq

/-- The values.  Simplification: a finite float is the rational number it stands for, so that there is no negative
zero. -/
inductive Scalar where
  | boolean (b : Bool)
  | integer (n : Int)
  | float (x : Num Rat)
  | decimal (d : Num Dec)
  | string (t : Text)
  | timestamp (dt : DateTime)

/-- What Python and the platform do with text and numbers. -/
structure Env where
  py : Timestamps.Py
  /-- `\d` of regular expressions. -/
  isDigit : Char → Bool
  /-- `str.isnumeric` of a character. -/
  isNumeric : Char → Bool
  /-- Whether `%Y` is padded. -/
  padYear : Bool
  /-- The seconds supported by `gmtime`. -/
  supported : Int → Bool
  /-- `str` of a finite float. -/
  str : Rat → Text
  /-- `float` of a text; `none` is `ValueError`. -/
  float : Text → Option (Num Rat)
  /-- `Decimal` of a text; `none` is `InvalidOperation`. -/
  decimal : Text → Option (Num Dec)

/-- The errors: `ValueError` and its subclasses, `OverflowError`, `ExpectationNotMetError`, `InvalidOperation`, and
the error for a write or read that does not fit the shape. -/
inductive Err where
  | value | overflow | expectation | invalidOperation | shape
deriving Repr, DecidableEq

/-- Errors of timestamps. -/
def ofTimestamp : Timestamps.Err → Err
  | .value => .value
  | .overflow => .overflow
  | .expectation => .expectation

def liftTs {α : Type} : Except Timestamps.Err α → Except Err α
  | .ok a => .ok a
  | .error e => .error (ofTimestamp e)

/-- An `Option` where `none` is an error. -/
def orElse {α : Type} (e : Err) : Option α → Except Err α
  | some a => .ok a
  | none => .error e

/-- `str(n)`, with Python's limit on the number of digits. -/
def intStr (env : Env) (n : Int) : Except Err Text :=
  if env.py.limit < (natText n.natAbs).length then .error .value else .ok (intText n)

/-- `b64encode(value.encode("utf-8")).decode("utf-8")` (serializers.py:518). -/
def encodeMedia (t : Text) : Text := Base64.encode ((utf8Encode (String.ofList t)).map UInt8.toFin)

/-- `b64decode(value).decode("utf-8")` (deserializers.py:201).  A text with characters outside ASCII is refused
(base64.py:34-39). -/
def decodeMedia (t : Text) : Except Err Text :=
  if t.all fun c => decide (c.toNat < 128) then
    match Base64.decode t with
    | none => .error .value
    | some bs =>
      match utf8Decode (bs.map UInt8.ofFin) with
      | none => .error .value
      | some s => .ok s.toList
  else .error .value

/-- The format of a timestamp in a header (serializers.py:523-525, deserializers.py:205-207). -/
def formatOf : Option Format → Format
  | none => .httpDate
  | some f => f

/-- `str(format.serialize(value))` (serializers.py:526). -/
def writeTimestamp (env : Env) (f : Format) (dt : DateTime) : Except Err Text :=
  match f with
  | .dateTime => liftTs (Timestamps.writeDateTime env.padYear dt)
  | .httpDate => liftTs (Timestamps.writeHttpDate dt)
  | .epochSeconds =>
    match Timestamps.writeEpoch dt with
    | .error e => .error (ofTimestamp e)
    | .ok (.int n) => .ok (intText n)
    | .ok (.float q) => .ok (env.str q)

/-- `HTTPHeaderSerializer` (serializers.py:479-526): the text of a scalar. -/
def write (env : Env) : Kind → Scalar → Except Err Text
  | .boolean, .boolean b => .ok (serializeBool b)
  | .integer, .integer n => intStr env n
  | .float, .float x => .ok (serializeFloat env.isNumeric env.str x)
  | .decimal, .decimal d => .ok (serializeFloat env.isNumeric (fun d : Dec => d.normalize.str) d)
  | .string media, .string t => .ok (if media then encodeMedia t else t)
  | .timestamp f, .timestamp dt => writeTimestamp env (formatOf f) dt
  | _, _ => .error .shape

/-- A float as the timestamps take it. -/
def toNumber : Num Rat → Timestamps.Number
  | .nan => .nan
  | .inf _ => .infinite
  | .finite q => .float q

/-- `format.deserialize(value)` (deserializers.py:208). -/
def readTimestamp (env : Env) (f : Format) (t : Text) : Except Timestamps.Err DateTime :=
  match f with
  | .dateTime => Timestamps.readDateTime t
  | .httpDate => Timestamps.readHttpDate env.py t
  | .epochSeconds => Timestamps.readEpoch env.supported (fun t => (env.float t).map toNumber) (.text t)

/-- `HTTPHeaderDeserializer` (deserializers.py:156-208): a scalar read from a text.  `canonical()` (198) does nothing. -/
def read (env : Env) : Kind → Text → Except Err Scalar
  | .boolean, t => (orElse .expectation (parseBool t)).map .boolean
  | .integer, t => (orElse .value (env.py.int t)).map .integer
  | .float, t =>
    match parseFloat env.isDigit env.float t with
    | none => .error .expectation
    | some none => .error .value
    | some (some x) => .ok (.float x)
  | .decimal, t => (orElse .invalidOperation (env.decimal t)).map .decimal
  | .string media, t => if media then (decodeMedia t).map .string else .ok (.string t)
  | .timestamp f, t =>
    liftTs ((readTimestamp env (formatOf f) t >>= Timestamps.ensureUtc).map .timestamp)

/-- A list written to a header: one entry for each value (serializers.py:468-472). -/
def writeList (env : Env) (k : Kind) (xs : List Scalar) : Except Err (List Text) := xs.mapM (write env k)

/-- The values of a header that is read as a list (deserializers.py:221-235): a single value is split. -/
def listValues (env : Env) (k : Kind) (values : List Text) : Except HeaderText.Err (List Text) :=
  match values with
  | [v] =>
    splitHeader env.py.isSpace (match k with | .timestamp f => decide (formatOf f = .httpDate) | _ => false) v
  | _ => .ok values

/-! ## Specification -/

/-- What is used about Python: characters of ASCII are what they are; a JSON number is read by `float` as the nearest
double and by `Decimal` exactly; the three names are read as they should. -/
structure Env.Sane (env : Env) (nearest : Rat → Num Rat) : Prop where
  py : env.py.Sane
  digit : ∀ c, ascii c = true → env.isDigit c = true
  numeric : env.isNumeric '-' = false ∧ env.isNumeric '.' = false ∧ env.isNumeric 'e' = false ∧
    env.isNumeric 'E' = false
  float : ∀ n : JsonNumber, n.Ok ascii → env.float n.text = some (nearest (numberValue n))
  nan : env.float "NaN".toList = some .nan
  inf : env.float "Infinity".toList = some (.inf false)
  ninf : env.float "-Infinity".toList = some (.inf true)
  decimal : ∀ n : JsonNumber, n.Ok ascii → ∃ d, env.decimal n.text = some (.finite d) ∧ d.value = numberValue n
  decNan : env.decimal "NaN".toList = some .nan
  decInf : env.decimal "Infinity".toList = some (.inf false)
  decNinf : env.decimal "-Infinity".toList = some (.inf true)
  /-- Numbers of normal size are rounded to 53 bits. -/
  nearest : ∀ n : Int, |n| ≤ 9007199254740992 → nearest n = .finite n

/-- `str` of the float `q` is a JSON number, and `q` the nearest double to it. -/
def Shown (env : Env) (nearest : Rat → Num Rat) (q : Rat) : Prop :=
  ∃ n : JsonNumber, n.Ok ascii ∧ n.text = env.str q ∧ nearest (numberValue n) = .finite q

/-! ## Lemmas -/

theorem ok_mono {n : JsonNumber} {f g : Char → Bool} (h : n.Ok f) (hfg : ∀ c, f c = true → g c = true) : n.Ok g := by
  refine ⟨?_, fun t ht => ⟨(h.frac t ht).1, fun c hc => hfg c ((h.frac t ht).2 c hc)⟩,
    fun e s ds he => ⟨(h.exp e s ds he).1, (h.exp e s ds he).2.1, (h.exp e s ds he).2.2.1,
      fun c hc => hfg c ((h.exp e s ds he).2.2.2 c hc)⟩⟩
  rcases h.int with h1 | ⟨c, ds, h1, h2, h3⟩
  · exact .inl h1
  · exact .inr ⟨c, ds, h1, h2, fun d hd => hfg d (h3 d hd)⟩

/-- What `serialize_float` makes of a JSON number is a JSON number for the same value. -/
theorem with_fraction {isNumeric : Char → Bool} (hnum : isNumeric '-' = false ∧ isNumeric '.' = false ∧
    isNumeric 'e' = false ∧ isNumeric 'E' = false) {α : Type} (str : α → Text) (x : α) {n : JsonNumber} (hn : n.Ok ascii)
    (ht : n.text = str x) :
    ∃ n' : JsonNumber, n'.Ok ascii ∧ n'.text = serializeFloat isNumeric str (.finite x) ∧
      numberValue n' = numberValue n := by
  simp only [serializeFloat]
  by_cases h : str x ≠ [] ∧ (str x).all isNumeric = true
  · rw [if_pos h]
    have hall : ∀ c ∈ str x, isNumeric c = true := by simpa using h.2
    have hfr : n.frac = none := by
      cases hf : n.frac with
      | none => rfl
      | some f =>
        have := hall '.' (by rw [← ht]; simp [JsonNumber.text, hf])
        rw [hnum.2.1] at this; cases this
    have hex : n.exp = none := by
      cases he : n.exp with
      | none => rfl
      | some y =>
        obtain ⟨e, s, ds⟩ := y
        have h1 := (hn.exp e s ds he).1
        have h2 := hall e (by rw [← ht]; simp [JsonNumber.text, he])
        rcases h1 with rfl | rfl
        · rw [hnum.2.2.1] at h2; cases h2
        · rw [hnum.2.2.2] at h2; cases h2
    refine ⟨⟨n.neg, n.int, some ['0'], none⟩, ⟨hn.int, ?_, by simp⟩, ?_, ?_⟩
    · rintro f ⟨⟩
      exact ⟨by simp, by simp [ascii]⟩
    · have : str x = (if n.neg then ['-'] else []) ++ n.int := by
        rw [← ht]; simp [JsonNumber.text, hfr, hex]
      rw [this]
      simp only [JsonNumber.text, List.append_nil]
      rfl
    · simp only [numberValue, hfr, hex]
      simp [Numerals.natValue]
  · rw [if_neg h]
    exact ⟨n, hn, ht, rfl⟩

/-- The numeral of an integer is a JSON number for it. -/
theorem intText_number (n : Int) : ∃ j : JsonNumber, j.Ok ascii ∧ j.text = intText n ∧ numberValue j = n := by
  refine ⟨⟨decide (n < 0), natText n.natAbs, none, none⟩, ⟨Numerals.natText_head _, by simp, by simp⟩, ?_, ?_⟩
  · unfold intText JsonNumber.text
    by_cases h : n < 0 <;> simp [h]
  · unfold numberValue
    simp only [Json.expValue, Numerals.natValue_natText, zpow_zero, mul_one, add_zero]
    by_cases h : n < 0
    · simp only [h, decide_true, if_true]
      have : (n : ℚ) = -(n.natAbs : ℚ) := by
        have h1 : n = -(n.natAbs : ℤ) := by omega
        calc (n : ℚ) = ((-(n.natAbs : ℤ) : ℤ) : ℚ) := congrArg _ h1
          _ = -(n.natAbs : ℚ) := by rw [Int.cast_neg, Int.cast_natCast]
      rw [this]
      ring
    · simp only [h, decide_false, Bool.false_eq_true, if_false, one_mul]
      have h1 : (n.natAbs : ℤ) = n := by omega
      calc (n.natAbs : ℚ) = ((n.natAbs : ℤ) : ℚ) := (Int.cast_natCast _).symm
        _ = (n : ℚ) := congrArg _ h1

theorem digit_ascii {py : Timestamps.Py} (hpy : py.Sane) (c : Char) (h : ascii c = true) :
    py.digit c = some (c.toNat - '0'.toNat) := by
  simp only [ascii, Bool.and_eq_true, decide_eq_true_eq] at h
  have h0 : '0'.toNat = 48 := rfl
  have h9 : '9'.toNat = 57 := rfl
  rw [h0, h9] at h
  have hc : c = Timestamps.Spec.digitChar (c.toNat - 48) := by
    have hd : ∀ k, k < 10 → (Timestamps.Spec.digitChar k).toNat = k + 48 := by decide
    have := hd (c.toNat - 48) (by omega)
    exact Char.toNat_inj.1 (by rw [this]; omega)
  have := (hpy.digits (c.toNat - 48) (by omega)).1
  rw [← hc] at this
  rw [this, h0]

theorem decimal_ascii {py : Timestamps.Py} (hpy : py.Sane) (t : Text) (h : ∀ c ∈ t, ascii c = true) :
    Scalars.decimal py.digit t = Numerals.natValue t := by
  unfold Scalars.decimal Numerals.natValue
  suffices H : ∀ a, List.foldl (fun acc c => 10 * acc + (py.digit c).getD 0) a t =
      List.foldl (fun a c => 10 * a + (c.toNat - '0'.toNat)) a t from H 0
  induction t with
  | nil => intro a; rfl
  | cons c t ih =>
    intro a
    simp only [List.foldl_cons]
    rw [ih (fun d hd => h d (List.mem_cons_of_mem _ hd)), digit_ascii hpy c (h c List.mem_cons_self)]
    rfl

theorem int_intText {py : Timestamps.Py} (hpy : py.Sane) (n : Int) (h : (natText n.natAbs).length ≤ py.limit) :
    py.int (intText n) = some n := by
  unfold Timestamps.Py.int
  rw [Scalars.pyInt_iff hpy.classes]
  have hg : Scalars.DigitGroups py.digit [natText n.natAbs] := by
    refine ⟨by simp, ?_⟩
    intro g hg
    simp only [List.mem_singleton] at hg
    subst hg
    refine ⟨Numerals.natText_ne_nil _, fun c hc => ?_⟩
    rw [digit_ascii hpy c (Numerals.natText_ascii _ c hc)]
    rfl
  have hd := decimal_ascii hpy (natText n.natAbs) (Numerals.natText_ascii _)
  rw [Numerals.natValue_natText] at hd
  unfold intText
  by_cases hn : n < 0
  · refine ⟨[], ['-'], [], [natText n.natAbs], by simp, by simp, .inr (.inr rfl), hg, by simpa using h, ?_, ?_⟩
    · rw [if_pos hn]; simp [Text.join]
    · simp only [if_true, List.flatten_cons, List.flatten_nil, List.append_nil, hd]
      omega
  · refine ⟨[], [], [], [natText n.natAbs], by simp, by simp, .inl rfl, hg, by simpa using h, ?_, ?_⟩
    · rw [if_neg hn]; simp [Text.join]
    · rw [if_neg (by simp)]
      simp only [List.flatten_cons, List.flatten_nil, List.append_nil, hd]
      omega

theorem media_ascii (bs : List Base64.Byte) : ∀ c ∈ Base64.encode bs, 33 ≤ c.toNat ∧ c.toNat ≤ 126 ∧ c ≠ ',' ∧ c ≠ '"' := by
  have hc : ∀ n < 64, 33 ≤ (Base64.charOf n).toNat ∧ (Base64.charOf n).toNat ≤ 126 ∧ Base64.charOf n ≠ ',' ∧
      Base64.charOf n ≠ '"' := by decide +kernel
  have he : 33 ≤ '='.toNat ∧ '='.toNat ≤ 126 ∧ '=' ≠ ',' ∧ '=' ≠ '"' := by decide
  fun_induction Base64.encode bs with
  | case1 => simp
  | case2 a =>
    intro c h
    simp only [List.mem_cons, List.not_mem_nil, or_false] at h
    rcases h with rfl | rfl | rfl | rfl
    · exact hc _ (by omega)
    · exact hc _ (by omega)
    · exact he
    · exact he
  | case3 a b =>
    intro c h
    simp only [List.mem_cons, List.not_mem_nil, or_false] at h
    rcases h with rfl | rfl | rfl | rfl
    · exact hc _ (by omega)
    · exact hc _ (by omega)
    · exact hc _ (by omega)
    · exact he
  | case4 a b c r ih =>
    intro x h
    simp only [List.mem_cons] at h
    rcases h with rfl | rfl | rfl | rfl | h
    · exact hc _ (by omega)
    · exact hc _ (by omega)
    · exact hc _ (by omega)
    · exact hc _ (by omega)
    · exact ih x h

theorem decodeMedia_encodeMedia (t : Text) : decodeMedia (encodeMedia t) = .ok t := by
  unfold decodeMedia encodeMedia
  rw [if_pos, Base64.decode_encode]
  · simp only [List.map_map]
    have : (UInt8.ofFin ∘ UInt8.toFin) = id := by funext x; rfl
    rw [this, List.map_id, EventStream.utf8Decode_encode]
    simp
  · rw [List.all_eq_true]
    intro c hc
    have := media_ascii _ c hc
    exact decide_eq_true (by omega)

theorem epochMicros_int (n : Int) : Timestamps.epochMicros (.float (n : Rat)) = .ok (n * 1000000) := by
  simp only [Timestamps.epochMicros, EventStream.truncRat_int, sub_self, zero_mul, EventStream.rnd_zero]
  have : EventStream.roundHalfEven 0 = 0 := by decide +kernel
  rw [this, add_zero]

theorem read_json {env : Env} {nearest : Rat → Num Rat} (h : env.Sane nearest) {n : JsonNumber} (hn : n.Ok ascii) :
    parseFloat env.isDigit env.float n.text = some (some (nearest (numberValue n))) :=
  (Scalars.Strict.C55_float _ _ _ _).2 ⟨(h.float n hn).symm, .inl ⟨n, ok_mono hn h.digit, rfl⟩⟩

theorem read_timestamp {env : Env} {f : Option Format} {t : Text} {i : Int} {u : DateTime}
    (h : readTimestamp env (formatOf f) t = .ok u) (hu : Timestamps.Spec.UtcOf i u) :
    read env (.timestamp f) t = .ok (.timestamp u) := by
  simp only [read]
  rw [h]
  simp only [bind, Except.bind, Timestamps.ensureUtc_utc hu]
  rfl

open Timestamps.Spec

/-! ## Theorems -/

/-- **C78**, booleans: what is written is read back, and nothing else is read as a boolean. -/
theorem C78_boolean (env : Env) (t : Text) (b : Bool) :
    write env .boolean (.boolean b) = .ok (if b then "true".toList else "false".toList) ∧
    (read env .boolean t = .ok (.boolean b) ↔ t = if b then "true".toList else "false".toList) := by
  have hs : serializeBool b = if b then "true".toList else "false".toList := rfl
  refine ⟨congrArg Except.ok hs, ?_⟩
  rw [← hs, ← Scalars.Strict.C55_bool]
  simp only [read]
  cases parseBool t with
  | none => simp [orElse, Except.map]
  | some c => simp [orElse, Except.map]

/-- **C78**, integers: an integer with no more digits than Python converts is written as its numeral and read back. -/
theorem C78_integer (env : Env) (h : env.py.Sane) (n : Int) (hn : (natText n.natAbs).length ≤ env.py.limit) :
    write env .integer (.integer n) = .ok (intText n) ∧ read env .integer (intText n) = .ok (.integer n) := by
  constructor
  · simp only [write, intStr]
    rw [if_neg (by omega)]
  · simp only [read, int_intText h n hn, orElse, Except.map]

/-- **C78**, floats: a finite float whose `str` is a numeral that it is the nearest double to is read back, and so
are NaN and the infinities. -/
theorem C78_float (env : Env) (nearest : Rat → Num Rat) (h : env.Sane nearest) (x : Num Rat)
    (hx : ∀ q, x = .finite q → Shown env nearest q) :
    ∃ t, write env .float (.float x) = .ok t ∧ read env .float t = .ok (.float x) := by
  have other : ∀ (s : Text) (y : Num Rat), env.float s = some y →
      (s = "NaN".toList ∨ s = "Infinity".toList ∨ s = "-Infinity".toList) → read env .float s = .ok (.float y) := by
    intro s y hs hc
    simp only [read]
    rw [(Scalars.Strict.C55_float env.isDigit env.float s (some y)).2 ⟨hs.symm, .inr hc⟩]
  cases x with
  | nan => exact ⟨_, rfl, other _ _ h.nan (.inl rfl)⟩
  | inf s =>
    cases s with
    | false => exact ⟨_, rfl, other _ _ h.inf (.inr (.inl rfl))⟩
    | true => exact ⟨_, rfl, other _ _ h.ninf (.inr (.inr rfl))⟩
  | finite q =>
    obtain ⟨n, hn, ht, hv⟩ := hx q rfl
    obtain ⟨n', hn', ht', hv'⟩ := with_fraction h.numeric env.str q hn ht
    refine ⟨_, rfl, ?_⟩
    rw [← ht']
    simp only [read, read_json h hn', hv', hv]

/-- **C78**, decimals: a decimal of at most 28 digits is read back as one of the same value, and NaN and the infinities
as themselves. -/
theorem C78_decimal (env : Env) (nearest : Rat → Num Rat) (h : env.Sane nearest) :
    (∀ d : Dec, d.digits ≤ 28 → ∃ t d', write env .decimal (.decimal (.finite d)) = .ok t ∧
      read env .decimal t = .ok (.decimal (.finite d')) ∧ d'.value = d.value) ∧
    (∀ x : Num Dec, (∀ d, x ≠ .finite d) →
      ∃ t, write env .decimal (.decimal x) = .ok t ∧ read env .decimal t = .ok (.decimal x)) := by
  constructor
  · intro d hd
    obtain ⟨n, hn, ht, hv⟩ := Json.str_number d.normalize
    obtain ⟨n', hn', ht', hv'⟩ := with_fraction h.numeric (fun d : Dec => d.normalize.str) d hn ht.symm
    obtain ⟨d', h1, h2⟩ := h.decimal n' hn'
    refine ⟨_, d', rfl, ?_, ?_⟩
    · rw [← ht']
      simp only [read, h1, orElse, Except.map]
    · rw [h2, hv', hv, Json.normalize_value d hd]
  · intro x hx
    cases x with
    | nan => exact ⟨_, rfl, by simp only [read, h.decNan, serializeFloat, orElse, Except.map]⟩
    | inf s =>
      cases s with
      | false => exact ⟨_, rfl, by
        simp only [read, serializeFloat, Bool.false_eq_true, if_false, h.decInf, orElse, Except.map]⟩
      | true => exact ⟨_, rfl, by
        simp only [read, serializeFloat, if_true, h.decNinf, orElse, Except.map]⟩
    | finite d => exact absurd rfl (hx d)

/-- **C78**, strings: every string is read back.  One with a media type is written in characters that any header can
hold, the others as they are. -/
theorem C78_string (env : Env) (s : Text) :
    (write env (.string false) (.string s) = .ok s ∧ read env (.string false) s = .ok (.string s)) ∧
    ∃ t, write env (.string true) (.string s) = .ok t ∧ read env (.string true) t = .ok (.string s) ∧
      ∀ c ∈ t, 33 ≤ c.toNat ∧ c.toNat ≤ 126 ∧ c ≠ ',' ∧ c ≠ '"' := by
  refine ⟨⟨rfl, rfl⟩, encodeMedia s, rfl, ?_, media_ascii _⟩
  simp only [read, decodeMedia_encodeMedia, if_true, Except.map]

/-- **C78**, timestamps: an instant is read back in UTC; exactly as an RFC 3339 text, to the second as an HTTP date,
which is the format where there is no trait, and exactly as seconds since 1970: any whole number of seconds, and
within about 272 years of 1970 any number of microseconds. -/
theorem C78_timestamp (env : Env) (nearest : Rat → Num Rat) (h : env.Sane nearest) (dt : DateTime)
    (hv : Valid dt) (hr : Representable (instant dt)) :
    (env.padYear = true ∨ -30610224000000000 ≤ instant dt →
      ∃ t u, write env (.timestamp (some .dateTime)) (.timestamp dt) = .ok t ∧
        read env (.timestamp (some .dateTime)) t = .ok (.timestamp u) ∧ UtcOf (instant dt) u) ∧
    (-59011459200000000 ≤ instant dt → ∀ f, f = none ∨ f = some .httpDate →
      ∃ t u, write env (.timestamp f) (.timestamp dt) = .ok t ∧
        read env (.timestamp f) t = .ok (.timestamp u) ∧ UtcOf (instant dt / 1000000 * 1000000) u) ∧
    (instant dt % 1000000 = 0 →
      ∃ u, write env (.timestamp (some .epochSeconds)) (.timestamp dt) = .ok (intText (instant dt / 1000000)) ∧
        read env (.timestamp (some .epochSeconds)) (intText (instant dt / 1000000)) = .ok (.timestamp u) ∧
        UtcOf (instant dt) u) ∧
    (instant dt % 1000000 ≠ 0 → |instant dt| < 8589934592000000 →
      Shown env nearest (rnd ((instant dt : Rat) / 1000000)) →
      ∃ t u, write env (.timestamp (some .epochSeconds)) (.timestamp dt) = .ok t ∧
        read env (.timestamp (some .epochSeconds)) t = .ok (.timestamp u) ∧ UtcOf (instant dt) u) := by
  refine ⟨fun hy => ?_, fun hy f hf => ?_, fun hm => ?_, fun hm hlt hs => ?_⟩
  · obtain ⟨t, u, h1, h2, h3⟩ := Timestamps.C75_rfc3339_round_trip env.padYear hv hr hy
    refine ⟨t, u, ?_, read_timestamp h2 h3, h3⟩
    simp only [write, formatOf, writeTimestamp, h1, liftTs]
  · obtain ⟨t, u, h1, h2, h3⟩ := Timestamps.C76_http_date_round_trip h.py hv hr hy
    have hfo : formatOf f = .httpDate := by rcases hf with rfl | rfl <;> rfl
    refine ⟨t, u, ?_, read_timestamp (by rw [hfo]; exact h2) h3, h3⟩
    simp only [write, hfo, writeTimestamp, h1, liftTs]
  · have hw := (Timestamps.C77_write hv hr).1 hm
    obtain ⟨n, hn, ht, hval⟩ := intText_number (instant dt / 1000000)
    have hfl : env.float (intText (instant dt / 1000000)) = some (.finite (instant dt / 1000000 : Int)) := by
      rw [← ht, h.float n hn, hval, h.nearest]
      obtain ⟨h1, h2⟩ := hr
      rw [abs_le]
      omega
    have e : instant dt / 1000000 * 1000000 = instant dt := by omega
    have hmic := epochMicros_int (instant dt / 1000000)
    rw [e] at hmic
    obtain ⟨u, hu, huu⟩ := Timestamps.epochToDatetime_ok (supported := env.supported) hmic hr
    refine ⟨u, ?_, read_timestamp ?_ huu, huu⟩
    · simp only [write, formatOf, writeTimestamp, hw]
    · simp only [formatOf, readTimestamp, Timestamps.readEpoch, hfl, Option.map_some, toNumber]
      exact hu
  · have hw := (Timestamps.C77_write hv hr).2 hm
    obtain ⟨n, hn, ht, hval⟩ := hs
    have hfl : env.float (env.str (rnd ((instant dt : Rat) / 1000000))) =
        some (.finite (rnd ((instant dt : Rat) / 1000000))) := by
      rw [← ht, h.float n hn, hval]
    obtain ⟨u, hu, huu⟩ := (Timestamps.C77_read_float env.supported (fun t => (env.float t).map toNumber)
      (.text (env.str (rnd ((instant dt : Rat) / 1000000)))) (instant dt)
      (.inr ⟨_, rfl, by simp only [hfl, Option.map_some, toNumber]⟩)).1 hlt
    refine ⟨_, u, ?_, read_timestamp hu huu, huu⟩
    simp only [write, formatOf, writeTimestamp, hw]

/-- **C78**, lists: where at least two values are sent, one for each element of a list, they are taken as they are. -/
theorem C78_list_of_many (env : Env) (k : Kind) (xs : List Scalar) (ts : List Text) (h : writeList env k xs = .ok ts)
    (hlen : 2 ≤ xs.length) :
    listValues env k ts = .ok ts ∧ ts.length = xs.length ∧
      ∀ (i : Nat) x t, xs[i]? = some x → ts[i]? = some t → write env k x = .ok t := by
  unfold writeList at h
  have key : ∀ (xs : List Scalar) (ts : List Text), xs.mapM (write env k) = .ok ts → ts.length = xs.length ∧
      ∀ (i : Nat) x t, xs[i]? = some x → ts[i]? = some t → write env k x = .ok t := by
    intro xs
    induction xs with
    | nil =>
      intro ts h
      simp only [List.mapM_nil, pure, Except.pure, Except.ok.injEq] at h
      subst h
      simp
    | cons x xs ih =>
      intro ts h
      rw [List.mapM_cons] at h
      cases hx : write env k x with
      | error e => rw [hx] at h; simp [bind, Except.bind] at h
      | ok t =>
        rw [hx] at h
        cases hr : xs.mapM (write env k) with
        | error e => rw [hr] at h; simp [bind, Except.bind] at h
        | ok ts' =>
          rw [hr] at h
          simp only [bind, Except.bind, pure, Except.pure, Except.ok.injEq] at h
          subst h
          obtain ⟨h1, h2⟩ := ih ts' hr
          refine ⟨by simp [h1], fun i y s hy hs => ?_⟩
          cases i with
          | zero =>
            simp only [List.getElem?_cons_zero, Option.some.injEq] at hy hs
            subst hy; subst hs; exact hx
          | succ i =>
            simp only [List.getElem?_cons_succ] at hy hs
            exact h2 i y s hy hs
  obtain ⟨h1, h2⟩ := key xs ts h
  refine ⟨?_, h1, h2⟩
  unfold listValues
  match ts, h1 with
  | [], h1 => rfl
  | [_], h1 => simp at h1; omega
  | _ :: _ :: _, _ => rfl

/-- **C78**, lists: a value sent alone is taken as it is if it is not empty, has no blank at either end, does not
start with a quote and has no comma; an HTTP date has one comma, and is taken as it is. -/
theorem C78_list_of_one (env : Env) (h : env.py.Sane) (k : Kind) (t : Text)
    (ht : Trimmed env.py.isSpace t) (hq : t.head? ≠ some '"')
    (hc : t.count ',' = if k = .timestamp none ∨ k = .timestamp (some .httpDate) then 1 else 0) :
    listValues env k [t] = .ok [t] := by
  unfold listValues
  have hcomma : env.py.isSpace ',' = false := (h.printable ',' (by decide) (by decide))
  have hquote : env.py.isSpace '"' = false := (h.printable '"' (by decide) (by decide))
  have key : ∀ d : Bool, t.count ',' = (if d then 1 else 0) → splitHeader env.py.isSpace d t = .ok [t] := by
    intro d hd
    have := HeaderText.item_end hcomma hquote d ⟨[], .bare t, []⟩ ⟨by simp, by simp, ht, hq, hd⟩
    simpa [HeaderText.Item.text, HeaderText.Body.text, HeaderText.Item.value] using this
  cases k with
  | timestamp f =>
    apply key
    rw [hc]
    rcases f with _ | (_ | _ | _) <;> simp [formatOf]
  | boolean => exact key false (by simpa using hc)
  | integer => exact key false (by simpa using hc)
  | float => exact key false (by simpa using hc)
  | decimal => exact key false (by simpa using hc)
  | string m => exact key false (by simpa using hc)

/-! ### Written values are not split -/

/-- Characters that are neither blank, comma nor quote. -/
def Plain (t : Text) : Prop := t ≠ [] ∧ ∀ c ∈ t, 33 ≤ c.toNat ∧ c.toNat ≤ 126 ∧ c ≠ ',' ∧ c ≠ '"'

theorem ascii_plain {c : Char} (h : ascii c = true) : 33 ≤ c.toNat ∧ c.toNat ≤ 126 ∧ c ≠ ',' ∧ c ≠ '"' := by
  simp only [ascii, Bool.and_eq_true, decide_eq_true_eq] at h
  have h0 : '0'.toNat = 48 := rfl
  have h9 : '9'.toNat = 57 := rfl
  rw [h0, h9] at h
  refine ⟨by omega, by omega, ?_, ?_⟩ <;> (rintro rfl; revert h; decide)

theorem number_plain {n : JsonNumber} (h : n.Ok ascii) : Plain n.text := by
  constructor
  · have : n.int ≠ [] := by rcases h.int with h | ⟨c, ds, h, _⟩ <;> simp [h]
    simp [JsonNumber.text, this]
  · intro c hc
    rcases Scalars.Strict.not_digit_of_text ascii n h c hc with rfl | rfl | h1 | h1 | rfl | rfl | rfl | rfl
    · decide
    · decide
    · rw [Scalars.Strict.oneToNine_iff] at h1
      simp only [List.mem_cons, List.not_mem_nil, or_false] at h1
      rcases h1 with rfl | rfl | rfl | rfl | rfl | rfl | rfl | rfl | rfl <;> decide
    · exact ascii_plain h1
    · decide
    · decide
    · decide
    · decide

theorem plain_one {env : Env} (h : env.py.Sane) {k : Kind} {t : Text} (ht : Plain t) (hk : k ≠ .timestamp none)
    (hk' : k ≠ .timestamp (some .httpDate)) : listValues env k [t] = .ok [t] := by
  have hsp : ∀ c ∈ t, env.py.isSpace c = false := fun c hc => h.printable c (ht.2 c hc).1 (ht.2 c hc).2.1
  apply C78_list_of_one env h
  · exact ⟨ht.1, fun c hc => hsp c (List.mem_of_mem_head? hc), fun c hc => hsp c (List.mem_of_mem_getLast? hc)⟩
  · intro hq
    exact (ht.2 _ (List.mem_of_mem_head? hq)).2.2.2 rfl
  · rw [if_neg (by simp [hk, hk']), List.count_eq_zero]
    intro hc
    exact (ht.2 _ hc).2.2.1 rfl

theorem float_plain {α : Type} {isNumeric : Char → Bool} (hnum : isNumeric '-' = false ∧ isNumeric '.' = false ∧
    isNumeric 'e' = false ∧ isNumeric 'E' = false) (str : α → Text) (x : Num α)
    (hx : ∀ a, x = .finite a → ∃ n : JsonNumber, n.Ok ascii ∧ n.text = str a) :
    Plain (serializeFloat isNumeric str x) := by
  cases x with
  | nan => unfold Plain; simp only [serializeFloat]; decide
  | inf s => unfold Plain; cases s <;> simp only [serializeFloat] <;> decide
  | finite a =>
    obtain ⟨n, hn, ht⟩ := hx a rfl
    obtain ⟨n', hn', ht', _⟩ := with_fraction hnum str a hn ht
    rw [← ht']
    exact number_plain hn'

theorem fixed_plain (w n : Nat) : ∀ c ∈ Timestamps.Spec.fixed w n, 33 ≤ c.toNat ∧ c.toNat ≤ 126 ∧ c ≠ ',' ∧ c ≠ '"' :=
  fun c hc => ascii_plain (Timestamps.fixed_ascii w n c hc)

theorem rfc3339_plain {r : Timestamps.Spec.Rfc3339} (h : r.Ok) (hs : r.separator = 'T') (hz : r.zone = none) :
    Plain r.text := by
  obtain ⟨_, _, _, _, _, _, h7, _⟩ := h
  have h7' : ∀ c ∈ r.fraction, 33 ≤ c.toNat ∧ c.toNat ≤ 126 ∧ c ≠ ',' ∧ c ≠ '"' := by
    intro c hc
    have := h7 c hc
    simp only [List.mem_cons, List.not_mem_nil, or_false] at this
    rcases this with rfl | rfl | rfl | rfl | rfl | rfl | rfl | rfl | rfl | rfl <;> decide
  have hfr : ∀ c ∈ fractionText r.fraction, 33 ≤ c.toNat ∧ c.toNat ≤ 126 ∧ c ≠ ',' ∧ c ≠ '"' := by
    intro c hc
    unfold fractionText at hc
    split at hc
    · simp at hc
    · rcases List.mem_cons.1 hc with rfl | hc
      · decide
      · exact h7' c hc
  refine ⟨by simp [Timestamps.Spec.Rfc3339.text], fun c hc => ?_⟩
  simp only [Timestamps.Spec.Rfc3339.text, clockText, zoneText, hs, hz, List.mem_append, List.mem_cons,
    List.not_mem_nil, or_false] at hc
  rcases hc with hc | rfl | hc | rfl | hc | rfl | (hc | rfl | hc | rfl | hc | hc) | rfl
  all_goals first
    | exact fixed_plain _ _ c hc
    | exact hfr c hc
    | decide

theorem imf_one {env : Env} (h : env.py.Sane) {k : Kind} (hk : k = .timestamp none ∨ k = .timestamp (some .httpDate))
    {weekday month : Text} (hw : weekday ∈ weekdays) (hm : month ∈ months) (y d hh mi s : Nat) :
    listValues env k [imfFixdate weekday month y d hh mi s] = .ok [imfFixdate weekday month y d hh mi s] := by
  have hfix : ∀ w n, (Timestamps.Spec.fixed w n).count ',' = 0 := fun w n =>
    List.count_eq_zero.2 (Timestamps.fixed_not_mem w n ',' (by decide))
  have hwd : ∀ w ∈ weekdays, w.count ',' = 0 ∧ ∃ c r, w = c :: r ∧ 33 ≤ c.toNat ∧ c.toNat ≤ 126 ∧ c ≠ '"' := by
    intro w hw
    simp only [weekdays, List.mem_cons, List.not_mem_nil, or_false] at hw
    rcases hw with rfl | rfl | rfl | rfl | rfl | rfl | rfl <;>
      exact ⟨by decide, _, _, rfl, by decide, by decide, by decide⟩
  have hmo : ∀ m ∈ months, m.count ',' = 0 := by decide
  obtain ⟨hw1, c, r, hw2, hw3, hw4, hw5⟩ := hwd weekday hw
  apply C78_list_of_one env h
  · refine ⟨by simp [imfFixdate], ?_, ?_⟩
    · intro x hx
      simp only [imfFixdate, hw2, List.cons_append, List.head?_cons, Option.mem_def, Option.some.injEq] at hx
      subst hx
      exact h.printable _ hw3 hw4
    · intro x hx
      simp only [imfFixdate] at hx
      rw [List.getLast?_append_of_ne_nil _ (by simp)] at hx
      simp at hx
      subst hx
      exact h.printable _ (by decide) (by decide)
  · simp only [imfFixdate, hw2, List.cons_append, List.head?_cons]
    intro hx
    exact hw5 (Option.some.inj hx)
  · rw [if_pos hk]
    simp only [imfFixdate, List.count_append, hfix, hw1, hmo month hm]
    decide

/-- **C78**, lists: a scalar that is written by itself is read as a list of one, except for strings that are not
encoded and for the empty string. -/
theorem C78_list_of_one_written (env : Env) (nearest : Rat → Num Rat) (h : env.Sane nearest) (k : Kind) (x : Scalar)
    (t : Text) (hw : write env k x = .ok t) (hk : k ≠ .string false) (hs : x ≠ .string [])
    (hf : ∀ q, x = .float (.finite q) → Shown env nearest q)
    (hts : ∀ dt, x = .timestamp dt → Valid dt ∧ Representable (instant dt) ∧
      (env.padYear = true ∨ -30610224000000000 ≤ instant dt) ∧
      Shown env nearest (rnd ((instant dt : Rat) / 1000000))) :
    listValues env k [t] = .ok [t] := by
  cases k with
  | boolean =>
    cases x <;> simp only [write, reduceCtorEq, Except.ok.injEq] at hw
    rename_i b
    subst hw
    refine plain_one h.py ?_ (by simp) (by simp)
    unfold Plain
    cases b <;> decide
  | integer =>
    cases x <;> simp only [write, reduceCtorEq] at hw
    rename_i n
    unfold intStr at hw
    split at hw
    · cases hw
    · obtain ⟨j, hj, hjt, _⟩ := intText_number n
      rw [← hjt] at hw
      cases hw
      exact plain_one h.py (number_plain hj) (by simp) (by simp)
  | float =>
    cases x <;> simp only [write, reduceCtorEq, Except.ok.injEq] at hw
    rename_i y
    subst hw
    refine plain_one h.py (float_plain h.numeric _ _ fun a ha => ?_) (by simp) (by simp)
    obtain ⟨n, h1, h2, _⟩ := hf a (by rw [ha])
    exact ⟨n, h1, h2⟩
  | decimal =>
    cases x <;> simp only [write, reduceCtorEq, Except.ok.injEq] at hw
    subst hw
    refine plain_one h.py (float_plain h.numeric _ _ fun a ha => ?_) (by simp) (by simp)
    obtain ⟨n, h1, h2, _⟩ := Json.str_number a.normalize
    exact ⟨n, h1, h2.symm⟩
  | string media =>
    cases media with
    | false => exact absurd rfl hk
    | true =>
      cases x <;> simp only [write, reduceCtorEq, Except.ok.injEq, if_true] at hw
      rename_i s
      subst hw
      refine plain_one h.py ⟨?_, media_ascii _⟩ (by simp) (by simp)
      intro he
      have := decodeMedia_encodeMedia s
      rw [he] at this
      have he : decodeMedia [] = .ok [] := by decide +kernel
      rw [he] at this
      exact hs (by rw [Except.ok.inj this])
  | timestamp f =>
    cases x <;> simp only [write, reduceCtorEq] at hw
    rename_i dt
    obtain ⟨hv, hr, hy, hsh⟩ := hts dt rfl
    have date : formatOf f = .httpDate → listValues env (.timestamp f) [t] = .ok [t] := by
      intro hfo
      obtain ⟨d, hh, mi, s, micro, weekday, month, h1, h2, h3, h4, h5, h6, h7, h8, h9, h10⟩ :=
        Timestamps.C76_write_http_date hv hr
      rw [hfo] at hw
      simp only [writeTimestamp, h1, liftTs, Except.ok.injEq] at hw
      subst hw
      refine imf_one h.py ?_ (List.mem_of_getElem? h9) (List.mem_of_getElem? h8) _ _ _ _ _
      rcases f with _ | (_ | _ | _)
      · exact .inl rfl
      · cases hfo
      · exact .inr rfl
      · cases hfo
    rcases f with _ | (_ | _ | _)
    · exact date rfl
    · obtain ⟨r, h1, h2, h3, h4, _⟩ := Timestamps.C75_write_rfc3339 env.padYear hv hr hy
      simp only [formatOf, writeTimestamp, h1, liftTs, Except.ok.injEq] at hw
      subst hw
      exact plain_one h.py (rfc3339_plain h2 h3 h4) (by simp) (by simp)
    · exact date rfl
    · refine plain_one h.py ?_ (by simp) (by simp)
      by_cases hm : instant dt % 1000000 = 0
      · simp only [formatOf, writeTimestamp, (Timestamps.C77_write hv hr).1 hm, Except.ok.injEq] at hw
        obtain ⟨j, hj, hjt, _⟩ := intText_number (instant dt / 1000000)
        rw [← hw, ← hjt]
        exact number_plain hj
      · simp only [formatOf, writeTimestamp, (Timestamps.C77_write hv hr).2 hm, Except.ok.injEq] at hw
        obtain ⟨j, hj, hjt, _⟩ := hsh
        rw [← hw, ← hjt]
        exact number_plain hj

/-! ### An implementation of `float` and `Decimal` -/

/-- The exponent of a JSON number. -/
def parseExp : Text → Option (Char × Option Char × Text)
  | [] => none
  | e :: '+' :: ds => some (e, some '+', ds)
  | e :: '-' :: ds => some (e, some '-', ds)
  | e :: ds => some (e, none, ds)

/-- Fraction and exponent. -/
def parseRest (t : Text) : Option Text × Option (Char × Option Char × Text) :=
  if t.head? = some '.' then (some (t.tail.takeWhile ascii), parseExp (t.tail.dropWhile ascii)) else (none, parseExp t)

/-- The parts of a JSON number. -/
def parseNumber (t : Text) : JsonNumber :=
  let neg := decide (t.head? = some '-')
  let r := if neg then t.tail else t
  let rest := parseRest (r.dropWhile ascii)
  ⟨neg, r.takeWhile ascii, rest.1, rest.2⟩

def expText : Option (Char × Option Char × Text) → Text
  | none => []
  | some (e, sign, ds) => e :: (sign.toList ++ ds)

def fracText : Option Text → Text
  | none => []
  | some f => '.' :: f

theorem takeWhile_digits (a b : Text) (ha : ∀ c ∈ a, ascii c = true) (hb : ∀ c ∈ b.head?, ascii c = false) :
    (a ++ b).takeWhile ascii = a ∧ (a ++ b).dropWhile ascii = b := by
  induction a with
  | nil =>
    cases b with
    | nil => simp
    | cons c b => simp [hb c (by simp)]
  | cons c a ih =>
    have hc := ha c (by simp)
    obtain ⟨h1, h2⟩ := ih (fun d hd => ha d (by simp [hd]))
    simp [hc, h1, h2]

theorem parseExp_text (e : Option (Char × Option Char × Text))
    (he : ∀ c s ds, e = some (c, s, ds) → (c = 'e' ∨ c = 'E') ∧ (∀ x, s = some x → x = '+' ∨ x = '-') ∧
      Scalars.Strict.Digits ascii ds) :
    parseExp (expText e) = e ∧ ∀ c ∈ (expText e).head?, ascii c = false ∧ c ≠ '.' := by
  cases e with
  | none => exact ⟨rfl, by simp [expText]⟩
  | some y =>
    obtain ⟨c, s, ds⟩ := y
    obtain ⟨h1, h2, h3, h4⟩ := he c s ds rfl
    constructor
    · cases s with
      | none =>
        simp only [expText, Option.toList_none, List.nil_append]
        cases ds with
        | nil => rfl
        | cons d ds =>
          have hd := h4 d (by simp)
          unfold parseExp
          split
          · rename_i h; cases h
          · rename_i h; cases h; exact absurd hd (by decide)
          · rename_i h; cases h; exact absurd hd (by decide)
          · rename_i h; cases h; rfl
      | some x =>
        rcases h2 x rfl with rfl | rfl <;> rfl
    · intro d hd
      simp only [expText, List.head?_cons, Option.mem_def, Option.some.injEq] at hd
      subst hd
      rcases h1 with rfl | rfl <;> decide

theorem parseNumber_text (n : JsonNumber) (hn : n.Ok ascii) : parseNumber n.text = n := by
  obtain ⟨neg, int, frac, exp⟩ := n
  obtain ⟨hint, hfrac, hexp⟩ := hn
  simp only at hint hfrac hexp
  have hi : int ≠ [] ∧ ∀ c ∈ int, ascii c = true := by
    rcases hint with rfl | ⟨c, ds, rfl, h1, h2⟩
    · exact ⟨by simp, by decide⟩
    · refine ⟨by simp, fun d hd => ?_⟩
      rcases List.mem_cons.1 hd with rfl | hd
      · have : ∀ c ∈ ['1', '2', '3', '4', '5', '6', '7', '8', '9'], ascii c = true := by decide
        exact this _ h1
      · exact h2 d hd
  have hhead : int.head? ≠ some '-' := by
    intro h
    have := hi.2 '-' (List.mem_of_mem_head? h)
    revert this
    decide
  obtain ⟨hE1, hE2⟩ := parseExp_text exp hexp
  have htext : JsonNumber.text ⟨neg, int, frac, exp⟩ = (if neg then ['-'] else []) ++
      (int ++ (fracText frac ++ expText exp)) := by
    simp only [JsonNumber.text, List.append_assoc]
    cases frac <;> cases exp <;> rfl
  have hrest : parseRest (fracText frac ++ expText exp) = (frac, exp) ∧
      ∀ c ∈ (fracText frac ++ expText exp).head?, ascii c = false := by
    cases frac with
    | none =>
      have hd : ¬ (expText exp).head? = some '.' := fun h => (hE2 '.' h).2 rfl
      simp only [fracText, List.nil_append, parseRest, if_neg hd, hE1]
      exact ⟨trivial, fun c hc => (hE2 c hc).1⟩
    | some f =>
      obtain ⟨_, hf⟩ := hfrac f rfl
      obtain ⟨t1, t2⟩ := takeWhile_digits f (expText exp) hf (fun c hc => (hE2 c hc).1)
      constructor
      · simp only [fracText, parseRest, List.cons_append, List.head?_cons, List.tail_cons, if_true, t1, t2, hE1]
      · intro c hc
        simp only [fracText, List.cons_append, List.head?_cons, Option.mem_def, Option.some.injEq] at hc
        subst hc
        decide
  obtain ⟨t1, t2⟩ := takeWhile_digits int _ hi.2 hrest.2
  rw [htext]
  unfold parseNumber
  cases neg with
  | true => simp [t1, t2, hrest.1]
  | false =>
    have : ¬ (int ++ (fracText frac ++ expText exp)).head? = some '-' := by
      cases int with
      | nil => exact absurd rfl hi.1
      | cons c r => simpa using hhead
    simp only [Bool.false_eq_true, if_false, List.nil_append, this, decide_false, t1, t2, hrest.1]

/-- The `Decimal` of a JSON number. -/
def decOf (n : JsonNumber) : Dec :=
  ⟨n.neg, Numerals.natValue (n.int ++ n.frac.getD []), Json.expValue n.exp - (n.frac.getD []).length⟩

theorem decOf_value (n : JsonNumber) : (decOf n).value = numberValue n := by
  obtain ⟨neg, int, frac, exp⟩ := n
  unfold decOf Dec.value numberValue
  simp only [Json.natValue_append]
  have h10 : (10 : ℚ) ≠ 0 := by norm_num
  cases frac with
  | none => simp [Numerals.natValue]
  | some f =>
    simp only [Option.getD_some]
    rw [zpow_sub₀ h10, zpow_natCast]
    push_cast
    field_simp

/-- `float` and `Decimal` for JSON numbers and the three names. -/
def readNum {α : Type} (f : JsonNumber → α) (t : Text) : Option (Num α) :=
  if t = "NaN".toList then some .nan
  else if t = "Infinity".toList then some (.inf false)
  else if t = "-Infinity".toList then some (.inf true)
  else if (parseNumber t).text = t then some (.finite (f (parseNumber t)))
  else none

theorem readNum_number {α : Type} (f : JsonNumber → α) (n : JsonNumber) (hn : n.Ok ascii) :
    readNum f n.text = some (.finite (f n)) := by
  have hc : ∀ t : Text, (∃ c ∈ t, c = 'N' ∨ c = 'y') → n.text ≠ t := by
    rintro t ⟨c, hc, h⟩ rfl
    rcases Scalars.Strict.not_digit_of_text ascii n hn c hc with rfl | rfl | h1 | h1 | rfl | rfl | rfl | rfl <;>
      rcases h with h | h <;> first | (exact absurd h (by decide)) | (subst h; revert h1; decide)
  unfold readNum
  rw [if_neg (hc _ ⟨'N', by decide, .inl rfl⟩), if_neg (hc _ ⟨'y', by decide, .inr rfl⟩),
    if_neg (hc _ ⟨'y', by decide, .inr rfl⟩), parseNumber_text n hn, if_pos rfl]

/-- An environment: ASCII only, numbers as JSON, and the exact decimal expansion of a binary fraction as `str`. -/
def exampleEnv : Env where
  py := Timestamps.asciiPy
  isDigit := ascii
  isNumeric := ascii
  padYear := true
  supported := fun _ => true
  str := fun q =>
    (Dec.mk (decide (q < 0)) (q.num.natAbs * 5 ^ Nat.log2 q.den) (-(Nat.log2 q.den : Int))).str
  float := readNum fun n => rnd (numberValue n)
  decimal := readNum decOf

theorem exampleEnv_sane : exampleEnv.Sane fun q => .finite (rnd q) where
  py := Timestamps.asciiPy_sane
  digit := fun _ h => h
  numeric := by decide
  float := fun n hn => readNum_number (fun n => rnd (numberValue n)) n hn
  nan := rfl
  inf := rfl
  ninf := rfl
  decimal := fun n hn => ⟨decOf n, readNum_number _ n hn, decOf_value n⟩
  decNan := rfl
  decInf := rfl
  decNinf := rfl
  nearest := by
    intro n hn
    rw [EventStream.rnd_float (EventStream.isFloat_int (by simpa using hn))]

/-- Floats are shown by `exampleEnv` as `C78_float` needs it: 3/2, for example, as `1.5`. -/
theorem exampleEnv_shown {q : Rat} (h : rnd q = q) (hd : (2 : Nat) ^ Nat.log2 q.den = q.den) :
    Shown exampleEnv (fun q => .finite (rnd q)) q := by
  obtain ⟨n, h1, h2, h3⟩ := Json.str_number
    (Dec.mk (decide (q < 0)) (q.num.natAbs * 5 ^ Nat.log2 q.den) (-(Nat.log2 q.den : Int)))
  refine ⟨n, h1, h2.symm, ?_⟩
  rw [h3]
  have : (Dec.mk (decide (q < 0)) (q.num.natAbs * 5 ^ Nat.log2 q.den) (-(Nat.log2 q.den : Int))).value = q := by
    unfold Dec.value
    simp only
    have hden : (q.den : ℚ) = 2 ^ Nat.log2 q.den := by rw [← Nat.cast_ofNat, ← Nat.cast_pow, hd]
    have hq : q = q.num / 2 ^ Nat.log2 q.den := by
      conv_lhs => rw [← Rat.num_div_den q]
      rw [hden]
    have hsign : ((if decide (q < 0) = true then -1 else 1 : ℚ)) * (q.num.natAbs : ℚ) = q.num := by
      by_cases hlt : q < 0
      · have hn : q.num < 0 := Rat.num_neg.2 hlt
        have h1 : q.num = -(q.num.natAbs : ℤ) := by omega
        simp only [hlt, decide_true, if_true]
        calc (-1 : ℚ) * (q.num.natAbs : ℚ) = ((-(q.num.natAbs : ℤ) : ℤ) : ℚ) := by
              rw [Int.cast_neg, Int.cast_natCast]; ring
          _ = q.num := congrArg _ h1.symm
      · have hn : 0 ≤ q.num := Rat.num_nonneg.2 (not_lt.1 hlt)
        have h1 : (q.num.natAbs : ℤ) = q.num := by omega
        simp only [hlt, decide_false, Bool.false_eq_true, if_false, one_mul]
        calc (q.num.natAbs : ℚ) = ((q.num.natAbs : ℤ) : ℚ) := (Int.cast_natCast _).symm
          _ = q.num := congrArg _ h1
    conv_rhs => rw [hq]
    rw [← hsign]
    push_cast
    rw [zpow_neg, zpow_natCast, show (10 : ℚ) = 2 * 5 by norm_num, mul_pow]
    field_simp
  rw [this]
  exact congrArg Num.finite h

/-- **C78** is false of the code for lists of strings: a single string with a comma is read as two, and one string
that is empty as none. -/
theorem C78_list_of_one_fails :
    writeList exampleEnv (.string false) [.string "a,b".toList] = .ok ["a,b".toList] ∧
    listValues exampleEnv (.string false) ["a,b".toList] = .ok ["a".toList, "b".toList] ∧
    writeList exampleEnv (.string true) [.string []] = .ok [[]] ∧
    listValues exampleEnv (.string true) [[]] = .ok [] := by
  refine ⟨?_, ?_, ?_, ?_⟩
  · rfl
  · decide +kernel
  · have : encodeMedia [] = [] := by decide +kernel
    simp [writeList, write, this, pure, Except.pure, bind, Except.bind]
  · decide +kernel

/-! ## The hypotheses are met -/

example : Shown exampleEnv (fun q => .finite (rnd q)) (3 / 2) := exampleEnv_shown (by decide +kernel) (by decide +kernel)

example : exampleEnv.str (3 / 2) = "1.5".toList ∧ exampleEnv.str (-1 / 4) = "-0.25".toList ∧
    (exampleEnv.decimal "-1.50".toList).isSome := by
  refine ⟨?_, ?_, ?_⟩ <;> decide +kernel

example : (natText (-12345 : Int).natAbs).length ≤ exampleEnv.py.limit := by decide +kernel

/-- 2024-02-29T23:59:01.5Z: whole seconds, fractions, all in the ranges. -/
def exampleTime : DateTime := ⟨⟨2024, 2, 29⟩, 23, 59, 1, 500000, some 0⟩

example : Representable (instant exampleTime) ∧ -30610224000000000 ≤ instant exampleTime ∧
    instant exampleTime % 1000000 ≠ 0 ∧ |instant exampleTime| < 8589934592000000 := by
  refine ⟨?_, ?_, ?_, ?_⟩ <;> decide +kernel

example : Shown exampleEnv (fun q => .finite (rnd q)) (rnd ((instant exampleTime : Rat) / 1000000)) := by
  apply exampleEnv_shown
  · exact EventStream.rnd_float (EventStream.rnd_isFloat _)
  · decide +kernel

example : writeList exampleEnv .integer [.integer 1, .integer (-2)] = .ok [['1'], ['-', '2']] := by
  rfl

end Verif.Http.HeaderValue
