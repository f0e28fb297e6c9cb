import Verif.RestJson.Request

/-!
# The input of an operation: texts in URIs (C130)
-/

set_option autoImplicit false

namespace Verif.RestJson

open Verif.GeneratedSerde (Py Ref Model Shape Simple Typed Same)
open Verif.Timestamps (DateTime)
open Verif.Timestamps.Spec
open Verif.Http.HeaderValue
open Verif.Http.RestJson (utf8)
open Verif.Numerals (natText intText)
open Verif.Scalars.Strict (Num JsonNumber ascii)
open Verif.Uri (ch asc unreserved)
open Verif.Uri.Pattern (LabelValue)

variable {w : World} {nearest : Rat → Num Rat}

/-- Texts of ASCII characters are their codes. -/
theorem utf8_ascii : ∀ t : Text, (∀ c ∈ t, c.toNat < 128) → utf8 t = t.map ch := by
  intro t
  unfold utf8 EventStream.utf8Encode
  rw [show (String.ofList t).toUTF8 = t.utf8Encode from String.toByteArray_ofList]
  induction t with
  | nil => intro _; rfl
  | cons c t ih =>
    intro h
    rw [List.utf8Encode_cons, List.utf8Encode_singleton]
    have hc := h c List.mem_cons_self
    have : String.utf8EncodeChar c = [ch c] := by
      unfold String.utf8EncodeChar
      have : c.val.toNat ≤ 127 := by have : c.toNat = c.val.toNat := rfl; omega
      simp only [this, if_true, ch]
      rfl
    rw [this]
    have ih := ih fun d hd => h d (List.mem_cons_of_mem _ hd)
    rw [ByteArray.data_append, Array.toList_append, ih]
    rfl

/-- Characters of numbers. -/
def Numeric (c : Char) : Prop := c.toNat < 128 ∧ (unreserved (ch c) = true ∨ ch c = ch '+')

theorem symbol_numeric : ∀ c ∈ "-0123456789.eE+".toList, Numeric c := by
  unfold Numeric
  decide +kernel

theorem nine_numeric {c : Char} (h : Scalars.Strict.oneToNine c = true) : Numeric c := by
  rw [Scalars.Strict.oneToNine_iff] at h
  have : ∀ d ∈ ['1', '2', '3', '4', '5', '6', '7', '8', '9'], d ∈ "-0123456789.eE+".toList := by decide +kernel
  exact symbol_numeric c (this c h)

theorem digit_numeric {c : Char} (h : ascii c = true) : Numeric c := by
  by_cases h0 : c = '0'
  · subst h0; exact symbol_numeric _ (by decide)
  · refine nine_numeric ?_
    simp only [ascii, Bool.and_eq_true, decide_eq_true_eq] at h
    simp only [Scalars.Strict.oneToNine, Bool.and_eq_true, decide_eq_true_eq]
    have h1 : '0'.toNat = 48 := rfl
    have h2 : '1'.toNat = 49 := rfl
    have h3 : c.toNat ≠ 48 := fun he => h0 (Char.toNat_inj.1 he)
    omega

theorem number_numeric {n : JsonNumber} (h : n.Ok ascii) : ∀ c ∈ n.text, Numeric c := by
  intro c hc
  rcases Scalars.Strict.not_digit_of_text ascii n h c hc with rfl | rfl | h1 | h1 | rfl | rfl | rfl | rfl
  · exact symbol_numeric _ (by decide)
  · exact symbol_numeric _ (by decide)
  · exact nine_numeric h1
  · exact digit_numeric h1
  · exact symbol_numeric _ (by decide)
  · exact symbol_numeric _ (by decide)
  · exact symbol_numeric _ (by decide)
  · exact symbol_numeric _ (by decide)

theorem float_numeric {α : Type} {isNumeric : Char → Bool} (hnum : isNumeric '-' = false ∧ isNumeric '.' = false ∧
    isNumeric 'e' = false ∧ isNumeric 'E' = false) (str : α → Text) (x : Num α)
    (hx : ∀ a, x = .finite a → ∃ n : JsonNumber, n.Ok ascii ∧ n.text = str a) :
    ∀ c ∈ Scalars.Strict.serializeFloat isNumeric str x, Numeric c := by
  cases x with
  | nan => unfold Numeric; simp only [Scalars.Strict.serializeFloat]; decide +kernel
  | inf s => unfold Numeric; cases s <;> simp only [Scalars.Strict.serializeFloat] <;> decide +kernel
  | finite a =>
    obtain ⟨n, hn, ht⟩ := hx a rfl
    obtain ⟨n', hn', ht', _⟩ := with_fraction hnum str a hn ht
    rw [← ht']
    exact number_numeric hn'

/-- No slash, and only ASCII. -/
def Slashless (c : Char) : Prop := c.toNat < 128 ∧ c ≠ '/'

theorem numeric_slashless {c : Char} (h : Numeric c) : Slashless c := by
  refine ⟨h.1, ?_⟩
  rintro rfl
  have := h.2
  revert this
  decide

theorem fixed_slashless (k n : Nat) : ∀ c ∈ fixed k n, Slashless c :=
  fun c hc => numeric_slashless (digit_numeric (Timestamps.fixed_ascii k n c hc))

theorem rfc3339_slashless {r : Rfc3339} (h : r.Ok) (hs : r.separator = 'T') (hz : r.zone = none) : ∀ c ∈ r.text, Slashless c := by
  obtain ⟨_, _, _, _, _, _, h7, _⟩ := h
  have h7' : ∀ c ∈ r.fraction, Slashless c := by
    intro c hc
    have := h7 c hc
    simp only [List.mem_cons, List.not_mem_nil, or_false] at this
    unfold Slashless
    rcases this with rfl | rfl | rfl | rfl | rfl | rfl | rfl | rfl | rfl | rfl <;> decide
  have hfr : ∀ c ∈ fractionText r.fraction, Slashless c := by
    intro c hc
    unfold fractionText at hc
    split at hc
    · simp at hc
    · rcases List.mem_cons.1 hc with rfl | hc
      · unfold Slashless; decide
      · exact h7' c hc
  intro c hc
  simp only [Rfc3339.text, clockText, zoneText, hs, hz, List.mem_append, List.mem_cons, List.not_mem_nil, or_false] at hc
  rcases hc with hc | rfl | hc | rfl | hc | rfl | (hc | rfl | hc | rfl | hc | hc) | rfl
  all_goals first
    | exact fixed_slashless _ _ c hc
    | exact hfr c hc
    | (unfold Slashless; decide)

theorem imf_slashless {weekday month : Text} (hw : weekday ∈ weekdays) (hm : month ∈ months) (y d hh mi s : Nat) :
    ∀ c ∈ imfFixdate weekday month y d hh mi s, Slashless c := by
  have h1 : ∀ t ∈ weekdays, ∀ c ∈ t, Slashless c := by unfold Slashless; decide +kernel
  have h2 : ∀ t ∈ months, ∀ c ∈ t, Slashless c := by unfold Slashless; decide +kernel
  intro c hc
  simp only [imfFixdate, List.mem_append, List.mem_cons, List.not_mem_nil, or_false, or_assoc] at hc
  rcases hc with hc | rfl | rfl | hc | rfl | hc | rfl | hc | rfl | hc | rfl | hc | rfl | hc | rfl | rfl | rfl | rfl
  all_goals first
    | exact fixed_slashless _ _ c hc
    | exact h1 _ hw c hc
    | exact h2 _ hm c hc
    | (unfold Slashless; decide)

/-- Timestamps have no slashes. -/
theorem time_slashless {f : Json.Format} {dt : DateTime} (ho : TimeOk w (some f) dt) {t : Text}
    (ht : write w.hdr (.timestamp (some (format f))) (.timestamp dt) = .ok t) : ∀ c ∈ t, Slashless c := by
  obtain ⟨hv, hz, hc⟩ := ho
  have hr := Timestamps.utcOf_representable (⟨hv, hz, rfl⟩ : UtcOf (instant dt) dt)
  cases f with
  | dateTime =>
    obtain ⟨r, h1, h2, h3, h4, _⟩ := Timestamps.C75_write_rfc3339 w.hdr.padYear hv hr hc
    simp only [write, format, formatOf, writeTimestamp, h1, liftTs, Except.ok.injEq] at ht
    subst ht
    exact rfc3339_slashless h2 h3 h4
  | httpDate =>
    obtain ⟨d, hh, mi, s, micro, weekday, month, h1, h2, h3, h4, h5, h6, h7, h8, h9, h10⟩ := Timestamps.C76_write_http_date hv hr
    simp only [write, format, formatOf, writeTimestamp, h1, liftTs, Except.ok.injEq] at ht
    subst ht
    exact imf_slashless (List.mem_of_getElem? h9) (List.mem_of_getElem? h8) _ _ _ _ _
  | epochSeconds =>
    simp only [write, format, formatOf, writeTimestamp, (Timestamps.C77_write hv hr).1 hc, Except.ok.injEq] at ht
    obtain ⟨j, hj, hjt, _⟩ := intText_number (instant dt / 1000000)
    rw [← ht, ← hjt]
    exact fun c hc => numeric_slashless (number_numeric hj c hc)

theorem slashless_bytes {t : Text} (h : ∀ c ∈ t, Slashless c) : ch '/' ∉ utf8 t := by
  rw [utf8_ascii t fun c hc => (h c hc).1]
  intro hm
  obtain ⟨c, hc, he⟩ := List.mem_map.1 hm
  refine (h c hc).2 (Char.toNat_inj.1 ?_)
  have h1 := congrArg UInt8.toNat he
  have h2 := (h c hc).1
  simp only [ch, UInt8.toNat_ofNat'] at h1
  have : '/'.toNat = 47 := rfl
  omega

theorem numeric_bytes {t : Text} (h : ∀ c ∈ t, Numeric c) : ∀ b ∈ utf8 t, unreserved b = true ∨ b = ch '+' := by
  rw [utf8_ascii t fun c hc => (h c hc).1]
  intro b hb
  obtain ⟨c, hc, rfl⟩ := List.mem_map.1 hb
  exact (h c hc).2

/-- What is put into a URI is written, and an equal value is read from it; as a label it is its text. -/
theorem url_restores (h : w.hdr.Sane nearest) {id : Nat} {s : Ref} {v : P} (hv : UrlOk w nearest id s v) :
    ∃ t v' l, w.urlText id s v = .ok t ∧ w.urlRead id s t = .ok v' ∧ Same v v' ∧ w.labelValue id s v = .ok l ∧ l.Proper ∧
      l.plain = utf8 t := by
  have key : ∀ {k x t x' l}, w.urlKind id s = some k → scalarOf v = some x → write w.hdr k x = .ok t → read w.hdr k t = .ok x' →
      Same v (w.wrap id x') → w.labelValue id s v = .ok l → l.Proper → l.plain = utf8 t → _ := fun {k x t x' l} h1 h2 h3 h4 h5 h6 h7 h8 =>
    show ∃ t v' l, w.urlText id s v = .ok t ∧ w.urlRead id s t = .ok v' ∧ Same v v' ∧ w.labelValue id s v = .ok l ∧ l.Proper ∧
      l.plain = utf8 t from
    ⟨t, _, l, by simp only [World.urlText, h1, h2, h3], by simp only [World.urlRead, h1, h4], h5, h6, h7, h8⟩
  cases hv with
  | @time f dt ht hs hok =>
    obtain ⟨t, h1, h2⟩ := time_restores h hok
    simp only [Option.map_some] at h1 h2
    have hk : w.urlKind id s = some (.timestamp (some (format (((w.model.ownFormat s).or f).getD .dateTime)))) := by
      simp only [World.urlKind, World.kind, hs, format_eq ht hs]
      cases ((w.model.ownFormat s).or f) <;> rfl
    refine key (l := .timestamp (utf8 t)) hk rfl h1 h2 (.refl _) ?_ (slashless_bytes (time_slashless hok h1)) rfl
    simp only [World.labelValue, World.urlText, hk, scalarOf, h1]
  | plain hnt hv =>
    obtain ⟨k, x, t, x', h1, h2, h3, h4, h5⟩ := header_restores h hv
    cases k with
    | boolean =>
      have hk : w.urlKind id s = some .boolean := by simp only [World.urlKind, h1]
      cases x <;> simp only [write, reduceCtorEq] at h3
      rename_i b
      have : v = .bool b := by cases v <;> simp_all [scalarOf]
      subst this
      refine key (l := .boolean b) hk h2 (by simp only [write]; exact h3) h4 h5 ?_ trivial ?_
      · simp only [World.labelValue, World.urlText, hk, h2, write, h3]
      · cases h3; cases b <;> decide +kernel
    | integer =>
      have hk : w.urlKind id s = some .integer := by simp only [World.urlKind, h1]
      cases x <;> simp only [write, reduceCtorEq] at h3
      rename_i n
      refine key (l := .number (utf8 t)) hk h2 (by simp only [write]; exact h3) h4 h5 ?_ ?_ rfl
      · simp only [World.labelValue, World.urlText, hk, h2, write, h3]
        cases v <;> simp_all [scalarOf]
      · unfold intStr at h3
        split at h3
        · cases h3
        · obtain ⟨j, hj, hjt, _⟩ := intText_number n
          rw [← hjt] at h3
          cases h3
          exact numeric_bytes (number_numeric hj)
    | float =>
      have hk : w.urlKind id s = some .float := by simp only [World.urlKind, h1]
      cases x <;> simp only [write, reduceCtorEq] at h3
      rename_i y
      refine key (l := .number (utf8 t)) hk h2 (by simp only [write]; exact h3) h4 h5 ?_ ?_ rfl
      · simp only [World.labelValue, World.urlText, hk, h2, write, h3]
        cases v <;> simp_all [scalarOf]
      · cases h3
        refine numeric_bytes (float_numeric h.numeric _ _ fun a ha => ?_)
        cases hv <;> simp only [scalarOf, Option.some.injEq, reduceCtorEq, Scalar.float.injEq] at h2
        rename_i z _ _ _ hz
        subst h2
        cases z <;> simp only [toNum, reduceCtorEq, Num.finite.injEq] at ha
        subst ha
        obtain ⟨n, g1, g2, _⟩ := hz _ rfl
        exact ⟨n, g1, g2⟩
    | decimal =>
      have hk : w.urlKind id s = some .decimal := by simp only [World.urlKind, h1]
      cases x <;> simp only [write, reduceCtorEq] at h3
      refine key (l := .number (utf8 t)) hk h2 (by simp only [write]; exact h3) h4 h5 ?_ ?_ rfl
      · simp only [World.labelValue, World.urlText, hk, h2, write, h3]
        cases v <;> simp_all [scalarOf]
      · cases h3
        refine numeric_bytes (float_numeric h.numeric _ _ fun a ha => ?_)
        obtain ⟨n, g1, g2, _⟩ := Json.str_number a.normalize
        exact ⟨n, g1, g2.symm⟩
    | string media =>
      have hk : w.urlKind id s = some (.string false) := by simp only [World.urlKind, h1]
      cases x <;> simp only [write, reduceCtorEq, Except.ok.injEq] at h3
      rename_i u
      have hx' : x' = .string u := by
        obtain ⟨⟨_, g2⟩, u', g3, g4, _⟩ := C78_string w.hdr u
        cases media with
        | false =>
          simp only [Bool.false_eq_true, if_false] at h3
          subst h3
          rw [g2] at h4
          cases h4
          rfl
        | true =>
          simp only [write, if_true, Except.ok.injEq] at g3
          simp only [if_true] at h3
          rw [← h3, g3, g4] at h4
          cases h4
          rfl
      subst hx'
      refine key (l := .text (utf8 u)) hk h2 (t := u) rfl rfl h5 ?_ trivial rfl
      simp only [World.labelValue, World.urlText, hk, h2, write, Bool.false_eq_true, if_false]
      cases v <;> simp_all [scalarOf]
    | timestamp f =>
      cases x <;> simp only [write, reduceCtorEq] at h3
      cases v <;> simp [scalarOf] at h2
      exact absurd rfl (hnt _)

theorem urlOk_call {id : Nat} {s : Ref} {v : P} (hv : UrlOk w nearest id s v) (n : Nat) :
    ∃ method, w.model.memberCall (n + 1) id s v = .ok (.write method s v) ∧ v.isNone = false := by
  cases hv with
  | plain _ h => exact headerOk_call h n
  | time _ hs => exact ⟨_, (by simp only [Model.memberCall, hs]; rfl), rfl⟩

theorem urlOk_notList {id : Nat} {s : Ref} {v : P} (hv : UrlOk w nearest id s v) : ∀ xs, v ≠ .list xs := by
  rintro xs rfl
  cases hv with
  | plain _ h => cases h

end Verif.RestJson
