import Verif.QueryRequest.Props
import Verif.QueryAnswer.Texts

/-!
# What services get from callers of AWS Query operations (C133): numbers and times as Python writes them
-/

set_option autoImplicit false

namespace Verif.QueryRequest

open Verif.Json (Text Format Dec)
open Verif.Scalars.Strict (Num serializeFloat)
open Verif.Uri (Bytes)
open Verif.Http.HeaderValue (Env Shown C78_float)
open Verif.Http.RestJson (utf8)
open Verif.EventStream (utf8Decode)
open Verif.RestJson (Double ofNum toNum format)
open Verif.Timestamps (DateTime)
open Verif.QueryAnswer (readTime TimeOk time_restores)
open Verif.AwsQuery.RoundTrip (Texts)

/-! ## Model -/

/-- The serializer of the protocol: times are RFC 3339 texts where there is no `@timestampFormat` (serializers.py:61), floats and
decimals are written by `serialize_float` (serializers.py:109-113), times by `TimestampFormat.serialize` (serializers.py:121-128).
Simplified: a time that has no text is written as the empty one; such times are not met by the theorem. -/
def settings (env : Env) : AwsQuery.Settings (Num Double) (Num Dec) DateTime where
  defaultFormat := .dateTime
  float := fun x => utf8 (serializeFloat env.isNumeric env.str (toNum x))
  decimal := fun x => utf8 (serializeFloat env.isNumeric (fun d : Dec => d.normalize.str) x)
  stamp := fun f dt => match Http.HeaderValue.writeTimestamp env (format f) dt with
    | .ok t => utf8 t
    | .error _ => []

/-! ## Specification -/

/-- A service that reads the texts as Python would. -/
noncomputable def texts (env : Env) : Texts (Num Double) (Num Dec) DateTime where
  float := fun bs => (utf8Decode bs).bind fun t => (env.float t.toList).map ofNum
  decimal := fun bs => (utf8Decode bs).bind fun t => env.decimal t.toList
  stamp := fun f bs => (utf8Decode bs).bind fun t => readTime env f t.toList

/-! ## Theorems -/

theorem decode_utf8 (t : Text) : utf8Decode (utf8 t) = some (String.ofList t) := EventStream.utf8Decode_encode _

/-- **C133**, texts: floats of which Python shows enough digits, decimals that are not finite, and times in UTC have texts that the
service reads back; a finite decimal of up to 28 digits has one that the service reads as a decimal of the same value. -/
theorem C133_texts {env : Env} {nearest : Rat → Num Rat} (h : env.Sane nearest) :
    (∀ x : Num Double, (∀ q, x = .finite q → Shown env nearest q.1) → (texts env).float ((settings env).float x) = some x) ∧
    (∀ x : Num Dec, (∀ d, x ≠ .finite d) → (texts env).decimal ((settings env).decimal x) = some x) ∧
    (∀ d : Dec, d.digits ≤ 28 → ∃ d', (texts env).decimal ((settings env).decimal (.finite d)) = some (.finite d') ∧ d'.value = d.value) ∧
    (∀ f dt, TimeOk env f dt → (texts env).stamp f ((settings env).stamp f dt) = some dt) := by
  have dec : ∀ t y, Http.HeaderValue.read env .decimal t = .ok (.decimal y) → env.decimal t = some y := by
    intro t y hr
    simp only [Http.HeaderValue.read] at hr
    cases he : env.decimal t with
    | none => rw [he] at hr; cases hr
    | some z => rw [he] at hr; cases hr; rfl
  have shown : ∀ x, (texts env).decimal ((settings env).decimal x) =
      env.decimal (serializeFloat env.isNumeric (fun d : Dec => d.normalize.str) x) := by
    intro x
    simp only [texts, settings, decode_utf8, Option.bind_some, String.toList_ofList]
  refine ⟨fun x hx => ?_, fun x hx => ?_, fun d hd => ?_, fun f dt ho => ?_⟩
  · obtain ⟨t, h1, h2⟩ := C78_float env nearest h (toNum x) (by
      intro q hq
      cases x with
      | nan => cases hq
      | inf b => cases hq
      | finite y => cases hq; exact hx y rfl)
    cases h1
    show (utf8Decode (utf8 (serializeFloat env.isNumeric env.str (toNum x)))).bind _ = _
    rw [decode_utf8, Option.bind_some, String.toList_ofList]
    have : env.float (serializeFloat env.isNumeric env.str (toNum x)) = some (toNum x) := by
      simp only [Http.HeaderValue.read] at h2
      cases hp : Scalars.Strict.parseFloat env.isDigit env.float (serializeFloat env.isNumeric env.str (toNum x)) with
      | none => rw [hp] at h2; cases h2
      | some y =>
        cases y with
        | none => rw [hp] at h2; cases h2
        | some y =>
          rw [hp] at h2
          cases h2
          exact ((Scalars.Strict.C55_float env.isDigit env.float _ _).1 hp).1.symm
    rw [this, Option.map_some, RestJson.ofNum_toNum]
  · obtain ⟨t, h1, h2⟩ := (Http.HeaderValue.C78_decimal env nearest h).2 x hx
    rw [shown x, Except.ok.inj h1]
    exact dec _ _ h2
  · obtain ⟨t, d', h1, h2, h3⟩ := (Http.HeaderValue.C78_decimal env nearest h).1 d hd
    refine ⟨d', ?_, h3⟩
    rw [shown (.finite d), Except.ok.inj h1]
    exact dec _ _ h2
  · obtain ⟨t, h1, h2⟩ := time_restores h ho
    show (utf8Decode (match Http.HeaderValue.writeTimestamp env (format f) dt with
      | .ok t => utf8 t
      | .error _ => [])).bind _ = _
    rw [h1]
    show (utf8Decode (utf8 t)).bind _ = _
    rw [decode_utf8, Option.bind_some, String.toList_ofList]
    exact h2

end Verif.QueryRequest
