import Verif.QueryAnswer.Props
import Verif.RestJson.Header

/-!
# What callers of AWS Query operations get (C132): numbers and times as Python reads them

`XMLShapeDeserializer` on Python's own `int`, `float` and `Decimal` and on `TimestampFormat.deserialize` (`Verif.Http.HeaderValue`).
-/

set_option autoImplicit false

namespace Verif.QueryAnswer

open Verif.Json (Text Format Dec numberValue)
open Verif.Scalars.Strict (Num JsonNumber ascii)
open Verif.GeneratedSerde (Ref Model)
open Verif.Http.HeaderValue (Env Shown C78_timestamp)
open Verif.Numerals (natText intText)
open Verif.RestJson (Double ofNum format)
open Verif.Timestamps (DateTime)
open Verif.Timestamps.Spec
open Verif.Xml (Reader)
open Verif.Xml.RoundTrip (Writer Readable)

/-! ## Model -/

/-- `TimestampFormat.deserialize` of a text (smithy_core/types.py:163-182). -/
def readTime (env : Env) (f : Format) (t : Text) : Option DateTime :=
  match Http.HeaderValue.readTimestamp env (format f) t >>= Timestamps.ensureUtc with
  | .ok dt => some dt
  | .error _ => none

/-- The deserializer of the protocol: `@timestampFormat` counts, and times are RFC 3339 texts where there is none
(smithy_aws_core/aio/protocols.py:260, smithy_xml/settings.py:12-18). -/
noncomputable def reader (env : Env) (m : Model Double DateTime) (t : Traits) : Reader Ref (Num Dec) Double DateTime where
  view := view m t
  useTimestampFormat := true
  defaultFormat := .dateTime
  int := env.py.int
  float := fun t => (env.float t).map ofNum
  decimal := env.decimal
  deserialize := readTime env

/-! ## Specification -/

/-- A `datetime` in UTC; HTTP dates and epoch seconds without fractions of a second, and years of four digits if the platform does not
pad them. -/
def TimeOk (env : Env) (f : Format) (dt : DateTime) : Prop :=
  Valid dt ∧ dt.offset = some 0 ∧
    match f with
    | .httpDate => instant dt % 1000000 = 0 ∧ -59011459200000000 ≤ instant dt
    | .dateTime => env.padYear = true ∨ -30610224000000000 ≤ instant dt
    | .epochSeconds => instant dt % 1000000 = 0

/-- A service that writes integers as their numerals, floats as JSON numbers, and times as RFC 3339 texts, HTTP dates or seconds; it
may write decimals in any way that Python reads. -/
def writer (env : Env) (nearest : Rat → Num Rat) (tag : Text → Text) (item : Ref → Text) (float : Double → JsonNumber)
    (decimal : Num Dec → Text) : Writer Ref (Num Dec) Double DateTime where
  tag := tag
  item := item
  int := intText
  float := fun x => (float x).text
  decimal := decimal
  time := fun f dt => match Http.HeaderValue.writeTimestamp env (format f) dt with
    | .ok t => t
    | .error _ => []
  okInt := fun n => (natText n.natAbs).length ≤ env.py.limit
  okFloat := fun x => (float x).Ok ascii ∧ nearest (numberValue (float x)) = .finite x.1
  okDecimal := fun x => env.decimal (decimal x) = some x
  okTime := TimeOk env

/-! ## Theorems -/

theorem time_restores {env : Env} {nearest : Rat → Num Rat} (h : env.Sane nearest) {f : Format} {dt : DateTime} (ho : TimeOk env f dt) :
    ∃ t, Http.HeaderValue.writeTimestamp env (format f) dt = .ok t ∧ readTime env f t = some dt := by
  obtain ⟨hv, hz, hc⟩ := ho
  have hu : UtcOf (instant dt) dt := ⟨hv, hz, rfl⟩
  have hr := Timestamps.utcOf_representable hu
  obtain ⟨c1, c2, c3, -⟩ := C78_timestamp env nearest h dt hv hr
  have conv : ∀ (g : Http.HeaderValue.Format) t u,
      Http.HeaderValue.read env (.timestamp (some g)) t = .ok (.timestamp u) → ∀ f, format f = g → readTime env f t = some u := by
    intro g t u hg f hf
    unfold readTime
    simp only [Http.HeaderValue.read, Http.HeaderValue.formatOf] at hg
    rw [hf]
    cases hb : (Http.HeaderValue.readTimestamp env g t >>= Timestamps.ensureUtc) with
    | error e => rw [hb] at hg; cases hg
    | ok x => rw [hb] at hg; cases hg; rfl
  cases f with
  | httpDate =>
    obtain ⟨t, u, h1, h2, h3⟩ := c2 hc.2 _ (.inr rfl)
    rw [show instant dt / 1000000 * 1000000 = instant dt by have := hc.1; omega] at h3
    rw [Timestamps.utcOf_unique h3 hu] at h2
    exact ⟨t, h1, conv _ _ _ h2 _ rfl⟩
  | dateTime =>
    obtain ⟨t, u, h1, h2, h3⟩ := c1 hc
    rw [Timestamps.utcOf_unique h3 hu] at h2
    exact ⟨t, h1, conv _ _ _ h2 _ rfl⟩
  | epochSeconds =>
    obtain ⟨u, h1, h2, h3⟩ := c3 hc
    rw [Timestamps.utcOf_unique h3 hu] at h2
    exact ⟨_, h1, conv _ _ _ h2 _ rfl⟩

theorem number_head {n : JsonNumber} (hn : n.Ok ascii) : ∃ c r, n.text = c :: r ∧ (ascii c = true ∨ (c = '-' ∧ ∃ d r', r = d :: r' ∧ ascii d = true)) := by
  have hint : ∃ c r, n.int = c :: r ∧ ascii c = true := by
    rcases hn.int with h | ⟨c, ds, h, hc, _⟩
    · exact ⟨'0', [], h, rfl⟩
    · refine ⟨c, ds, h, ?_⟩
      have : ∀ c ∈ ['1', '2', '3', '4', '5', '6', '7', '8', '9'], ascii c = true := by decide +kernel
      exact this c hc
  obtain ⟨c, r, h1, h2⟩ := hint
  unfold JsonNumber.text
  rw [h1]
  cases n.neg with
  | false => exact ⟨c, _, rfl, .inl h2⟩
  | true => exact ⟨'-', _, rfl, .inr ⟨rfl, c, _, rfl, h2⟩⟩

/-- **C132**, texts: what such a service writes, Python reads. -/
theorem C132_texts {env : Env} {nearest : Rat → Num Rat} (h : env.Sane nearest) (m : Model Double DateTime) (t : Traits)
    (tag : Text → Text) (ht : ∀ n, Xml.localName (tag n) = n) (item : Ref → Text) (float : Double → JsonNumber)
    (decimal : Num Dec → Text) (names : Ref → Xml.View Ref) :
    Readable { reader env m t with view := names } (writer env nearest tag item float decimal) where
  tag := ht
  int := fun n hn => Http.HeaderValue.int_intText h.py n hn
  float := fun x hx => by
    show (env.float (float x).text).map ofNum = _
    rw [h.float _ hx.1, Option.map_some, hx.2, ← RestJson.ofNum_toNum (.finite x)]
    rfl
  special := fun x hx => by
    obtain ⟨c, r, h1, h2⟩ := number_head hx.1
    show (float x).text ≠ _ ∧ (float x).text ≠ _ ∧ (float x).text ≠ _
    rw [h1]
    refine ⟨?_, ?_, ?_⟩ <;> intro e <;> rcases h2 with h2 | ⟨rfl, d, r', rfl, h2⟩
    · rw [(List.cons.inj e).1] at h2; revert h2; decide +kernel
    · exact absurd (List.cons.inj e).1 (by decide +kernel)
    · rw [(List.cons.inj e).1] at h2; revert h2; decide +kernel
    · exact absurd (List.cons.inj e).1 (by decide +kernel)
    · rw [(List.cons.inj e).1] at h2; revert h2; decide +kernel
    · rw [(List.cons.inj (List.cons.inj e).2).1] at h2; revert h2; decide +kernel
  decimal := fun x hx => hx
  time := fun f dt hdt => by
    obtain ⟨t, h1, h2⟩ := time_restores h hdt
    show readTime env f (match Http.HeaderValue.writeTimestamp env (format f) dt with
      | .ok t => t
      | .error _ => []) = some dt
    rw [h1]
    exact h2

end Verif.QueryAnswer
