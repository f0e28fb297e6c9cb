import Verif.RestJson.Props
import Mathlib.Data.Nat.Prime.Basic

/-!
# The output of an operation, from the service to the caller: the hypotheses are met, and what is not restored (C129)
-/

set_option autoImplicit false

namespace Verif.RestJson.Example

open Verif.GeneratedSerde (Py Ref Model Shape Simple Typed Same)
open Verif.Timestamps (DateTime)
open Verif.Numerals
open Verif.Scalars.Strict (Num JsonNumber ascii)
open Verif.Json (numberValue decOf)
open Verif.Http.HeaderValue (exampleEnv exampleEnv_sane)
open Verif.Http.RoundTrip (received)
open Verif.EventStream (rnd)

/-! ## Doubles as JSON -/

theorem double_den (x : Double) : (2 : Nat) ^ Nat.log2 x.1.den = x.1.den := by
  obtain ⟨q, m, e, _, _, _, rfl⟩ := x
  have : ∃ k, ((m : ℚ) * 2 ^ e).den ∣ 2 ^ k := by
    obtain ⟨k, rfl | rfl⟩ := Int.eq_nat_or_neg e
    · refine ⟨0, ?_⟩
      have : ((m : ℚ) * 2 ^ (k : Int)) = ((m * 2 ^ k : Int) : ℚ) := by push_cast; rw [zpow_natCast]
      rw [this, Rat.den_intCast, pow_zero]
    · refine ⟨k, ?_⟩
      have : ((m : ℚ) * 2 ^ (-(k : Int))) = (m : ℚ) / ((2 ^ k : Int) : ℚ) := by
        push_cast
        rw [zpow_neg, zpow_natCast, div_eq_mul_inv]
      rw [this]
      have := Rat.den_dvd m (2 ^ k : Int)
      rw [Rat.divInt_eq_div] at this
      exact_mod_cast this
  obtain ⟨k, hk⟩ := this
  obtain ⟨j, _, hj⟩ := (Nat.dvd_prime_pow Nat.prime_two).1 hk
  simp only [hj, Nat.log2_two_pow]

/-- The digits of a double, with an exponent. -/
def digits (x : Double) : JsonNumber :=
  ⟨decide (x.1 < 0), natText (x.1.num.natAbs * 5 ^ Nat.log2 x.1.den), none, some ('E', some '-', natText (Nat.log2 x.1.den))⟩

theorem digits_ok (x : Double) : (digits x).Ok ascii where
  int := natText_head _
  frac := by intro f h; cases h
  exp := by
    rintro e sign ds h
    cases h
    refine ⟨.inr rfl, by simp, ?_, natText_ascii _⟩
    rcases natText_head (Nat.log2 x.1.den) with h | ⟨c, ds, h, _⟩ <;> rw [h] <;> simp

theorem digits_value (x : Double) : numberValue (digits x) = x.1 := by
  have hd := double_den x
  obtain ⟨q, hq⟩ := x
  show (if decide (q < 0) = true then (-1 : ℚ) else 1) * ((natValue (natText (q.num.natAbs * 5 ^ Nat.log2 q.den)) : ℚ) + 0) *
    (10 : ℚ) ^ (-((natValue (natText (Nat.log2 q.den)) : Nat) : Int)) = q
  rw [natValue_natText, natValue_natText, ← Bool.cond_eq_ite]
  replace hd : (2 : Nat) ^ Nat.log2 q.den = q.den := hd
  clear hq
  have hden : (q.den : ℚ) = 2 ^ Nat.log2 q.den := by rw [← Nat.cast_ofNat, ← Nat.cast_pow, hd]
  have hq : q = q.num / 2 ^ Nat.log2 q.den := by
    conv_lhs => rw [← Rat.num_div_den q]
    rw [hden]
  have hsign : ((bif decide (q < 0) then -1 else 1 : ℚ)) * (q.num.natAbs : ℚ) = q.num := by
    by_cases hlt : q < 0
    · have hn : q.num < 0 := Rat.num_neg.2 hlt
      have h1 : q.num = -(q.num.natAbs : ℤ) := by omega
      simp only [hlt, decide_true, cond_true]
      calc (-1 : ℚ) * (q.num.natAbs : ℚ) = ((-(q.num.natAbs : ℤ) : ℤ) : ℚ) := by
            rw [Int.cast_neg, Int.cast_natCast]; ring
        _ = q.num := congrArg _ h1.symm
    · have hn : 0 ≤ q.num := Rat.num_nonneg.2 (not_lt.1 hlt)
      have h1 : (q.num.natAbs : ℤ) = q.num := by omega
      simp only [hlt, decide_false, cond_false, one_mul]
      calc (q.num.natAbs : ℚ) = ((q.num.natAbs : ℤ) : ℚ) := (Int.cast_natCast _).symm
        _ = q.num := congrArg _ h1
  push_cast
  rw [add_zero, zpow_neg, zpow_natCast, ← mul_assoc, hsign]
  conv_rhs => rw [hq]
  rw [show (10 : ℚ) = 5 * 2 by norm_num, mul_pow]
  field_simp

/-! ## A service -/

/-- An output (0): a string, a timestamp and a list of numbers in headers, the status, and a string and a double in the body. -/
def model : Model Double DateTime where
  shapes := [
    .struct [⟨"tag".toList, "tag".toList, none, 1, none, true, none⟩, ⟨"at".toList, "at".toList, none, 4, none, true, none⟩,
      ⟨"nums".toList, "nums".toList, none, 2, none, true, none⟩, ⟨"code".toList, "code".toList, none, 3, none, true, none⟩,
      ⟨"text".toList, "text_".toList, some "t".toList, 1, none, false, none⟩,
      ⟨"ratio".toList, "ratio".toList, none, 5, none, true, none⟩, ⟨"more".toList, "more".toList, none, 1, none, true, none⟩],
    .simple .string,
    .list false ⟨3, none⟩,
    .simple .integer,
    .timestamp none,
    .simple .double]
  correction := fun _ => some (.str [])

def traits (x : GMember) : Http.Member :=
  { name := x.name
    shape := if x.name = "nums".toList then .list else .scalar
    header := if x.name = "tag".toList then some "X-Tag".toList else if x.name = "at".toList then some "X-At".toList
      else if x.name = "nums".toList then some "X-Nums".toList else none
    responseCode := x.name = "code".toList }

noncomputable def world : World where
  model := model
  traits := traits
  media := fun _ => false
  st := {
    useJsonName := true
    useTimestampFormat := true
    defaultFormat := .epochSeconds
    repr := fun x => (digits x).text
    serialize := fun _ _ => .int 0 }
  rd := {
    view := model.view
    useJsonName := true
    useTimestampFormat := true
    defaultFormat := .epochSeconds
    float := fun d => ofNum (.finite d.value)
    deserialize := fun _ _ => none }
  parse := Classical.choose Http.RestJson.exists_parse
  hdr := exampleEnv
  lower := List.map Char.toLower
  int := fun t => some (natValue t)

theorem model_ok : model.Ok true := by
  have h : ∀ i, model.members i = [] ∨ i = 0 := by
    intro i
    match i with
    | 0 => exact .inr rfl
    | 1 | 2 | 3 | 4 | 5 | _ + 6 => exact .inl rfl
  refine ⟨fun i => ?_, fun i => ?_, fun i => ?_⟩
  · rcases h i with h | rfl
    · rw [h]; exact List.nodup_nil
    · decide +kernel
  · rcases h i with h | rfl
    · rw [h]; exact List.nodup_nil
    · decide +kernel
  · intro ms hs
    rcases h i with h | rfl
    · simp only [Model.members, hs] at h
      rw [h]; exact List.nodup_nil
    · cases hs; decide +kernel

theorem world_ok : world.Ok fun q => .finite (rnd q) where
  names := model_ok
  settings := fun x => ⟨digits x, digits_ok x, rfl⟩
  fits := ⟨rfl, rfl, rfl, fun x => ⟨_, Json.numOf_dec (digits_ok x) (.inr (by simp [digits])), by
    show ofNum (.finite (decOf (digits x).text).value) = _
    rw [Json.decOf_value (digits_ok x), digits_value]
    exact ofNum_toNum (.finite x)⟩⟩
  view := rfl
  parse := Classical.choose_spec Http.RestJson.exists_parse
  python := exampleEnv_sane
  int := fun n => by
    show some ((natValue (natText n) : Nat) : Int) = _
    rw [natValue_natText]
  lower := by decide +kernel

theorem members_cases {p : GMember → Prop} (h : ∀ i : Fin 7, p ((model.members 0)[i])) : ∀ x ∈ model.members 0, p x := by
  intro x hx
  obtain ⟨i, hi, rfl⟩ := List.getElem_of_mem hx
  exact h ⟨i, hi⟩

theorem world_bound : world.Bound 0 where
  streams := members_cases (by decide +kernel)
  payload := fun _ _ => rfl
  prefixes := fun _ _ _ h => nomatch h
  headers := members_cases fun i => members_cases fun j a b ha hb h => by
    have key : ∀ i j : Fin 7, (traits (model.members 0)[i]).header.map (List.map Char.toLower) =
        (traits (model.members 0)[j]).header.map (List.map Char.toLower) → (traits (model.members 0)[i]).header = none ∨ i = j := by
      decide +kernel
    rcases key i j (by rw [show (traits _).header = _ from ha, show (traits _).header = _ from hb]; exact congrArg some h) with h | h
    · rw [show (traits _).header = _ from ha] at h; cases h
    · rw [h]
  own := members_cases fun i a ha => by
    have key : ∀ i : Fin 7, (traits (model.members 0)[i]).header.map (List.map Char.toLower) ≠ some "content-type".toList ∧
        (traits (model.members 0)[i]).header.map (List.map Char.toLower) ≠ some "content-length".toList := by
      decide +kernel
    have := key i
    rw [show (traits _).header = _ from ha] at this
    refine ⟨fun h => this.1 ?_, fun h => this.2 ?_⟩
    · exact congrArg some (h.trans (by decide +kernel))
    · exact congrArg some (h.trans (by decide +kernel))
  status := members_cases fun i => members_cases fun j hi hj => by
    have key : ∀ i j : Fin 7, (traits (model.members 0)[i]).responseCode = true → (traits (model.members 0)[j]).responseCode = true →
        i = j := by
      decide +kernel
    rw [key i j hi hj]

/-! ## A value -/

def half : Double := ⟨1 / 2, 1, -1, by decide, by decide, by decide, by norm_num⟩

/-- The 29th of February 2024, 23:59:01. -/
def day : DateTime := ⟨⟨2024, 2, 29⟩, 23, 59, 1, 0, some 0⟩

theorem day_valid : Timestamps.Spec.Valid day := by
  refine ⟨by decide +kernel, by decide, by decide, by decide, by decide, by decide, ?_⟩
  rintro o h
  cases h
  decide

def value (x : GMember) : P :=
  if x.name = "tag".toList then .str "a, \"b\"".toList
  else if x.name = "at".toList then .time day
  else if x.name = "nums".toList then .list [.int 1, .int (-20)]
  else if x.name = "code".toList then .int 201
  else if x.name = "text".toList then .str "é\n".toList
  else if x.name = "ratio".toList then .float (.finite half)
  else .none

theorem value_field : ∀ x ∈ model.members 0, Field world (fun q => .finite (rnd q)) 0 x (value x) := by
  have short : ∀ n : Nat, n < 100 → (natText n).length ≤ world.hdr.py.limit := by
    show ∀ n : Nat, n < 100 → (natText n).length ≤ exampleEnv.py.limit
    decide +kernel
  refine members_cases fun i => ?_
  match i with
  | 0 => exact .header (k := "X-Tag".toList) (by decide +kernel) (by decide +kernel) (.string rfl)
  | 1 =>
    refine .header (k := "X-At".toList) (by decide +kernel) (by decide +kernel) (.timestamp (f := none) (by rfl) rfl ?_)
    refine ⟨?_, rfl, ?_⟩
    · exact day_valid
    · show Timestamps.Spec.instant day % 1000000 = 0 ∧ -59011459200000000 ≤ Timestamps.Spec.instant day
      decide +kernel
  | 2 =>
    refine .headers (k := "X-Nums".toList) (sparse := false) (e := ⟨3, none⟩) (by decide +kernel) (by decide +kernel) rfl (by simp) ?_ ?_
    · intro v hv
      simp only [List.mem_cons, List.not_mem_nil, or_false] at hv
      rcases hv with rfl | rfl
      · exact .integer rfl (by simp) (short _ (by decide))
      · exact .integer rfl (by simp) (short _ (by decide))
    · intro v hv; simp at hv
  | 3 => exact .status (t := .integer) (by decide +kernel) rfl (by simp)
  | 4 => exact .body (by decide +kernel) (by decide +kernel) rfl (.string rfl)
  | 5 => exact .body (by decide +kernel) (by decide +kernel) rfl (.float (t := .double) rfl (.inr rfl) (fun h => nomatch h))
  | 6 => exact .absent rfl (.inl rfl) (by decide +kernel) rfl

/-- The hypotheses of the theorem are met. -/
example : ∃ r bytes, world.respond 9 0 (.object 0 ((model.attributes (model.members 0)).map fun x => (x.attr, value x))) none "200".toList true = .ok r ∧
    r.body = .bytes bytes ∧ ∀ body, body = none ∨ body = some (.bytes bytes) → ∃ v', world.receive 0 (received r bytes) body = .ok v' ∧
      Same (.object 0 ((model.attributes (model.members 0)).map fun x => (x.attr, value x))) v' :=
  C129_output_partial world_ok world_bound rfl value_field rfl (by decide +kernel) none "200".toList true

/-! ## Headers with a prefix -/

/-- An output (0): a nullable map of strings, a string in a header and a string in the body. -/
def prefixedModel : Model Double DateTime where
  shapes := [
    .struct [⟨"meta".toList, "meta".toList, none, 1, none, true, none⟩, ⟨"tag".toList, "tag".toList, none, 2, none, true, none⟩,
      ⟨"text".toList, "text".toList, none, 2, none, false, none⟩],
    .map false ⟨2, none⟩,
    .simple .string]
  correction := fun _ => some (.str [])

def prefixedTraits (x : GMember) : Http.Member :=
  { name := x.name
    shape := if x.name = "meta".toList then .map else .scalar
    header := if x.name = "tag".toList then some "X-Tag".toList else none
    prefixHeaders := if x.name = "meta".toList then some "X-Meta-".toList else none }

noncomputable def prefixed : World :=
  { world with model := prefixedModel, traits := prefixedTraits, rd := { world.rd with view := prefixedModel.view } }

theorem prefixed_cases {p : GMember → Prop} (h : ∀ i : Fin 3, p ((prefixedModel.members 0)[i])) : ∀ x ∈ prefixedModel.members 0, p x := by
  intro x hx
  obtain ⟨i, hi, rfl⟩ := List.getElem_of_mem hx
  exact h ⟨i, hi⟩

theorem prefixed_ok : prefixed.Ok fun q => .finite (rnd q) where
  names := by
    have h : ∀ i, prefixedModel.members i = [] ∨ i = 0 := by
      intro i
      match i with
      | 0 => exact .inr rfl
      | 1 | 2 | _ + 3 => exact .inl rfl
    refine ⟨fun i => ?_, fun i => ?_, fun i => ?_⟩
    · rcases h i with h | rfl
      · show (List.map _ (prefixedModel.members i)).Nodup; rw [h]; exact List.nodup_nil
      · decide +kernel
    · rcases h i with h | rfl
      · show (List.map _ (prefixedModel.members i)).Nodup; rw [h]; exact List.nodup_nil
      · decide +kernel
    · intro ms hs
      rcases h i with h | rfl
      · simp only [Model.members, show prefixedModel.shape i = some (.struct ms) from hs] at h
        rw [h]; exact List.nodup_nil
      · cases hs; decide +kernel
  settings := world_ok.settings
  fits := ⟨world_ok.fits.1, world_ok.fits.2, world_ok.fits.3, world_ok.fits.4⟩
  view := rfl
  parse := world_ok.parse
  python := world_ok.python
  int := world_ok.int
  lower := world_ok.lower

theorem prefixed_bound : prefixed.Bound 0 where
  streams := prefixed_cases (by decide +kernel)
  payload := fun _ _ => rfl
  prefixes := prefixed_cases fun i p hp => by
    have only : ∀ i j : Fin 3, (prefixedTraits (prefixedModel.members 0)[i]).prefixHeaders = none ∨
        (prefixedTraits (prefixedModel.members 0)[j]).prefixHeaders = none ∨ i = j := by
      decide +kernel
    have hname : ∀ i : Fin 3, (prefixedTraits (prefixedModel.members 0)[i]).prefixHeaders = none ∨
        (prefixedTraits (prefixedModel.members 0)[i]).prefixHeaders = some "X-Meta-".toList := by
      decide +kernel
    have hp' : (prefixedTraits (prefixedModel.members 0)[i]).prefixHeaders = some p := hp
    have hpn : p = "X-Meta-".toList := by
      rcases hname i with h | h
      · rw [hp'] at h; cases h
      · exact Option.some.inj (hp'.symm.trans h)
    subst hpn
    refine ⟨⟨Char.toLower, fun _ => rfl⟩, ?_, ?_, ?_, ?_⟩
    · refine prefixed_cases fun j hj => ?_
      rcases only i j with h | h | h
      · rw [hp'] at h; cases h
      · exact absurd h hj
      · rw [h]
    · refine prefixed_cases fun j a ha => ?_
      have key : ∀ j : Fin 3, (prefixedTraits (prefixedModel.members 0)[j]).header = none ∨
          (prefixedTraits (prefixedModel.members 0)[j]).header = some "X-Tag".toList := by
        decide +kernel
      rcases key j with h | h
      · rw [show (prefixedTraits _).header = _ from ha] at h; cases h
      · cases Option.some.inj ((show (prefixedTraits _).header = _ from ha).symm.trans h)
        show ¬ List.map Char.toLower "X-Meta-".toList <+: List.map Char.toLower "X-Tag".toList
        decide +kernel
    · show ¬ List.map Char.toLower "X-Meta-".toList <+: List.map Char.toLower "content-type".toList
      decide +kernel
    · show ¬ List.map Char.toLower "X-Meta-".toList <+: List.map Char.toLower "content-length".toList
      decide +kernel
  headers := prefixed_cases fun i => prefixed_cases fun j a b ha hb _ => by
    have key : ∀ i j : Fin 3, (prefixedTraits (prefixedModel.members 0)[i]).header = none ∨
        (prefixedTraits (prefixedModel.members 0)[j]).header = none ∨ i = j := by
      decide +kernel
    rcases key i j with h | h | h
    · rw [show (prefixedTraits _).header = _ from ha] at h; cases h
    · rw [show (prefixedTraits _).header = _ from hb] at h; cases h
    · rw [h]
  own := prefixed_cases fun i a ha => by
    have key : ∀ i : Fin 3, (prefixedTraits (prefixedModel.members 0)[i]).header.map (List.map Char.toLower) ≠ some "content-type".toList ∧
        (prefixedTraits (prefixedModel.members 0)[i]).header.map (List.map Char.toLower) ≠ some "content-length".toList := by
      decide +kernel
    have := key i
    rw [show (prefixedTraits _).header = _ from ha] at this
    refine ⟨fun h => this.1 ?_, fun h => this.2 ?_⟩
    · exact congrArg some (h.trans (by decide +kernel))
    · exact congrArg some (h.trans (by decide +kernel))
  status := fun _ _ _ _ h => nomatch h

def prefixedValue (x : GMember) : P :=
  if x.name = "meta".toList then .dict [("b".toList, .str "1, 2".toList), ("A".toList, .str [])]
  else if x.name = "tag".toList then .str "t".toList
  else .str "é\n".toList

theorem prefixed_field : ∀ x ∈ prefixedModel.members 0, Field prefixed (fun q => .finite (rnd q)) 0 x (prefixedValue x) := by
  refine prefixed_cases fun i => ?_
  match i with
  | 0 =>
    exact .prefixed (p := "X-Meta-".toList) (sparse := false) (e := ⟨2, none⟩)
      (kvs := [("b".toList, "1, 2".toList), ("A".toList, [])]) rfl (by decide +kernel) (by decide +kernel) rfl rfl rfl (by decide +kernel)
  | 1 => exact .header (k := "X-Tag".toList) (by decide +kernel) (by decide +kernel) (.string rfl)
  | 2 => exact .body (by decide +kernel) (by decide +kernel) (by decide +kernel) (.string rfl)

/-- The hypotheses of the theorem are met by an output with headers with a prefix. -/
example : ∃ r bytes, prefixed.respond 9 0 (.object 0 ((prefixedModel.attributes (prefixedModel.members 0)).map fun x =>
      (x.attr, prefixedValue x))) none "200".toList true = .ok r ∧
    r.body = .bytes bytes ∧ ∀ body, body = none ∨ body = some (.bytes bytes) → ∃ v', prefixed.receive 0 (received r bytes) body = .ok v' ∧
      Same (.object 0 ((prefixedModel.attributes (prefixedModel.members 0)).map fun x => (x.attr, prefixedValue x))) v' :=
  C129_output_partial prefixed_ok prefixed_bound rfl prefixed_field rfl (by decide +kernel) none "200".toList true

/-! ## What is not restored -/

/-- An output with one member, a nullable list of strings. -/
def one : Model Double DateTime where
  shapes := [.struct [⟨"x".toList, "x".toList, none, 1, none, true, none⟩], .list false ⟨2, none⟩, .simple .string]
  correction := fun _ => some (.str [])

/-- The list is bound to a header. -/
noncomputable def listed : World :=
  { world with model := one, traits := fun x => { name := x.name, shape := .list, header := some "X-Tags".toList } }

/-- An output with one member, a nullable number. -/
def coded : Model Double DateTime where
  shapes := [.struct [⟨"x".toList, "x".toList, none, 1, none, true, none⟩], .simple .integer]
  correction := fun _ => some (.int 0)

/-- The number is bound to the status. -/
noncomputable def statused : World :=
  { world with model := coded, traits := fun x => { name := x.name, shape := .scalar, responseCode := true } }

/-- The client has `None` for an empty list that the service has put in a header. -/
theorem C129_empty_list_fails : ∃ r, listed.respond 9 0 (.object 0 [("x".toList, .list [])]) none "200".toList true = .ok r ∧
    listed.receive 0 (received r []) none = .ok (.object 0 [("x".toList, .none)]) :=
  ⟨_, rfl, rfl⟩

/-- The client has a number for a `None` that is bound to the status. -/
theorem C129_status_fails : ∃ r, statused.respond 9 0 (.object 0 [("x".toList, .none)]) none "200".toList true = .ok r ∧
    statused.receive 0 (received r []) none = .ok (.object 0 [("x".toList, .int 200)]) :=
  ⟨_, rfl, rfl⟩

/-- An output with one member, a nullable map of strings. -/
def mapped : Model Double DateTime where
  shapes := [.struct [⟨"x".toList, "x".toList, none, 1, none, true, none⟩], .map false ⟨2, none⟩, .simple .string]
  correction := fun _ => some (.str [])

/-- The map is bound to headers with a prefix. -/
noncomputable def prefixedMap : World :=
  { world with model := mapped, traits := fun x => { name := x.name, shape := .map, prefixHeaders := some "X-Meta-".toList } }

/-- The client has an empty map for a `None` that is bound to headers with a prefix. -/
theorem C129_prefix_none_fails : ∃ r, prefixedMap.respond 9 0 (.object 0 [("x".toList, .none)]) none "200".toList true = .ok r ∧
    prefixedMap.receive 0 (received r []) none = .ok (.object 0 [("x".toList, .dict [])]) :=
  ⟨_, rfl, rfl⟩

/-- The values of the map are texts with a media type. -/
noncomputable def prefixedMedia : World :=
  { prefixedMap with media := fun s => s = .member 1 GeneratedSerde.valueName }

/-- A string with a media type is base64 in a header and the client decodes it, but in headers with a prefix the service has written it
as it is.  The client fails, or has a different string. -/
theorem C129_prefix_media_fails : ∃ r, prefixedMedia.respond 9 0 (.object 0 [("x".toList, .dict [("k".toList, .str "YWJj".toList)])])
      none "200".toList true = .ok r ∧
    prefixedMedia.receive 0 (received r []) none = .ok (.object 0 [("x".toList, .dict [("k".toList, .str "abc".toList)])]) :=
  ⟨_, by with_unfolding_all rfl, by with_unfolding_all rfl⟩

end Verif.RestJson.Example
