import Verif.Json.ReadProps
import Mathlib.Tactic.Linarith
import Mathlib.Tactic.NormNum

/-!
# Documents read from JSON (C84)

Models reading a shape from a document that was read from JSON: `JSONDocument` (smithy_json/_private/documents.py:19-117)
with `Document.as_shape` and `_DocumentDeserializer` (smithy_core/documents.py:264-269, 567-644) and the generated code
that uses it (StructureGenerator.java:502-519, UnionGenerator.java:160-200, ListGenerator.java:78-92,
MapGenerator.java:80-92).

The schema of a document that was read is the one of the member that holds it
(smithy_json/_private/deserializers.py:155-172), of type `DOCUMENT`; so are those of all documents in it
(smithy_core/documents.py:215-219, 239-244).  It has no members and no timestamp format, and so a document is its plain
content here.  Documents that were changed, or made by hand with another schema, are not modelled.
-/

set_option autoImplicit false

namespace Verif.Json.Documents

open Verif.Numerals Verif.Json
open Verif.Scalars.Strict (Num)

section
variable {S F T : Type}

/-! ## Model -/

/-- `as_map().get(name)` (smithy_core/documents.py:348-350). -/
def field (es : List (Text × Plain)) (k : Text) : Option Plain := (es.find? fun e => e.1 = k).map Prod.snd

/-- `as_integer` (smithy_core/documents.py:175-186).  `token` stands for `ExpectationNotMetError`. -/
def asInteger : Plain → Except RErr (Val F T)
  | .num (.int n) => .ok (.integer n)
  | _ => .error .token

/-- `as_float` (smithy_json/_private/documents.py:44-47). -/
def asFloat (rd : Reader S F T) : Plain → Except RErr (Val F T)
  | .num (.dec d) => .ok (.float (rd.float d))
  | _ => .error .token

/-- `as_decimal` (smithy_core/documents.py:196-198). -/
def asDecimal : Plain → Except RErr (Val F T)
  | .num (.dec d) => .ok (.bigDecimal (.finite d))
  | _ => .error .token

/-- `as_blob` (smithy_json/_private/documents.py:41-42). -/
def asBlob : Plain → Except RErr (Val F T)
  | .str s => match Base64.decode s with
    | some bs => .ok (.blob bs)
    | none => .error .value
  | _ => .error .token

/-- What `as_timestamp` gives to the format (smithy_json/_private/documents.py:55-65); a `bool` is an `int`. -/
def stampOf (rd : Reader S F T) : Plain → Option (Stamp F)
  | .num (.int n) => some (.int n)
  | .num (.dec d) => some (.float (rd.float d))
  | .str s => some (.text s)
  | .bool b => some (.int (if b then 1 else 0))
  | _ => none

/-- `as_timestamp` (smithy_json/_private/documents.py:49-65): the format is the default one, as the schema of the
document has none. -/
def asTimestamp (rd : Reader S F T) (p : Plain) : Except RErr (Val F T) :=
  match stampOf rd p with
  | none => .error .token
  | some x => match rd.deserialize rd.defaultFormat x with
    | some t => .ok (.timestamp t)
    | none => .error .value

/-- The methods for scalars (smithy_core/documents.py:614-644). -/
def asScalar (rd : Reader S F T) : View S → Plain → Except RErr (Val F T)
  | .boolean, .bool b => .ok (.boolean b)
  | .integer, p => asInteger p
  | .float, p => asFloat rd p
  | .bigDecimal, p => asDecimal p
  | .string, .str s => .ok (.string s)
  | .blob, p => asBlob p
  | .timestamp _, p => asTimestamp rd p
  | _, _ => .error .token

/-- `read_struct` (smithy_core/documents.py:577-585) with the consumer of a structure or union. -/
def membersWith (f : S → Plain → Except RErr (Val F T)) (p : Plain) :
    List (Member × S) → Except RErr (List (Text × Val F T))
  | [] => .ok []
  | m :: ms =>
    match p with
    | .obj es =>
      match field es m.1.name with
      | none => membersWith f p ms
      | some c =>
        match f m.2 c with
        | .error e => .error e
        | .ok v => (membersWith f p ms).map ((m.1.name, v) :: ·)
    | _ => .error .token

/-- `read_list` (smithy_core/documents.py:587-592) with the generated `_read_value`. -/
def elementsWith (f : Plain → Except RErr (Val F T)) (sparse : Bool) : List Plain → Except RErr (List (Val F T))
  | [] => .ok []
  | .null :: ps => (elementsWith f sparse ps).map fun vs => if sparse then .null :: vs else vs
  | p :: ps =>
    match f p with
    | .error e => .error e
    | .ok v => (elementsWith f sparse ps).map (v :: ·)

/-- `read_map` (smithy_core/documents.py:594-601) with the generated `_read_value`. -/
def entriesWith (f : Plain → Except RErr (Val F T)) (sparse : Bool) :
    List (Text × Plain) → Except RErr (List (Text × Val F T))
  | [] => .ok []
  | (k, .null) :: ps => (entriesWith f sparse ps).map fun vs => if sparse then (k, .null) :: vs else vs
  | (k, p) :: ps =>
    match f p with
    | .error e => .error e
    | .ok v => (entriesWith f sparse ps).map ((k, v) :: ·)

/-- The one member of a union (UnionGenerator.java:164-182).  The code raises at the second member, before it looks at a
third; which of two exceptions is raised may differ. -/
def single : List (Text × Val F T) → Except RErr (Val F T)
  | [(k, v)] => .ok (.union k v)
  | _ => .error .union

/-- `document.as_shape(shape)` (smithy_core/documents.py:264-269).  The number bounds the depth. -/
def asShape (rd : Reader S F T) : Nat → S → Plain → Except RErr (Val F T)
  | 0, _, _ => .error .fuel
  | n + 1, s, p =>
    match rd.view s with
    | .document => .ok (.document p)
    | .struct ms => (membersWith (asShape rd n) p ms).map .struct
    | .union ms =>
      match membersWith (asShape rd n) p ms with
      | .error e => .error e
      | .ok es => single es
    | .list sparse s' =>
      match p with
      | .arr ps => (elementsWith (asShape rd n s') sparse ps).map .list
      | _ => .error .token
    | .map sparse s' =>
      match p with
      | .obj es => (entriesWith (asShape rd n s') sparse es).map .map
      | _ => .error .token
    | v => asScalar rd v p

/-! ## Specification -/

mutual
/-- Nesting. -/
def depth : Val F T → Nat
  | .struct es => depths es + 1
  | .union _ v => depth v + 1
  | .list vs => elementDepths vs + 1
  | .map es => depths es + 1
  | _ => 1
termination_by structural v => v
def elementDepths : List (Val F T) → Nat
  | [] => 0
  | v :: vs => max (depth v) (elementDepths vs)
def depths : List (Text × Val F T) → Nat
  | [] => 0
  | (_, v) :: es => max (depth v) (depths es)
end

mutual
/-- What a document can be converted to: no infinite floats, no whole big decimals, no timestamps in another format than
the default one, and no members with a JSON name of their own. -/
def Convertible (st : Settings F T) (rd : Reader S F T) (s : S) : Val F T → Prop
  | .float x => ∃ f, x = .finite f
  | .bigDecimal x => ∀ d : Dec, x = .finite d → ¬ ∃ n : Int, d.value = n
  | .timestamp _ => ∀ trait, rd.view s = .timestamp trait → stampFormat st trait = st.defaultFormat
  | .struct es => ∀ ms, rd.view s = .struct ms →
      (∀ m ∈ ms, jsonKey rd.useJsonName m.1 = m.1.name) ∧ ConvertibleMembers st rd ms es
  | .union k v => ∀ ms, rd.view s = .union ms →
      (∀ m ∈ ms, jsonKey rd.useJsonName m.1 = m.1.name) ∧ ∀ m ∈ ms, m.1.name = k → Convertible st rd m.2 v
  | .list vs => ∀ sparse s', rd.view s = .list sparse s' → ConvertibleElements st rd s' vs
  | .map es => ∀ sparse s', rd.view s = .map sparse s' → ConvertibleEntries st rd s' es
  | _ => True
termination_by structural v => v
def ConvertibleMembers (st : Settings F T) (rd : Reader S F T) (ms : List (Member × S)) : List (Text × Val F T) → Prop
  | [] => True
  | (k, v) :: es => (∀ m ∈ ms, m.1.name = k → Convertible st rd m.2 v) ∧ ConvertibleMembers st rd ms es
def ConvertibleElements (st : Settings F T) (rd : Reader S F T) (s : S) : List (Val F T) → Prop
  | [] => True
  | v :: vs => Convertible st rd s v ∧ ConvertibleElements st rd s vs
def ConvertibleEntries (st : Settings F T) (rd : Reader S F T) (s : S) : List (Text × Val F T) → Prop
  | [] => True
  | (_, v) :: es => Convertible st rd s v ∧ ConvertibleEntries st rd s es
end

/-! ## Lemmas -/

theorem plainsOf_eq (acc : List Plain) (js : List Json) : plainsOf acc js = acc ++ js.map plainOf := by
  induction js generalizing acc with
  | nil => simp [plainsOf]
  | cons j js ih => simp [plainsOf, ih]

theorem fieldsOf_eq (js : List (Text × Json)) (acc : List (Text × Plain))
    (h : (acc.map Prod.fst ++ js.map Prod.fst).Nodup) :
    fieldsOf acc js = acc ++ js.map fun e => (e.1, plainOf e.2) := by
  induction js generalizing acc with
  | nil => simp [fieldsOf]
  | cons e js ih =>
    obtain ⟨k, j⟩ := e
    have hk : k ∉ acc.map Prod.fst := fun hk => (List.nodup_append.1 h).2.2 k hk k (by simp) rfl
    rw [fieldsOf, put_new acc k _ hk, ih _ (by simpa using h)]
    simp

theorem field_mem (js : List (Text × Json)) (h : (js.map Prod.fst).Nodup) (k : Text) (j : Json) (hj : (k, j) ∈ js) :
    field (js.map fun e => (e.1, plainOf e.2)) k = some (plainOf j) := by
  induction js with
  | nil => cases hj
  | cons e js ih =>
    obtain ⟨k', j'⟩ := e
    rw [List.map_cons, List.nodup_cons] at h
    rcases List.mem_cons.1 hj with hj | hj
    · cases hj; simp [field]
    · have : k' ≠ k := fun he => h.1 (List.mem_map.2 ⟨_, hj, he.symm⟩)
      rw [List.map_cons, field, List.find?_cons_of_neg (by simpa using this)]
      exact ih h.2 hj

theorem field_none (js : List (Text × Json)) (k : Text) (h : k ∉ js.map Prod.fst) :
    field (js.map fun e => (e.1, plainOf e.2)) k = none := by
  simp only [field, Option.map_eq_none_iff, List.find?_eq_none]
  intro x hx hk
  obtain ⟨e, he, rfl⟩ := List.mem_map.1 hx
  exact h (List.mem_map.2 ⟨e, he, by simpa using hk⟩)

theorem members_keys (st : Settings F T) (rd : Reader S F T) : ∀ (vs : List (Text × Val F T)) (post : List (Member × S)),
    ConformsMembers st rd post vs → (vs.map Prod.fst).Sublist (post.map fun e => e.1.name)
  | [], post, _ => List.nil_sublist _
  | (k, v) :: vs, post, h => by
    obtain ⟨pre, m, post', rfl, rfl, _, h⟩ := h
    have := members_keys st rd vs post' h
    simp only [List.map_cons, List.map_append]
    exact List.Sublist.trans (this.cons_cons _) (List.sublist_append_right _ _)

theorem mirrors_keys (st : Settings F T) (rd : Reader S F T) (hf : Fits st rd) (ms : List (Member × S))
    (hn : (ms.map fun e => e.1.name).Nodup) (hk : ∀ m ∈ ms, jsonKey rd.useJsonName m.1 = m.1.name) :
    ∀ (vs : List (Text × Val F T)) (pre post : List (Member × S)) (js : List (Text × Json)), ms = pre ++ post →
    ConformsMembers st rd post vs → MirrorsMembers st (rd.memberCalls ms vs) js →
    js.map Prod.fst = vs.map Prod.fst
  | [], pre, post, js, _, _, h => by
    simp only [Reader.memberCalls, MirrorsMembers] at h; subst h; rfl
  | (k, v) :: vs, pre, post, js, hms, hc, h => by
    obtain ⟨pre', m, post', rfl, rfl, hc, hcs⟩ := hc
    have hm : m ∈ ms := by rw [hms]; simp
    simp only [Reader.memberCalls, find_unique (fun e : Member × S => e.1.name) ms hn m hm, MirrorsMembers,
      ← hf.names] at h
    obtain ⟨j, js', rfl, h, hs⟩ := h
    simp only [List.map_cons, hk m hm,
      mirrors_keys st rd hf ms hn hk vs (pre ++ pre' ++ [m]) post' js' (by simp [hms]) hcs hs]

theorem membersWith_skip (f : S → Plain → Except RErr (Val F T)) (es : List (Text × Plain)) (pre rest : List (Member × S))
    (h : ∀ m ∈ pre, field es m.1.name = none) :
    membersWith f (.obj es) (pre ++ rest) = membersWith f (.obj es) rest := by
  induction pre with
  | nil => rfl
  | cons m pre ih =>
    rw [List.cons_append, membersWith]
    simp only [h m (by simp)]
    exact ih (fun m hm => h m (by simp [hm]))

theorem isNull_eq (j : Json) (h : j.isNull = true) : j = .null := by cases j <;> simp_all [Json.isNull]

theorem elementsWith_cons (f : Plain → Except RErr (Val F T)) (sparse : Bool) (j : Json) (ps : List Plain)
    (h : ¬ j.isNull = true) : elementsWith f sparse (plainOf j :: ps) = match f (plainOf j) with
      | .error e => .error e
      | .ok v => (elementsWith f sparse ps).map (v :: ·) := by
  cases j with
  | null => exact absurd rfl h
  | _ => simp only [plainOf, elementsWith]

theorem entriesWith_cons (f : Plain → Except RErr (Val F T)) (sparse : Bool) (k : Text) (j : Json)
    (ps : List (Text × Plain)) (h : ¬ j.isNull = true) : entriesWith f sparse ((k, plainOf j) :: ps) =
      match f (plainOf j) with
      | .error e => .error e
      | .ok v => (entriesWith f sparse ps).map ((k, v) :: ·) := by
  cases j with
  | null => exact absurd rfl h
  | _ => simp only [plainOf, entriesWith]

theorem mirrorsEntries_keys (st : Settings F T) (rd : Reader S F T) (s : S) : ∀ (vs : List (Text × Val F T))
    (js : List (Text × Json)), MirrorsEntries st (rd.entryCalls s vs) js → js.map Prod.fst = vs.map Prod.fst
  | [], js, h => by simp only [Reader.entryCalls, MirrorsEntries] at h; subst h; rfl
  | (k, v) :: vs, js, h => by
    simp only [Reader.entryCalls, MirrorsEntries] at h
    obtain ⟨j, js', rfl, _, hs⟩ := h
    simp [mirrorsEntries_keys st rd s vs js' hs]

mutual
theorem shape_round_trip (st : Settings F T) (rd : Reader S F T) (hrd : rd.Ok) (hf : Fits st rd) :
    ∀ (v : Val F T) (s : S) (j : Json) (n : Nat), Conforms st rd s v → Convertible st rd s v →
    Mirrors st (rd.callOf s v) j → depth v ≤ n →
    ∃ v', asShape rd n s (plainOf j) = .ok v' ∧ Same v v' ∧ (j.isNull = true → v = .document .null)
  | v, s, j, 0, _, _, _, hn => by cases v <;> simp only [depth] at hn <;> omega
  | .null, s, j, n + 1, h, _, _, _ => by cases h
  | .boolean b, s, j, n + 1, hv, _, h, _ => by
    simp only [Conforms] at hv
    simp only [Reader.callOf, Mirrors] at h; subst h
    exact ⟨_, by simp only [asShape, hv, plainOf]; rfl, rfl, fun h => by cases h⟩
  | .integer i, s, j, n + 1, hv, _, h, _ => by
    simp only [Conforms] at hv
    simp only [Reader.callOf, Mirrors] at h
    obtain ⟨t, rfl, h⟩ := h
    refine ⟨_, ?_, rfl, fun h => by cases h⟩
    simp only [asShape, hv, plainOf, numOf_integer h]
    rfl
  | .float x, s, j, n + 1, hv, hc, h, _ => by
    simp only [Conforms] at hv
    simp only [Convertible] at hc
    obtain ⟨x, rfl⟩ := hc
    simp only [Reader.callOf, Mirrors, floatJson] at h
    subst h
    obtain ⟨d, h1, h2⟩ := hf.floats x
    refine ⟨_, ?_, rfl, fun h => by cases h⟩
    simp only [asShape, hv.1, plainOf, h1, asScalar, asFloat, h2]
  | .bigDecimal x, s, j, n + 1, hv, hc, h, _ => by
    simp only [Conforms] at hv
    obtain ⟨hv, d, rfl, hd⟩ := hv
    simp only [Convertible] at hc
    have hc := hc d rfl
    simp only [Reader.callOf, Mirrors, floatJson] at h
    cases j with
    | num t =>
      obtain ⟨m, h1, rfl, h3⟩ := h.2 hd
      have hq := numOf_value h1
      rw [h3] at hq
      cases hm : numOf m.text with
      | int i => rw [hm] at hq; exact absurd ⟨i, hq.symm⟩ hc
      | dec d' =>
        rw [hm] at hq
        refine ⟨.bigDecimal (.finite d'), ?_, ⟨_, rfl, hq⟩, fun h => by cases h⟩
        simp only [asShape, hv, plainOf, hm, asScalar, asDecimal]
    | _ => cases h
  | .string t, s, j, n + 1, hv, _, h, _ => by
    simp only [Conforms] at hv
    simp only [Reader.callOf, Mirrors] at h; subst h
    exact ⟨_, by simp only [asShape, hv, plainOf]; rfl, rfl, fun h => by cases h⟩
  | .blob bs, s, j, n + 1, hv, _, h, _ => by
    simp only [Conforms] at hv
    simp only [Reader.callOf, Mirrors] at h
    obtain ⟨t, rfl, rfl⟩ := h
    refine ⟨_, ?_, rfl, fun h => by cases h⟩
    simp only [asShape, hv, plainOf, asScalar, asBlob, Base64.decode_encode]
  | .timestamp t, s, j, n + 1, hv, hc, h, _ => by
    simp only [Conforms] at hv
    obtain ⟨trait, hv, hr⟩ := hv
    simp only [Convertible] at hc
    have hc := hc trait hv
    simp only [Reader.callOf, hv, Mirrors] at h
    unfold Restores at hr
    have hd : rd.defaultFormat = stampFormat st trait := by rw [hf.default, hc]
    generalize stampFormat st trait = f at h hr hd
    have htext : ∀ x, st.serialize f t = .text x → rd.deserialize f (.text x) = some t →
        ∃ v', asShape rd (n + 1) s (plainOf j) = .ok v' ∧ Same (.timestamp t) v' ∧
          (j.isNull = true → Val.timestamp t = .document (.null) (F := F)) := by
      intro x h1 h2
      rw [h1] at h
      subst h
      refine ⟨.timestamp t, ?_, rfl, fun h => by cases h⟩
      simp only [asShape, hv, plainOf, asScalar, asTimestamp, stampOf, hd, h2]
    cases f with
    | epochSeconds =>
      rcases hr with ⟨i, h1, h2⟩ | ⟨x, h1, h2⟩
      · rw [h1] at h
        obtain ⟨x, rfl, h⟩ := h
        refine ⟨.timestamp t, ?_, rfl, fun h => by cases h⟩
        simp only [asShape, hv, plainOf, numOf_integer h, asScalar, asTimestamp, stampOf, hd, h2]
      · rw [h1] at h
        simp only [floatJson] at h
        subst h
        obtain ⟨d, h3, h4⟩ := hf.floats x
        refine ⟨.timestamp t, ?_, rfl, fun h => by cases h⟩
        simp only [asShape, hv, plainOf, h3, h4, asScalar, asTimestamp, stampOf, hd, h2]
    | dateTime => obtain ⟨x, h1, h2⟩ := hr; exact htext x h1 h2
    | httpDate => obtain ⟨x, h1, h2⟩ := hr; exact htext x h1 h2
  | .document p, s, j, n + 1, hv, _, h, _ => by
    simp only [Conforms] at hv
    simp only [Reader.callOf] at h
    obtain ⟨h1, h2⟩ := doc_round_trip st p j hv.2 h
    exact ⟨.document (plainOf j), by simp only [asShape, hv.1], ⟨_, rfl, h1⟩, fun h => by rw [h2 h]⟩
  | .struct es, s, j, n + 1, hv, hc, h, hn => by
    simp only [Conforms] at hv
    obtain ⟨ms, hv, hcm⟩ := hv
    simp only [Convertible] at hc
    obtain ⟨hk, hc⟩ := hc ms hv
    simp only [Reader.callOf, hv, Mirrors] at h
    obtain ⟨js, rfl, h⟩ := h
    simp only [depth] at hn
    have hnd := (hrd s ms (.inl hv)).1
    have hkeys := mirrors_keys st rd hf ms hnd hk es [] ms js rfl hcm h
    have hjn : (js.map Prod.fst).Nodup := by
      rw [hkeys]; exact (members_keys st rd es ms hcm).nodup hnd
    obtain ⟨fs, h1, h2⟩ := shapeMembers_round_trip st rd hrd hf es [] ms ms js (js.map fun e => (e.1, plainOf e.2)) n
      rfl hnd hk hcm hc h (by omega) (fun k j hj => field_mem js hjn k j hj)
      (fun m _ hm => field_none js _ (by rw [hkeys]; exact hm))
    refine ⟨.struct fs, ?_, ⟨fs, rfl, h2⟩, fun h => by cases h⟩
    simp only [asShape, hv, plainOf, fieldsOf_eq js [] (by simpa using hjn), List.nil_append, h1]
    rfl
  | .union k v, s, j, n + 1, hv, hc, h, hn => by
    simp only [Conforms] at hv
    obtain ⟨ms, m, hv, hm, rfl, hcv⟩ := hv
    simp only [Convertible] at hc
    obtain ⟨hk, hc⟩ := hc ms hv
    obtain ⟨hn1, _⟩ := hrd s ms (.inr hv)
    simp only [depth] at hn
    simp only [Reader.callOf, hv, find_unique (fun e : Member × S => e.1.name) ms hn1 m hm, Mirrors,
      MirrorsMembers, ← hf.names] at h
    obtain ⟨_, rfl, j, _, rfl, h, rfl⟩ := h
    obtain ⟨v', h1, h2, _⟩ := shape_round_trip st rd hrd hf v m.2 j n hcv (hc m hm rfl) h (by omega)
    refine ⟨.union m.1.name v', ?_, ⟨_, rfl, h2⟩, fun h => by cases h⟩
    obtain ⟨pre, post, rfl⟩ := List.append_of_mem hm
    simp only [List.map_append, List.map_cons] at hn1
    have hn2 := List.nodup_append.1 hn1
    have hskip : ∀ l : List (Member × S), (∀ x ∈ l, x.1.name ≠ m.1.name) →
        ∀ x ∈ l, field [(m.1.name, plainOf j)] x.1.name = none := by
      intro l hl x hx
      simp only [field, Option.map_eq_none_iff, List.find?_eq_none, List.mem_singleton]
      rintro y rfl
      simpa using (hl x hx).symm
    have hpre := hskip pre (fun x hx => hn2.2.2 x.1.name (List.mem_map.2 ⟨x, hx, rfl⟩) m.1.name (by simp))
    have hpost := hskip post (fun x hx he => (List.nodup_cons.1 hn2.2.1).1 (List.mem_map.2 ⟨x, hx, he⟩))
    have hp : membersWith (asShape rd n) (.obj [(m.1.name, plainOf j)]) post = .ok [] := by
      have := membersWith_skip (asShape rd n) [(m.1.name, plainOf j)] post [] hpost
      rwa [List.append_nil] at this
    simp only [asShape, hv, plainOf, fieldsOf, put, hk m hm, membersWith_skip _ _ pre _ hpre]
    rw [membersWith]
    simp only [field, List.find?_cons, decide_true, Option.map_some, h1, hp]
    rfl
  | .list vs, s, j, n + 1, hv, hc, h, hn => by
    simp only [Conforms] at hv
    obtain ⟨sparse, s', hv, hcv⟩ := hv
    simp only [Convertible] at hc
    simp only [depth] at hn
    simp only [Reader.callOf, hv, Mirrors] at h
    obtain ⟨js, rfl, h⟩ := h
    obtain ⟨ws, h1, h2⟩ := shapeElements_round_trip st rd hrd hf vs sparse s' js n hcv (hc sparse s' hv) h (by omega)
    refine ⟨.list ws, ?_, ⟨ws, rfl, h2⟩, fun h => by cases h⟩
    simp only [asShape, hv, plainOf, plainsOf_eq, List.nil_append, h1]
    rfl
  | .map es, s, j, n + 1, hv, hc, h, hn => by
    simp only [Conforms] at hv
    obtain ⟨sparse, s', hv, hnd, hcv⟩ := hv
    simp only [Convertible] at hc
    simp only [depth] at hn
    simp only [Reader.callOf, hv, Mirrors] at h
    obtain ⟨js, rfl, h⟩ := h
    have hkeys := mirrorsEntries_keys st rd s' es js h
    obtain ⟨ws, h1, h2⟩ := shapeEntries_round_trip st rd hrd hf es sparse s' js n hcv (hc sparse s' hv) h (by omega)
    refine ⟨.map ws, ?_, ⟨ws, rfl, h2⟩, fun h => by cases h⟩
    simp only [asShape, hv, plainOf, fieldsOf_eq js [] (by rw [hkeys]; simpa using hnd), List.nil_append, h1]
    rfl
termination_by structural v => v
theorem shapeMembers_round_trip (st : Settings F T) (rd : Reader S F T) (hrd : rd.Ok) (hf : Fits st rd) :
    ∀ (vs : List (Text × Val F T)) (pre ms post : List (Member × S)) (js : List (Text × Json))
      (es : List (Text × Plain)) (n : Nat), ms = pre ++ post → (ms.map fun e => e.1.name).Nodup →
    (∀ m ∈ ms, jsonKey rd.useJsonName m.1 = m.1.name) → ConformsMembers st rd post vs →
    ConvertibleMembers st rd ms vs → MirrorsMembers st (rd.memberCalls ms vs) js → depths vs ≤ n →
    (∀ k j, (k, j) ∈ js → field es k = some (plainOf j)) →
    (∀ m ∈ post, m.1.name ∉ vs.map Prod.fst → field es m.1.name = none) →
    ∃ fs, membersWith (asShape rd n) (.obj es) post = .ok fs ∧ SameEntries vs fs
  | [], pre, ms, post, js, es, n, _, _, _, _, _, _, _, _, hout => by
    have := membersWith_skip (asShape rd n) es post [] (fun m hm => hout m hm (by simp))
    rw [List.append_nil] at this
    exact ⟨[], this, rfl⟩
  | (k, v) :: vs, pre, ms, post, js, es, n, hms, hnd, hk, hcm, hcv, h, hn, hin, hout => by
    simp only [ConformsMembers] at hcm
    obtain ⟨pre', m, post', rfl, rfl, hcm, hcs⟩ := hcm
    have hm : m ∈ ms := by rw [hms]; simp
    simp only [Reader.memberCalls, find_unique (fun e : Member × S => e.1.name) ms hnd m hm, MirrorsMembers,
      ← hf.names, hk m hm] at h
    obtain ⟨j, js', rfl, h, hs⟩ := h
    simp only [depths] at hn
    obtain ⟨v', h1, h2, _⟩ := shape_round_trip st rd hrd hf v m.2 j n hcm (hcv.1 m hm rfl) h (by omega)
    have hnd' : ((pre' ++ m :: post').map fun e => e.1.name).Nodup := by
      rw [hms, List.map_append, List.nodup_append] at hnd
      exact hnd.2.1
    simp only [List.map_append, List.map_cons] at hnd'
    have hnd' := List.nodup_append.1 hnd'
    have hsub := (members_keys st rd vs post' hcs).subset
    obtain ⟨fs, h4, h5⟩ := shapeMembers_round_trip st rd hrd hf vs (pre ++ pre' ++ [m]) ms post' js' es n
      (by simp [hms]) hnd hk hcs hcv.2 hs (by omega) (fun k j hj => hin k j (by simp [hj])) (by
        intro x hx hxv
        refine hout x (by simp [hx]) ?_
        simp only [List.map_cons, List.mem_cons, not_or]
        refine ⟨fun he => ?_, hxv⟩
        exact (List.nodup_cons.1 hnd'.2.1).1 (List.mem_map.2 ⟨x, hx, he⟩))
    have hpre : ∀ x ∈ pre', field es x.1.name = none := by
      intro x hx
      have hx' : x.1.name ∈ pre'.map fun e => e.1.name := List.mem_map.2 ⟨x, hx, rfl⟩
      refine hout x (by simp [hx]) ?_
      simp only [List.map_cons, List.mem_cons, not_or]
      exact ⟨hnd'.2.2 _ hx' m.1.name (by simp), fun he => hnd'.2.2 _ hx' _ (by simp [hsub he]) rfl⟩
    refine ⟨(m.1.name, v') :: fs, ?_, _, _, rfl, h2, h5⟩
    rw [membersWith_skip _ _ pre' _ hpre, membersWith]
    simp only [hin m.1.name j (by simp), h1, h4]
    rfl
theorem shapeElements_round_trip (st : Settings F T) (rd : Reader S F T) (hrd : rd.Ok) (hf : Fits st rd) :
    ∀ (vs : List (Val F T)) (sparse : Bool) (s : S) (js : List Json) (n : Nat), ConformsElements st rd sparse s vs →
    ConvertibleElements st rd s vs → MirrorsElements st (rd.elementCalls s vs) js → elementDepths vs ≤ n →
    ∃ ws, elementsWith (asShape rd n s) sparse (js.map plainOf) = .ok ws ∧ SameElements vs ws
  | [], sparse, s, js, n, _, _, h, _ => by
    simp only [Reader.elementCalls, MirrorsElements] at h; subst h
    exact ⟨[], rfl, rfl⟩
  | v :: vs, sparse, s, js, n, hc, hcv, h, hn => by
    simp only [Reader.elementCalls, MirrorsElements] at h
    obtain ⟨j, js', rfl, h, hs⟩ := h
    simp only [elementDepths] at hn
    obtain ⟨ws, h4, h5⟩ := shapeElements_round_trip st rd hrd hf vs sparse s js' n hc.2 hcv.2 hs (by omega)
    rcases hc.1 with ⟨rfl, rfl⟩ | ⟨hne, hc⟩
    · simp only [Reader.callOf, Mirrors] at h; subst h
      exact ⟨.null :: ws, by simp only [List.map_cons, plainOf, elementsWith, h4]; rfl, _, _, rfl, rfl, h5⟩
    · obtain ⟨v', h1, h2, h3⟩ := shape_round_trip st rd hrd hf v s j n hc hcv.1 h (by omega)
      have hj : ¬ j.isNull = true := fun hj => hne (h3 hj)
      refine ⟨v' :: ws, ?_, _, _, rfl, h2, h5⟩
      rw [List.map_cons, elementsWith_cons _ _ _ _ hj, h1, h4]; rfl
theorem shapeEntries_round_trip (st : Settings F T) (rd : Reader S F T) (hrd : rd.Ok) (hf : Fits st rd) :
    ∀ (vs : List (Text × Val F T)) (sparse : Bool) (s : S) (js : List (Text × Json)) (n : Nat),
    ConformsEntries st rd sparse s vs → ConvertibleEntries st rd s vs → MirrorsEntries st (rd.entryCalls s vs) js →
    depths vs ≤ n →
    ∃ ws, entriesWith (asShape rd n s) sparse (js.map fun e => (e.1, plainOf e.2)) = .ok ws ∧ SameEntries vs ws
  | [], sparse, s, js, n, _, _, h, _ => by
    simp only [Reader.entryCalls, MirrorsEntries] at h; subst h
    exact ⟨[], rfl, rfl⟩
  | (k, v) :: vs, sparse, s, js, n, hc, hcv, h, hn => by
    simp only [Reader.entryCalls, MirrorsEntries] at h
    obtain ⟨j, js', rfl, h, hs⟩ := h
    simp only [depths] at hn
    obtain ⟨ws, h4, h5⟩ := shapeEntries_round_trip st rd hrd hf vs sparse s js' n hc.2 hcv.2 hs (by omega)
    rcases hc.1 with ⟨rfl, rfl⟩ | ⟨hne, hc⟩
    · simp only [Reader.callOf, Mirrors] at h; subst h
      exact ⟨(k, .null) :: ws, by simp only [List.map_cons, plainOf, entriesWith, h4]; rfl, _, _, rfl, rfl, h5⟩
    · obtain ⟨v', h1, h2, h3⟩ := shape_round_trip st rd hrd hf v s j n hc hcv.1 h (by omega)
      have hj : ¬ j.isNull = true := fun hj => hne (h3 hj)
      refine ⟨(k, v') :: ws, ?_, _, _, rfl, h2, h5⟩
      rw [List.map_cons, entriesWith_cons _ _ _ _ _ hj, h1, h4]; rfl
end

/-! ## Theorems -/

/-- **C84 (partial).**  A value that is written as JSON, read as a document and then converted to its shape is the same
again.  The document is read where one is expected (`doc`).  Missing: the values that are not `Convertible`, see the
theorems below, and those that JSON cannot carry at all, see C43 and C44. -/
theorem C84_document_partial (st : Settings F T) (hst : st.Ok) (rd : Reader S F T) (hrd : rd.Ok) (hf : Fits st rd)
    (s doc : S) (hdoc : rd.view doc = .document) (v : Val F T) (hv : Conforms st rd s v) (hc : Convertible st rd s v) :
    ∃ j, IsJsonText (write st [] (rd.callOf s v)) j ∧
      (RootOk j → ∃ p, rd.run doc (events [] j) = .ok (.document p) ∧
        ∀ n, depth v ≤ n → ∃ v', asShape rd n s p = .ok v' ∧ Same v v') := by
  obtain ⟨j, h1, h2, h3⟩ := C43_well_formed_partial st hst _ (noNan_call st rd hrd v s hv)
  refine ⟨j, h1, fun hroot => ⟨plainOf j, ?_, fun n hn => ?_⟩⟩
  · rw [run_spec rd doc j (fun _ => hroot)]
    cases j <;> simp only [Reader.decode, hdoc] <;> rfl
  · obtain ⟨v', h4, h5, _⟩ := shape_round_trip st rd hrd hf v s j n hv hc h2 hn
    exact ⟨v', h4, h5⟩

/-- **C84 (negative).**  A member with a JSON name of its own is lost without an error when the structure is converted
from a document, although it is read from the same JSON directly. -/
theorem C84_json_name_fails (rd : Reader S F T) (s s' : S) (name json t : Text) (n : Nat) (hne : json ≠ name)
    (hu : rd.useJsonName = true) (hs : rd.view s = .struct [(⟨name, some json⟩, s')]) (hs' : rd.view s' = .string) :
    rd.decode s (.obj [(json, .str t)]) = .ok (.struct [(name, .string t)]) ∧
    asShape rd (n + 1) s (plainOf (.obj [(json, .str t)])) = .ok (.struct []) := by
  constructor
  · simp [Reader.decode, hs, Reader.decodeMembers, Reader.resolve, hu, hs', Json.isNull, Reader.readScalar,
      readString, Except.map, consume, put, finish]
  · simp [asShape, hs, plainOf, fieldsOf, put, membersWith, field, hne, Except.map]

/-- **C84 (negative).**  The timestamp format of a member is ignored: the default format is used for the text. -/
theorem C84_timestamp_format_fails (rd : Reader S F T) (s : S) (t : Text) (x : T) (n : Nat)
    (hs : rd.view s = .timestamp (some .dateTime)) (hu : rd.useTimestampFormat = true)
    (hd : rd.defaultFormat = .epochSeconds) (h1 : rd.deserialize .dateTime (.text t) = some x)
    (h2 : rd.deserialize .epochSeconds (.text t) = none) :
    rd.decode s (.str t) = .ok (.timestamp x) ∧ asShape rd (n + 1) s (plainOf (.str t)) = .error .value := by
  constructor
  · simp [Reader.decode, hs, Reader.readScalar, Reader.readTimestamp, hu, readString, Except.map, h1]
  · simp [asShape, hs, plainOf, asScalar, asTimestamp, stampOf, hd, h2]

/-- **C84 (negative).**  A float that is written without a fraction, and one that is infinite, cannot be converted. -/
theorem C84_float_fails (rd : Reader S F T) (s : S) (n : Nat) (hs : rd.view s = .float) :
    rd.decode s (.num "1".toList) = .ok (.integer 1) ∧
    asShape rd (n + 1) s (plainOf (.num "1".toList)) = .error .token ∧
    rd.decode s (.str "Infinity".toList) = .ok (.float (.inf false)) ∧
    asShape rd (n + 1) s (plainOf (.str "Infinity".toList)) = .error .token := by
  have h1 : numOf "1".toList = .int 1 := by decide +kernel
  refine ⟨?_, ?_, ?_, ?_⟩
  · simp only [Reader.decode, hs, h1, Reader.readScalar, Reader.readFloat]
  · simp only [asShape, hs, plainOf, h1, asScalar, asFloat]
  · simp only [Reader.decode, hs, Reader.readScalar, Reader.readFloat, if_true]
  · simp only [asShape, hs, plainOf, asScalar, asFloat]

/-- **C84 (negative).**  A whole number cannot be converted to a big decimal. -/
theorem C84_decimal_fails (rd : Reader S F T) (s : S) (n : Nat) (hs : rd.view s = .bigDecimal) :
    rd.decode s (.num "1".toList) = .ok (.bigDecimal (.finite ⟨false, 1, 0⟩)) ∧
    asShape rd (n + 1) s (plainOf (.num "1".toList)) = .error .token := by
  have h1 : numOf "1".toList = .int 1 := by decide +kernel
  refine ⟨?_, ?_⟩
  · simp only [Reader.decode, hs, h1, Reader.readScalar, readBigDecimal]; rfl
  · simp only [asShape, hs, plainOf, h1, asScalar, asDecimal]

/-- **C84 (negative).**  A member that is null is left out when it is read directly, but raises an exception when the
structure is converted from a document. -/
theorem C84_null_member_fails (rd : Reader S F T) (s s' : S) (name : Text) (n : Nat)
    (hs : rd.view s = .struct [(⟨name, none⟩, s')]) (hs' : rd.view s' = .string) :
    rd.decode s (.obj [(name, .null)]) = .ok (.struct []) ∧
    asShape rd (n + 2) s (plainOf (.obj [(name, .null)])) = .error .token := by
  constructor
  · have hr : rd.resolve [(⟨name, none⟩, s')] name = some (⟨name, none⟩, s') := by
      unfold Reader.resolve; cases rd.useJsonName <;> simp
    simp [Reader.decode, hs, Reader.decodeMembers, hr, hs', Json.isNull, View.isDocument, finish]
  · simp [asShape, hs, plainOf, fieldsOf, put, membersWith, field, hs', asScalar, Except.map]

/-- **C84.**  Members that the schema does not know make no difference to the conversion. -/
theorem C84_unknown (rd : Reader S F T) (s : S) (ms : List (Member × S)) (hs : rd.view s = .struct ms ∨ rd.view s = .union ms)
    (es es' : List (Text × Plain)) (h : ∀ m ∈ ms, field es m.1.name = field es' m.1.name) (n : Nat) :
    asShape rd n s (.obj es) = asShape rd n s (.obj es') := by
  cases n with
  | zero => rfl
  | succ n =>
    have key : ∀ l : List (Member × S), (∀ m ∈ l, m ∈ ms) →
        membersWith (asShape rd n) (.obj es) l = membersWith (asShape rd n) (.obj es') l := by
      intro l hl
      induction l with
      | nil => rfl
      | cons m l ih =>
        simp only [membersWith, h m (hl m (by simp)), ih (fun m hm => hl m (by simp [hm]))]
    rcases hs with hs | hs <;> simp only [asShape, hs, key ms fun _ h => h]

end

/-! ## The hypotheses are met -/

/-- The reader of the example of C44, without JSON names and timestamp formats (schema 0), beside the one with them. -/
def docReader : Reader Nat Unit Unit where
  view
    | 0 => .struct [(⟨['a'], none⟩, 1), (⟨['b'], none⟩, 3), (⟨['c'], none⟩, 5), (⟨['d'], some ['d']⟩, 6),
        (⟨['f'], none⟩, 8), (⟨['g'], none⟩, 9), (⟨['h'], none⟩, 10), (⟨['i'], none⟩, 0)]
    | 1 => .list true 2
    | 2 => .integer
    | 3 => .map false 4
    | 4 => .float
    | 5 => .blob
    | 6 => .timestamp none
    | 8 => .bigDecimal
    | 9 => .document
    | 10 => .union [(⟨['u'], none⟩, 9), (⟨['v'], none⟩, 2)]
    | _ => .boolean
  useJsonName := true
  useTimestampFormat := true
  defaultFormat := .epochSeconds
  float := fun _ => .finite ()
  deserialize := fun _ _ => some ()

def docValue : Val Unit Unit :=
  .struct [(['a'], .list [.null, .integer (-3)]), (['b'], .map [(['k'], .float (.finite ()))]),
    (['c'], .blob [1, 2]), (['d'], .timestamp ()), (['f'], .bigDecimal (.finite ⟨true, 150, -2⟩)),
    (['g'], .document (.obj [([], .arr [.null])])), (['h'], .union ['u'] (.document .null)), (['i'], .struct [])]

theorem docReader_ok : docReader.Ok := by
  intro s ms h
  match s with
  | 0 =>
    rcases h with h | h
    · cases h; decide
    · cases h
  | 10 =>
    rcases h with h | h
    · cases h
    · cases h; decide
  | 1 | 2 | 3 | 4 | 5 | 6 | 7 | 8 | 9 | _ + 11 => rcases h with h | h <;> cases h

theorem doc_fits : Fits exampleSettings docReader :=
  have h : numOf ['1', '.', '5'] = .dec ⟨false, 15, -1⟩ := by decide +kernel
  ⟨rfl, rfl, rfl, fun _ => ⟨⟨false, 15, -1⟩, h, rfl⟩⟩

theorem doc_fraction : ¬ ∃ n : Int, (⟨true, 150, -2⟩ : Dec).value = n := by
  rintro ⟨n, h⟩
  have h2 : (⟨true, 150, -2⟩ : Dec).value = -3 / 2 := by simp only [Dec.value]; norm_num
  rw [h2] at h
  have h3 : ((2 * n : Int) : ℚ) = ((-3 : Int) : ℚ) := by push_cast; linarith
  have h4 : 2 * n = -3 := by exact_mod_cast h3
  omega

example : Conforms exampleSettings docReader 0 docValue ∧ Convertible exampleSettings docReader 0 docValue ∧
    docReader.view 9 = .document := by
  refine ⟨⟨_, rfl, ?_⟩, ?_, rfl⟩
  · refine ⟨[], _, _, rfl, rfl, ⟨true, 2, rfl, .inl ⟨rfl, rfl⟩, .inr ⟨by simp, rfl⟩, trivial⟩, ?_⟩
    refine ⟨[], _, _, rfl, rfl, ⟨false, 4, rfl, by simp, .inr ⟨by simp, rfl, by simp⟩, trivial⟩, ?_⟩
    refine ⟨[], _, _, rfl, rfl, rfl, [], _, _, rfl, rfl, ⟨none, rfl, .inl ⟨7, rfl, rfl⟩⟩, ?_⟩
    refine ⟨[], _, _, rfl, rfl, ⟨rfl, ⟨true, 150, -2⟩, rfl, by decide +kernel⟩, ?_⟩
    refine ⟨[], _, _, rfl, rfl, ⟨rfl, by simp, ⟨trivial, trivial⟩, trivial⟩, ?_⟩
    refine ⟨[], _, _, rfl, rfl, ⟨_, (⟨['u'], none⟩, 9), rfl, by simp, rfl, rfl, trivial⟩, ?_⟩
    exact ⟨[], _, _, rfl, rfl, ⟨_, rfl, trivial⟩, trivial⟩
  · rintro ms hms
    cases hms
    refine ⟨by decide, ?_⟩
    refine ⟨fun m hm hk => ?_, fun m hm hk => ?_, fun _ _ _ => trivial, fun m hm hk => ?_, fun _ _ _ => ?_,
      fun _ _ _ => trivial, fun m hm hk => ?_, fun m hm hk => ?_, trivial⟩
    · intro _ _ _; exact ⟨trivial, trivial, trivial⟩
    · intro _ _ _; exact ⟨⟨_, rfl⟩, trivial⟩
    · have : m = (⟨['d'], some ['d']⟩, 6) := by
        simp only [List.mem_cons, List.not_mem_nil, or_false] at hm
        rcases hm with rfl | rfl | rfl | rfl | rfl | rfl | rfl | rfl <;> first | rfl | simp at hk
      subst this
      intro trait ht
      cases ht
      rfl
    · rintro d hd
      cases hd
      exact doc_fraction
    · have : m = (⟨['h'], none⟩, 10) := by
        simp only [List.mem_cons, List.not_mem_nil, or_false] at hm
        rcases hm with rfl | rfl | rfl | rfl | rfl | rfl | rfl | rfl <;> first | rfl | simp at hk
      subst this
      intro ms hms
      cases hms
      exact ⟨by decide, fun _ _ _ => trivial⟩
    · have : m = (⟨['i'], none⟩, 0) := by
        simp only [List.mem_cons, List.not_mem_nil, or_false] at hm
        rcases hm with rfl | rfl | rfl | rfl | rfl | rfl | rfl | rfl <;> first | rfl | simp at hk
      subst this
      intro ms hms
      cases hms
      exact ⟨by decide, trivial⟩

/-- The example of C44 has a member with a JSON name and one with a timestamp format; a reader meets the hypotheses of
the negative theorems. -/
example : ∃ rd : Reader Nat Unit Unit, rd.view 0 = .struct [(⟨['a'], some ['x']⟩, 1)] ∧ rd.view 1 = .string ∧
    rd.useJsonName = true ∧ rd.view 2 = .timestamp (some .dateTime) ∧ rd.useTimestampFormat = true ∧
    rd.defaultFormat = .epochSeconds ∧ rd.deserialize .dateTime (.text ['t']) = some () ∧
    rd.deserialize .epochSeconds (.text ['t']) = none ∧ rd.view 3 = .float ∧ rd.view 4 = .bigDecimal ∧
    rd.view 5 = .struct [(⟨['a'], none⟩, 1)] :=
  ⟨{ view := fun
      | 0 => .struct [(⟨['a'], some ['x']⟩, 1)]
      | 1 => .string
      | 2 => .timestamp (some .dateTime)
      | 3 => .float
      | 4 => .bigDecimal
      | _ => .struct [(⟨['a'], none⟩, 1)]
     useJsonName := true, useTimestampFormat := true, defaultFormat := .epochSeconds
     float := fun _ => .finite ()
     deserialize := fun f _ => if f = .epochSeconds then none else some () },
    rfl, rfl, rfl, rfl, rfl, rfl, rfl, rfl, rfl, rfl, rfl⟩

end Verif.Json.Documents
