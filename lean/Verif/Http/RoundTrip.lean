import Verif.Http.Response
import Std.Data.String.ToNat

/-!
# Responses written and read (C80)

What `HTTPResponseSerializer` (smithy_http/serializers.py:270-388) writes, as modelled by `serializeResponse`, read by
`HTTPResponseDeserializer` (smithy_http/deserializers.py:41-153), as modelled by `readStruct`: every member is handed
the text, entries or bytes that were written for it.
-/

set_option autoImplicit false

namespace Verif.Http.RoundTrip

open Verif.Http Verif.Http.Reading
open Verif.Fields (Field)
open Verif.HeaderText (asString)

/-! ## Specification -/

/-- A response as the other side gets it, its body already in memory. -/
def received (r : Response) (b : Bytes) : Incoming := { status := r.status, fields := r.fields, body := .bytes b }

/-- Where every member of a response goes. -/
def Locates (loc : Member → Binding) : Prop := ∀ m, Located responsePrecedence m (loc m)

/-- The names that a write uses for headers. -/
def namesOf (loc : Member → Binding) (w : Member × Val) : List Text := (headersOf loc [w]).map Prod.fst

/-- The names that the serializer uses for headers of its own. -/
def ownNames : List Text := ["content-type".toList, "content-length".toList]

variable {V E : Type}

/-! ## Lemmas -/

theorem headersOf_append (loc : Member → Binding) (a b : List (Member × Val)) :
    headersOf loc (a ++ b) = headersOf loc a ++ headersOf loc b := by
  simp [headersOf]

theorem headersOf_flatMap (loc : Member → Binding) (ws : List (Member × Val)) :
    headersOf loc ws = ws.flatMap fun w => headersOf loc [w] := by
  induction ws with
  | nil => rfl
  | cons w ws ih => rw [headersOf_cons, ih]; rfl

theorem valuesOf_nil_iff (lower : Text → Text) (hs : List (Text × Text)) (k : Text) :
    valuesOf lower hs k = [] ↔ ∀ h ∈ hs, lower h.1 ≠ lower k := by
  simp [valuesOf, List.filter_eq_nil_iff]

/-- The headers of the others contribute nothing. -/
theorem valuesOf_alone (lower : Text → Text) (loc : Member → Binding) (pre post : List (Member × Val))
    (w : Member × Val) (k : Text) (h : ∀ x ∈ pre ++ post, ∀ n ∈ namesOf loc x, lower n ≠ lower k) :
    valuesOf lower (headersOf loc (pre ++ w :: post)) k = valuesOf lower (headersOf loc [w]) k := by
  have none_of : ∀ ws : List (Member × Val), (∀ x ∈ ws, ∀ n ∈ namesOf loc x, lower n ≠ lower k) →
      valuesOf lower (headersOf loc ws) k = [] := by
    intro ws hws
    rw [valuesOf_nil_iff, headersOf_flatMap]
    intro p hp
    rw [List.mem_flatMap] at hp
    obtain ⟨x, hx, hp⟩ := hp
    exact hws x hx _ (List.mem_map_of_mem hp)
  rw [headersOf_append, headersOf_cons, valuesOf_append, valuesOf_append,
    none_of pre fun x hx => h x (by simp [hx]), none_of post fun x hx => h x (by simp [hx])]
  simp

theorem distinct_fold (lower : Text → Text) (hs : List (Text × Text)) : ∀ c : List (Field Text),
    Fields.Distinct lower c →
    Fields.Distinct lower (hs.foldl (fun c t => Fields.merge lower c ⟨t.1, [t.2], .header⟩) c) := by
  induction hs with
  | nil => intro c h; exact h
  | cons t hs ih => intro c h; exact ih _ (distinct_merge lower c _ h)

theorem distinct_toFields (env : Env) (hs : List (Text × Text)) : Fields.Distinct env.lower (toFields env hs) := by
  simp only [toFields, Fields.C25_from_tuples, Option.getD_none]
  exact distinct_fold _ _ _ List.Pairwise.nil

/-- A field has the name of some header as it was written. -/
theorem merge_name (lower : Text → Text) (c : List (Field Text)) (f g : Field Text)
    (h : g ∈ Fields.merge lower c f) : g.name = f.name ∨ ∃ g' ∈ c, g.name = g'.name := by
  unfold Fields.merge at h
  split at h
  · rw [List.mem_map] at h
    obtain ⟨g', hg', rfl⟩ := h
    right
    refine ⟨g', hg', ?_⟩
    split <;> rfl
  · rw [List.mem_append] at h
    rcases h with h | h
    · exact .inr ⟨g, h, rfl⟩
    · simp only [List.mem_singleton] at h
      exact .inl (by rw [h])

theorem fold_name (lower : Text → Text) (hs : List (Text × Text)) : ∀ (c : List (Field Text)) (g : Field Text),
    g ∈ hs.foldl (fun c t => Fields.merge lower c ⟨t.1, [t.2], .header⟩) c →
    (∃ h ∈ hs, g.name = h.1) ∨ ∃ g' ∈ c, g.name = g'.name := by
  induction hs with
  | nil => intro c g h; exact .inr ⟨g, h, rfl⟩
  | cons t hs ih =>
    intro c g h
    rcases ih _ g h with ⟨x, hx, hn⟩ | ⟨g', hg', hn⟩
    · exact .inl ⟨x, by simp [hx], hn⟩
    · rcases merge_name lower c _ g' hg' with h1 | ⟨g2, h1, h2⟩
      · exact .inl ⟨t, by simp, hn.trans h1⟩
      · exact .inr ⟨g2, h1, hn.trans h2⟩

theorem toFields_name (env : Env) (hs : List (Text × Text)) (f : Field Text) (h : f ∈ toFields env hs) :
    ∃ x ∈ hs, f.name = x.1 := by
  simp only [toFields, Fields.C25_from_tuples, Option.getD_none] at h
  rcases fold_name _ _ _ _ h with h | ⟨_, h, _⟩
  · exact h
  · cases h

theorem distinct_unique (lower : Text → Text) : ∀ (fs : List (Field Text)), Fields.Distinct lower fs →
    ∀ {f g : Field Text}, f ∈ fs → g ∈ fs → lower f.name = lower g.name → f = g := by
  intro fs
  induction fs with
  | nil => intro _ f g h; cases h
  | cons x fs ih =>
    intro hd f g hf hg hn
    unfold Fields.Distinct at hd
    rw [List.pairwise_cons] at hd
    rcases List.mem_cons.1 hf with h1 | h1 <;> rcases List.mem_cons.1 hg with h2 | h2
    · rw [h1, h2]
    · exact absurd (h1 ▸ hn) (hd.1 g h2)
    · exact absurd (h2 ▸ hn).symm (hd.1 f h1)
    · exact ih hd.2 h1 h2 hn

theorem field_values (lower : Text → Text) (fs : List (Field Text)) (hd : Fields.Distinct lower fs) (f : Field Text)
    (hf : f ∈ fs) : f.values = fieldValues lower fs f.name := by
  let env : REnv Unit Unit := { lower := lower, int := fun _ => none, decode := fun _ _ => .ok [] }
  rcases find_spec env fs hd f.name with ⟨_, h⟩ | ⟨g, _, h2, h3, h4⟩
  · exact absurd rfl (h f hf)
  · have : g = f := by
      exact distinct_unique lower fs hd h2 hf h3
    rw [← this]
    have h4' : g.values = fieldValues lower fs f.name := h4
    rw [this] at h4' ⊢
    exact h4'

theorem mem_of_fieldValues (lower : Text → Text) (fs : List (Field Text)) (k : Text)
    (h : fieldValues lower fs k ≠ []) : ∃ f ∈ fs, lower f.name = lower k := by
  by_contra hn
  push Not at hn
  apply h
  unfold fieldValues
  rw [List.filter_eq_nil_iff.2 (by simpa using hn)]
  rfl

theorem extra_names (env : Env) (ct : Option Text) (len : Option Nat) (h : Text × Text)
    (hh : h ∈ extraHeaders env ct len) : h.1 ∈ ownNames := by
  unfold extraHeaders at hh
  cases ct <;> cases len <;> simp at hh <;> rcases hh with rfl | rfl <;> simp [ownNames]

/-- The values under a name the serializer does not use itself. -/
theorem values_written {env : Env} {errorStatus : Option Text} {code : Text} {omitEmpty : Bool} {ms : List Member}
    {ws : List (Member × Val)} {r : Response} (h : serializeResponse env errorStatus code omitEmpty ms ws = .ok r)
    {loc : Member → Binding} (hloc : Locates loc) {k : Text} (hk : ∀ n ∈ ownNames, env.lower n ≠ env.lower k) :
    fieldValues env.lower r.fields k = valuesOf env.lower (headersOf loc ws) k :=
  (C29_response_contents env errorStatus code omitEmpty ms ws r h loc hloc).1 k
    (hk _ (by simp [ownNames])).symm (hk _ (by simp [ownNames])).symm

theorem fields_distinct {env : Env} {errorStatus : Option Text} {code : Text} {omitEmpty : Bool} {ms : List Member}
    {ws : List (Member × Val)} {r : Response} (h : serializeResponse env errorStatus code omitEmpty ms ws = .ok r) :
    Fields.Distinct env.lower r.fields := by
  obtain ⟨_, _, _, _, hf, _⟩ := serializeResponse_ok h
  rw [hf]
  exact distinct_toFields _ _

/-! ## Theorems -/

/-- **C80**, headers: a member bound to a header whose name no other write uses is handed the text that was written
for it, or the texts if it is a list; if nothing is written, or an empty list, it is not read. -/
theorem C80_header (env : Env) (renv : REnv V E) (hlower : renv.lower = env.lower)
    (errorStatus : Option Text) (code : Text) (omitEmpty : Bool) (ms : List Member) (ws : List (Member × Val))
    (r : Response) (h : serializeResponse env errorStatus code omitEmpty ms ws = .ok r)
    (loc : Member → Binding) (hloc : Locates loc)
    (b : Bytes) (body : Option Content) (calls : List (Member × Source V))
    (hread : readStruct renv (received r b) body ms = .ok calls)
    (m : Member) (hm : m ∈ ms) (hl : loc m = .header) (k : Text) (hk : m.header = some k)
    (hown : ∀ n ∈ ownNames, env.lower n ≠ env.lower k) :
    (∀ pre post t, ws = pre ++ (m, .text t) :: post → m.shape ≠ .list →
      (∀ w ∈ pre ++ post, ∀ n ∈ namesOf loc w, env.lower n ≠ env.lower k) →
      ∀ src, (∀ v, src ≠ .value v) → ((m, src) ∈ calls ↔ src = .header t)) ∧
    (∀ pre post ts, ws = pre ++ (m, .list ts) :: post → m.shape = .list → ts ≠ [] →
      (∀ w ∈ pre ++ post, ∀ n ∈ namesOf loc w, env.lower n ≠ env.lower k) →
      ∀ src, (∀ v, src ≠ .value v) → ((m, src) ∈ calls ↔ src = .headerList ts)) ∧
    ((∀ w ∈ ws, ∀ n ∈ namesOf loc w, env.lower n ≠ env.lower k) →
      ∀ src, (∀ v, src ≠ .value v) → (m, src) ∉ calls) := by
  have hd : Fields.Distinct renv.lower (received r b).fields := by rw [hlower]; exact fields_distinct h
  have hread' := fun src hsrc => C79_header renv (received r b) hd body ms calls hread loc hloc m hm hl k hk src hsrc
  have hvals : fieldValues renv.lower (received r b).fields k = valuesOf env.lower (headersOf loc ws) k := by
    rw [hlower]
    exact values_written h hloc hown
  have hhas : HasHeader renv.lower (received r b) k ↔ valuesOf env.lower (headersOf loc ws) k ≠ [] := by
    rw [← hvals]
    constructor
    · rintro ⟨f, hf, hfn⟩ hnil
      obtain ⟨ct, len, _, _, hfs, _⟩ := serializeResponse_ok h
      have hf' : f ∈ r.fields := hf
      rw [hfs] at hf'
      obtain ⟨x, hx, hxn⟩ := toFields_name env _ f hf'
      rw [hlower] at hnil hfn
      have : valuesOf env.lower (headersOf matchResponse ws ++ extraHeaders env ct len) k = [] := by
        rw [← fieldValues_toFields, ← hfs]
        exact hnil
      rw [valuesOf_nil_iff] at this
      exact this x hx (by rw [← hxn, hfn])
    · exact fun hne => mem_of_fieldValues _ _ _ hne
  refine ⟨?_, ?_, ?_⟩
  · rintro pre post t rfl hshape halone src hsrc
    have hv : valuesOf env.lower (headersOf loc (pre ++ (m, .text t) :: post)) k = [t] := by
      rw [valuesOf_alone _ _ _ _ _ _ halone]
      simp [headersOf, hl, named, hk, valuesOf]
    rw [hread' src hsrc, hhas, hvals, hv, if_neg hshape]
    simp [asString]
  · rintro pre post ts rfl hshape hne halone src hsrc
    have hv : valuesOf env.lower (headersOf loc (pre ++ (m, .list ts) :: post)) k = ts := by
      rw [valuesOf_alone _ _ _ _ _ _ halone]
      simp [headersOf, hl, named, hk, valuesOf, List.filter_map, Function.comp_def]
    rw [hread' src hsrc, hhas, hvals, hv, if_pos hshape]
    simp [hne]
  · intro hno src hsrc hmem
    rw [hread' src hsrc, hhas] at hmem
    apply hmem.1
    rw [valuesOf_nil_iff, headersOf_flatMap]
    intro p hp
    rw [List.mem_flatMap] at hp
    obtain ⟨w, hw, hp⟩ := hp
    exact hno w hw _ (List.mem_map_of_mem hp)

/-- Fields that are looked for by name are merged as if there were no others. -/
theorem merge_filter (lower : Text → Text) (P : Text → Bool) (c : List (Field Text)) (f : Field Text) :
    (Fields.merge lower c f).filter (fun g => P (lower g.name)) =
      if P (lower f.name) then Fields.merge lower (c.filter fun g => P (lower g.name)) f
      else c.filter fun g => P (lower g.name) := by
  have hmap : ∀ c : List (Field Text),
      (c.map fun g => if Fields.same lower g.name f.name then { g with values := g.values ++ f.values } else g).filter
        (fun g => P (lower g.name)) =
      (c.filter fun g => P (lower g.name)).map
        fun g => if Fields.same lower g.name f.name then { g with values := g.values ++ f.values } else g := by
    intro c
    rw [List.filter_map]
    congr 1
    refine List.filter_congr fun g _ => ?_
    simp only [Function.comp_apply]
    split <;> rfl
  by_cases hP : P (lower f.name) = true
  · have hlook : Fields.lookup lower (c.filter fun g => P (lower g.name)) f.name = Fields.lookup lower c f.name := by
      unfold Fields.lookup
      rw [List.find?_filter]
      congr 1
      funext g
      by_cases hs : Fields.same lower g.name f.name
      · have : lower g.name = lower f.name := by simpa [Fields.same] using hs
        simp [hs, this, hP]
      · simp [hs]
    rw [if_pos hP]
    unfold Fields.merge
    rw [hlook]
    split
    · exact hmap c
    · rw [List.filter_append, List.filter_cons, if_pos hP, List.filter_nil]
  · rw [if_neg hP]
    unfold Fields.merge
    split
    · rw [hmap]
      conv_rhs => rw [← List.map_id (c.filter _)]
      refine List.map_congr_left fun g hg => ?_
      rw [if_neg, id]
      intro hs
      have : lower g.name = lower f.name := by simpa [Fields.same] using hs
      rw [List.mem_filter, this] at hg
      exact hP hg.2
    · rw [List.filter_append, List.filter_cons, if_neg hP, List.filter_nil, List.append_nil]

theorem fold_filter (lower : Text → Text) (P : Text → Bool) (hs : List (Text × Text)) : ∀ c : List (Field Text),
    (hs.foldl (fun c t => Fields.merge lower c ⟨t.1, [t.2], .header⟩) c).filter (fun g => P (lower g.name)) =
    (hs.filter fun t => P (lower t.1)).foldl (fun c t => Fields.merge lower c ⟨t.1, [t.2], .header⟩)
      (c.filter fun g => P (lower g.name)) := by
  induction hs with
  | nil => intro c; rfl
  | cons t hs ih =>
    intro c
    rw [List.foldl_cons, ih, merge_filter, List.filter_cons]
    by_cases hP : P (lower t.1) = true
    · rw [if_pos hP, if_pos hP, List.foldl_cons]
    · rw [if_neg hP, if_neg hP]

theorem fold_fresh (lower : Text → Text) (hs : List (Text × Text)) : ∀ c : List (Field Text),
    (hs.map fun t => lower t.1).Nodup → (∀ t ∈ hs, ∀ g ∈ c, lower g.name ≠ lower t.1) →
    hs.foldl (fun c t => Fields.merge lower c ⟨t.1, [t.2], .header⟩) c = c ++ hs.map fun t => ⟨t.1, [t.2], .header⟩ := by
  induction hs with
  | nil => intro c _ _; simp
  | cons t hs ih =>
    intro c hn hc
    rw [List.map_cons, List.nodup_cons] at hn
    have : Fields.merge lower c ⟨t.1, [t.2], .header⟩ = c ++ [⟨t.1, [t.2], .header⟩] := by
      unfold Fields.merge
      rw [if_neg]
      simp only [Fields.lookup, Option.not_isSome_iff_eq_none, List.find?_eq_none]
      intro g hg
      simpa [Fields.same] using hc t List.mem_cons_self g hg
    rw [List.foldl_cons, this, ih _ hn.2, List.map_cons, List.append_assoc]
    · rfl
    · intro u hu g hg
      rw [List.mem_append, List.mem_singleton] at hg
      rcases hg with hg | rfl
      · exact hc u (List.mem_cons_of_mem _ hu) g hg
      · exact fun h => hn.1 (List.mem_map.2 ⟨u, hu, h.symm⟩)

/-- **C80**, prefix headers: a map bound to a prefix that no other name starts with is handed the entries that were
written for it, in their order, if no two of its keys differ in case only.  A map that was not written is read as an empty one. -/
theorem C80_prefix_headers (env : Env) (renv : REnv V E) (hlower : renv.lower = env.lower) (hcw : CharWise env.lower)
    (errorStatus : Option Text) (code : Text) (omitEmpty : Bool) (ms : List Member) (ws : List (Member × Val))
    (r : Response) (h : serializeResponse env errorStatus code omitEmpty ms ws = .ok r)
    (loc : Member → Binding) (hloc : Locates loc)
    (b : Bytes) (body : Option Content) (calls : List (Member × Source V))
    (hread : readStruct renv (received r b) body ms = .ok calls)
    (m : Member) (hm : m ∈ ms) (hl : loc m = .prefixHeaders) (p : Text) (hp : m.prefixHeaders = some p)
    (hown : ∀ n ∈ ownNames, ¬ env.lower p <+: env.lower n) :
    (∀ pre post kvs, ws = pre ++ (m, .map kvs) :: post →
      (kvs.map fun kv => env.lower kv.1).Nodup →
      (∀ w ∈ pre ++ post, ∀ n ∈ namesOf loc w, ¬ env.lower p <+: env.lower n) →
      ∀ src, (∀ v, src ≠ .value v) → ((m, src) ∈ calls ↔ src = .headerMap kvs)) ∧
    ((∀ w ∈ ws, ∀ n ∈ namesOf loc w, ¬ env.lower p <+: env.lower n) →
      ∀ src, (∀ v, src ≠ .value v) → ((m, src) ∈ calls ↔ src = .headerMap [])) := by
  obtain ⟨lc, hlc⟩ := hcw
  obtain ⟨ct, len, _, _, hfs, _⟩ := serializeResponse_ok h
  have hloc' := loc_response hloc
  subst hloc'
  -- what is read
  have hr : readMember renv (received r b) body (Matcher.of matchResponse ms) m =
      .ok [(m, .headerMap (Reading.mapEntries renv r.fields p))] := by
    unfold readMember
    rw [hl, hp]
    rfl
  have hsrc : ∀ src : Source V, (∀ v, src ≠ .value v) →
      ((m, src) ∈ calls ↔ src = .headerMap (Reading.mapEntries renv r.fields p)) := by
    intro src hs
    rw [Reading.calls_iff hread hm (by simp [hl]) hs hr]
    simp
  -- the fields with the prefix are those of the headers with the prefix
  have hfil : r.fields.filter (fun f => (env.lower p).isPrefixOf (env.lower f.name)) =
      ((headersOf matchResponse ws).filter fun t => (env.lower p).isPrefixOf (env.lower t.1)).foldl
        (fun c t => Fields.merge env.lower c ⟨t.1, [t.2], .header⟩) [] := by
    rw [hfs]
    simp only [toFields, Fields.C25_from_tuples, Option.getD_none]
    rw [fold_filter env.lower (fun t => (env.lower p).isPrefixOf t), List.filter_append, List.filter_nil]
    rw [show (extraHeaders env ct len).filter (fun t => (env.lower p).isPrefixOf (env.lower t.1)) = [] from by
      rw [List.filter_eq_nil_iff]
      intro t ht
      rw [List.isPrefixOf_iff_prefix]
      exact hown _ (extra_names env _ _ t ht), List.append_nil]
  have hnone : ∀ us : List (Member × Val), (∀ w ∈ us, ∀ n ∈ namesOf matchResponse w, ¬ env.lower p <+: env.lower n) →
      (headersOf matchResponse us).filter (fun t => (env.lower p).isPrefixOf (env.lower t.1)) = [] := by
    intro us hus
    rw [List.filter_eq_nil_iff]
    intro t ht
    rw [headersOf_flatMap, List.mem_flatMap] at ht
    obtain ⟨w, hw, ht⟩ := ht
    rw [List.isPrefixOf_iff_prefix]
    exact hus w hw _ (List.mem_map_of_mem ht)
  have hentries : Reading.mapEntries renv r.fields p =
      (r.fields.filter fun f => (env.lower p).isPrefixOf (env.lower f.name)).map fun f => (f.name.drop p.length, asString f.values) := by
    unfold Reading.mapEntries
    rw [hlower]
    simp only [hlc, List.length_map]
  refine ⟨?_, fun hno src hs => ?_⟩
  · rintro pre post kvs rfl hnd halone src hs
    rw [hsrc src hs, hentries, hfil, headersOf_append, headersOf_cons, List.filter_append, List.filter_append,
      hnone pre fun w hw => halone w (by simp [hw]), hnone post fun w hw => halone w (by simp [hw]), List.nil_append,
      List.append_nil]
    have h1 : (headersOf matchResponse [(m, .map kvs)]).filter (fun t => (env.lower p).isPrefixOf (env.lower t.1)) =
        kvs.map fun kv => (p ++ kv.1, kv.2) := by
      have : headersOf matchResponse [(m, .map kvs)] = kvs.map fun kv => (p ++ kv.1, kv.2) := by
        simp [headersOf, hl, named, hp]
      rw [this, List.filter_eq_self]
      intro t ht
      obtain ⟨kv, _, rfl⟩ := List.mem_map.1 ht
      rw [List.isPrefixOf_iff_prefix, hlc, hlc, List.map_append]
      exact List.prefix_append _ _
    rw [h1, fold_fresh env.lower _ [] _ (by simp)]
    · rw [List.nil_append, List.map_map, List.map_map]
      have : kvs.map (((fun f : Field Text => (f.name.drop p.length, asString f.values)) ∘
          fun t : Text × Text => (⟨t.1, [t.2], .header⟩ : Field Text)) ∘ fun kv => (p ++ kv.1, kv.2)) = kvs := by
        conv_rhs => rw [← List.map_id kvs]
        refine List.map_congr_left fun kv _ => ?_
        simp [asString]
      rw [this]
    · rw [List.map_map]
      have : ((fun t : Text × Text => env.lower t.1) ∘ fun kv : Text × Text => (p ++ kv.1, kv.2)) =
          (fun t => env.lower p ++ t) ∘ fun kv : Text × Text => env.lower kv.1 := by
        funext kv
        simp [hlc]
      rw [this, ← List.map_map]
      exact List.Pairwise.map _ (fun a b hab h => hab (List.append_cancel_left h)) hnd
  · rw [hsrc src hs, hentries, hfil, hnone ws hno]
    rfl

theorem labelsOf_append (b : Binding) (loc : Member → Binding) (x y : List (Member × Val)) :
    labelsOf b loc (x ++ y) = labelsOf b loc x ++ labelsOf b loc y := by
  simp [labelsOf]

/-- **C80**, status: a member bound to the status is handed the text that was last written for one; if none was, the
status of the error, or of the operation. -/
theorem C80_status (env : Env) (renv : REnv V E)
    (errorStatus : Option Text) (code : Text) (omitEmpty : Bool) (ms : List Member) (ws : List (Member × Val))
    (r : Response) (h : serializeResponse env errorStatus code omitEmpty ms ws = .ok r)
    (loc : Member → Binding) (hloc : Locates loc)
    (b : Bytes) (body : Option Content) (calls : List (Member × Source V))
    (hread : readStruct renv (received r b) body ms = .ok calls)
    (m : Member) (hm : m ∈ ms) (hl : loc m = .status) :
    (∀ pre post t, ws = pre ++ (m, .text t) :: post → (∀ w ∈ post, loc w.1 ≠ .status) →
      ∀ src, (∀ v, src ≠ .value v) → ((m, src) ∈ calls ↔ src = .status t)) ∧
    ((∀ w ∈ ws, loc w.1 ≠ .status) → ∀ src, (∀ v, src ≠ .value v) →
      ((m, src) ∈ calls ↔ src = .status (errorStatus.getD code))) := by
  have hs := (C29_response_contents env errorStatus code omitEmpty ms ws r h loc hloc).2
  have hnone : ∀ ws : List (Member × Val), (∀ w ∈ ws, loc w.1 ≠ .status) → labelsOf .status loc ws = [] := by
    intro ws hws
    unfold labelsOf
    rw [List.filter_eq_nil_iff.2 (by simpa using hws)]
    rfl
  have hread' := fun src hsrc => C79_status renv (received r b) body ms calls hread loc hloc m hm hl src hsrc
  refine ⟨?_, ?_⟩
  · rintro pre post t rfl hpost src hsrc
    rw [hread' src hsrc]
    have : r.status = t := by
      rw [hs, labelsOf_append, labelsOf_cons, hnone post hpost]
      simp [labelsOf, hl, named]
    show src = .status r.status ↔ _
    rw [this]
  · intro hno src hsrc
    rw [hread' src hsrc]
    show src = .status r.status ↔ _
    rw [hs, hnone ws hno]
    simp

/-- The content length that is written. -/
theorem length_written {env : Env} (hnames : env.lower "content-type".toList ≠ env.lower "content-length".toList)
    {ws : List (Member × Val)} {r : Response} {ct : Option Text} {b : Bytes}
    (hf : r.fields = toFields env (headersOf matchResponse ws ++ extraHeaders env ct (some b.length)))
    (hcl : ∀ w ∈ ws, ∀ n ∈ namesOf matchResponse w, env.lower n ≠ env.lower "content-length".toList) :
    fieldValues env.lower r.fields "content-length".toList = [env.natText b.length] := by
  rw [hf, fieldValues_toFields, valuesOf_append]
  have h1 : valuesOf env.lower (headersOf matchResponse ws) "content-length".toList = [] := by
    rw [valuesOf_nil_iff, headersOf_flatMap]
    intro p hp
    rw [List.mem_flatMap] at hp
    obtain ⟨w, hw, hp⟩ := hp
    exact hcl w hw _ (List.mem_map_of_mem hp)
  rw [h1]
  cases ct <;> simp only [extraHeaders, valuesOf, List.nil_append, List.cons_append, List.filter_cons, hnames,
    decide_false, decide_true, Bool.false_eq_true, if_false, if_true, List.filter_nil, List.map_cons, List.map_nil]

/-- The body is known to be empty exactly if it is. -/
theorem knownEmpty_iff {env : Env} {renv : REnv V E} (hlower : renv.lower = env.lower)
    (hnames : env.lower "content-type".toList ≠ env.lower "content-length".toList)
    (hint : ∀ n : Nat, renv.int (env.natText n) = some (n : Int)) {ws : List (Member × Val)} {r : Response}
    {ct : Option Text} {b : Bytes}
    (hf : r.fields = toFields env (headersOf matchResponse ws ++ extraHeaders env ct (some b.length)))
    (hcl : ∀ w ∈ ws, ∀ n ∈ namesOf matchResponse w, env.lower n ≠ env.lower "content-length".toList)
    (body : Option Content) : KnownEmpty renv (received r b) body ↔ b = [] := by
  have hv : fieldValues renv.lower (received r b).fields "content-length".toList = [env.natText b.length] := by
    show fieldValues renv.lower r.fields _ = _
    rw [hlower, length_written hnames hf hcl]
  have hh : HasHeader renv.lower (received r b) "content-length".toList :=
    mem_of_fieldValues _ _ _ (by rw [hv]; simp)
  unfold KnownEmpty
  rw [hv]
  simp only [hh, true_and, not_true, false_and, or_false]
  show renv.int (asString [env.natText b.length]) = some 0 ↔ _
  rw [show asString [env.natText b.length] = env.natText b.length from rfl, hint]
  simp

/-- **C80**, payload: if one member is the payload and no other is bound to the body, it is handed the bytes of the
blob or the string that was written, or the document that the codec made of its value.
Missing: strings of an enumeration, see `C80_enum_payload_fails`. -/
theorem C80_payload_partial (env : Env) (renv : REnv V E) (hlower : renv.lower = env.lower)
    (hnames : env.lower "content-type".toList ≠ env.lower "content-length".toList)
    (hint : ∀ n : Nat, renv.int (env.natText n) = some (n : Int))
    (errorStatus : Option Text) (code : Text) (omitEmpty : Bool) (ms : List Member) (ws : List (Member × Val))
    (r : Response) (h : serializeResponse env errorStatus code omitEmpty ms ws = .ok r)
    (loc : Member → Binding) (hloc : Locates loc)
    (hstream : ∀ m ∈ ms, ¬(m.streaming = true ∧ m.shape = .union))
    (hcl : ∀ w ∈ ws, ∀ n ∈ namesOf loc w, env.lower n ≠ env.lower "content-length".toList)
    (m : Member) (hm : m ∈ ms) (hl : loc m = .payload) (hu : ∀ x ∈ ms, loc x = .payload → x = m)
    (hbody : ∀ x ∈ ms, loc x ≠ .body) (hws : ∀ w ∈ ws, w.1 ∈ ms)
    (v : Val) (hv : (ws.filter fun w => w.1 = m) = [(m, v)])
    (bytes : Bytes)
    (hbytes : (m.shape = .blob ∧ v = .blob bytes) ∨ (m.shape = .string ∧ ∃ t, v = .text t ∧ bytes = env.utf8 t) ∨
      (m.shape ≠ .blob ∧ m.shape ≠ .string ∧ m.shape ≠ .enum ∧ bytes = env.encodeValues [(m, v)] ∧ bytes ≠ [])) :
    r.body = .bytes bytes ∧
    ∀ body, (body = none ∨ body = some (.bytes bytes)) →
    ∀ calls : List (Member × Source V), readStruct renv (received r bytes) body ms = .ok calls →
    ∀ src, (∀ v, src ≠ .value v) → ((m, src) ∈ calls ↔
      src = if m.shape = .blob ∨ m.shape = .string then .raw (.bytes bytes) else .document bytes) := by
  obtain ⟨ct, len, req, hp, hf, -⟩ := serializeResponse_ok h
  have hlm := loc_response hloc
  have e1 : (Matcher.of matchResponse ms).eventStream = none := (add_spec matchResponse ms {}).2.2 hstream
  have e2 : (Matcher.of matchResponse ms).payloadMember = some m :=
    payloadMember_unique matchResponse m ms {} (by rw [← hlm]; exact hu) (.inl ⟨m, hm, by rw [← hlm]; exact hl⟩)
  have e3 : bodyOf matchResponse ws = [(m, v)] := by
    rw [← hv, ← hlm]
    refine List.filter_congr fun w hw => ?_
    have g1 := hbody w.1 (hws w hw)
    have g2 : loc w.1 ≠ .host := by
      rw [hlm]
      unfold matchResponse
      repeat' split
      all_goals simp
    by_cases hwm : w.1 = m
    · simp [hwm, hl]
    · have : loc w.1 ≠ .payload := fun hx => hwm (hu w.1 (hws w hw) hx)
      simp [g1, g2, hwm, this]
  simp only [payloadOf, e1, e2, e3] at hp
  have hres : r.body = .bytes bytes ∧ len = some bytes.length := by
    rcases hbytes with ⟨hs, rfl⟩ | ⟨hs, t, rfl, rfl⟩ | ⟨h1, h2, _, rfl, _⟩
    · simp only [hs, decide_true, Bool.true_or, if_true, rawPayload_blob, Option.getD_some, sizeOf, Except.ok.injEq,
        Prod.mk.injEq] at hp
      exact ⟨hp.1.symm, hp.2.2.1.symm⟩
    · simp only [hs, decide_true, Bool.or_true, Bool.true_or, if_true, rawPayload_text, Shape.isString, Option.getD_some, sizeOf,
        Except.ok.injEq, Prod.mk.injEq] at hp
      exact ⟨hp.1.symm, hp.2.2.1.symm⟩
    · simp only [h1, h2, decide_false, Bool.or_false, Bool.false_eq_true, if_false, Except.ok.injEq,
        Prod.mk.injEq] at hp
      exact ⟨hp.1.symm, hp.2.2.1.symm⟩
  refine ⟨hres.1, fun body hbd calls hread src hsrc => ?_⟩
  rw [hres.2] at hf
  have hd : Fields.Distinct renv.lower (received r bytes).fields := by rw [hlower]; exact fields_distinct h
  have hke := knownEmpty_iff hlower hnames hint hf (by rw [← hlm]; exact hcl) body
  have hget : body.getD (received r bytes).body = .bytes bytes := by
    rcases hbd with rfl | rfl <;> rfl
  rw [C79_payload renv (received r bytes) hd body ms calls hread loc hloc m hm hl hu hstream src hsrc, hget, hke]
  rcases hbytes with ⟨hs, _⟩ | ⟨hs, _⟩ | ⟨h1, h2, h3, _, hne⟩
  · simp [hs]
  · simp [hs]
  · simp [h1, h2, h3, hne]

/-- **C80**, body: if no member is the payload and some member is bound to the body, the codec is handed back the
document it wrote; a codec that reads back what it wrote here hands every member bound to the body its value, and no other. -/
theorem C80_body (env : Env) (renv : REnv V E) (hlower : renv.lower = env.lower)
    (hnames : env.lower "content-type".toList ≠ env.lower "content-length".toList)
    (hint : ∀ n : Nat, renv.int (env.natText n) = some (n : Int))
    (errorStatus : Option Text) (code : Text) (omitEmpty : Bool) (ms : List Member) (ws : List (Member × Val))
    (r : Response) (h : serializeResponse env errorStatus code omitEmpty ms ws = .ok r)
    (loc : Member → Binding) (hloc : Locates loc)
    (hstream : ∀ m ∈ ms, ¬(m.streaming = true ∧ m.shape = .union))
    (hcl : ∀ w ∈ ws, ∀ n ∈ namesOf loc w, env.lower n ≠ env.lower "content-length".toList)
    (hpay : ∀ m ∈ ms, loc m ≠ .payload) (hbody : ∃ m ∈ ms, loc m = .body) (hws : ∀ w ∈ ws, w.1 ∈ ms)
    (conv : Member → Val → V)
    (hcodec : ∀ xs, xs = (ws.filter fun w => loc w.1 = .body) → env.encodeStruct xs ≠ [] ∧
      renv.decode (env.encodeStruct xs) ms = .ok (xs.map fun x => (x.1, conv x.1 x.2))) :
    ∃ bytes, r.body = .bytes bytes ∧
    ∀ body, (body = none ∨ body = some (.bytes bytes)) →
    ∀ calls : List (Member × Source V), readStruct renv (received r bytes) body ms = .ok calls →
    ∀ m x, (m, .value x) ∈ calls ↔ loc m = .body ∧ ∃ v, (m, v) ∈ ws ∧ x = conv m v := by
  obtain ⟨ct, len, req, hp, hf, -⟩ := serializeResponse_ok h
  have hlm := loc_response hloc
  obtain ⟨h1, h2, h3⟩ := add_spec matchResponse ms {}
  have e1 : (Matcher.of matchResponse ms).eventStream = none := h3 hstream
  have e2 : (Matcher.of matchResponse ms).payloadMember = none := (h2 (by rw [← hlm]; exact hpay)).1
  have e3 : (Matcher.of matchResponse ms).hasBody = true := h1.2 (.inr (by
    obtain ⟨m, hm, hb⟩ := hbody
    exact ⟨m, hm, .inl (by rw [← hlm]; exact hb)⟩))
  have e4 : bodyOf matchResponse ws = ws.filter fun w => loc w.1 = .body := by
    rw [← hlm]
    refine List.filter_congr fun w hw => ?_
    have g1 := hpay w.1 (hws w hw)
    have g2 : loc w.1 ≠ .host := by
      rw [hlm]
      unfold matchResponse
      repeat' split
      all_goals simp
    simp [g1, g2]
  simp only [payloadOf, e1, e2, e4, Matcher.shouldWriteBody, e3, Bool.true_or, if_true, Except.ok.injEq,
    Prod.mk.injEq] at hp
  obtain ⟨hne, hdec⟩ := hcodec (ws.filter fun w => loc w.1 = .body) rfl
  refine ⟨_, hp.1.symm, fun body hbd calls hread m x => ?_⟩
  rw [← hp.2.2.1] at hf
  have hd : Fields.Distinct renv.lower
      (received r (env.encodeStruct (ws.filter fun w => loc w.1 = .body))).fields := by
    rw [hlower]
    exact fields_distinct h
  have hke := knownEmpty_iff hlower hnames hint hf (by rw [← hlm]; exact hcl) body
  have hget : body.getD (received r (env.encodeStruct (ws.filter fun w => loc w.1 = .body))).body =
      .bytes (env.encodeStruct (ws.filter fun w => loc w.1 = .body)) := by
    rcases hbd with rfl | rfl <;> rfl
  rw [C79_body renv _ hd body ms calls hread loc hloc m x, hke, hget]
  constructor
  · rintro ⟨_, _, b, vs, hb, hvs, hx⟩
    simp only [Content.bytes.injEq, reduceCtorEq, exists_false, or_false] at hb
    subst hb
    rw [hdec] at hvs
    simp only [Except.ok.injEq] at hvs
    subst hvs
    rw [List.mem_map] at hx
    obtain ⟨⟨m', v⟩, hw, hx⟩ := hx
    rw [List.mem_filter] at hw
    simp only [Prod.mk.injEq] at hx
    obtain ⟨rfl, rfl⟩ := hx
    exact ⟨by simpa using hw.2, v, hw.1, rfl⟩
  · rintro ⟨hb, v, hw, rfl⟩
    refine ⟨hbody, hne, _, _, .inl rfl, hdec, ?_⟩
    rw [List.mem_map]
    exact ⟨(m, v), List.mem_filter.2 ⟨hw, by simpa using hb⟩, rfl⟩

/-! ## The hypotheses are met -/

/-- A codec that can write no document but this one. -/
def demoRead (found : List (Member × Val)) : REnv Val Unit where
  lower := List.map Char.toLower
  int := fun t => if t = "0".toList then some 0 else some 1
  decode := fun _ _ => .ok found

def mMeta : Member := { name := "meta".toList, shape := .map, prefixHeaders := some "X-Meta-".toList }
def mCode : Member := { name := "code".toList, shape := .scalar, responseCode := true }
def mEnum : Member := { name := "e".toList, shape := .enum, payload := true }

def demoMembers : List Member := [mHeader, mMeta, mCode, mBody]

def demoWrites : List (Member × Val) :=
  [(mHeader, .list ["a".toList, "b".toList]), (mMeta, .map [("K".toList, "1".toList), ("l".toList, "2".toList)]),
   (mCode, .text "201".toList), (mBody, .text "t".toList)]

/-- What is read of what is written. -/
def roundTrip (found : List (Member × Val)) (ms : List Member) (ws : List (Member × Val)) :
    Option (List (Member × Source Val)) :=
  match serializeResponse demo none "200".toList true ms ws with
  | .error _ => none
  | .ok r =>
    match r.body with
    | .bytes b => (readStruct (demoRead found) (received r b) (some (.bytes b)) ms).toOption
    | _ => none

example : roundTrip [(mBody, .text "t".toList)] demoMembers demoWrites =
    some [(mHeader, .headerList ["a".toList, "b".toList]),
      (mMeta, .headerMap [("K".toList, "1".toList), ("l".toList, "2".toList)]),
      (mCode, .status "201".toList), (mBody, .value (.text "t".toList))] := by decide +kernel

example : CharWise demo.lower := ⟨Char.toLower, fun _ => rfl⟩

example : demo.lower "content-type".toList ≠ demo.lower "content-length".toList := by decide

example : ∀ n ∈ ownNames, demo.lower n ≠ demo.lower "X-H".toList := by decide

example : ∀ n ∈ ownNames, ¬ demo.lower "X-Meta-".toList <+: demo.lower n := by decide

example : ∀ w ∈ demoWrites, w.1 ≠ mMeta → ∀ n ∈ namesOf matchResponse w,
    ¬ demo.lower "X-Meta-".toList <+: demo.lower n := by decide +kernel

example : ∀ w ∈ demoWrites, w.1 ≠ mHeader → ∀ n ∈ namesOf matchResponse w,
    demo.lower n ≠ demo.lower "X-H".toList := by decide +kernel

/-- There is an `int` that reads every numeral. -/
example : ∃ int : Text → Option Int, ∀ n : Nat, int (demo.natText n) = some (n : Int) := by
  refine ⟨fun t => (String.ofList t).toNat?.map Int.ofNat, fun n => ?_⟩
  show (String.ofList (Nat.repr n).toList).toNat?.map Int.ofNat = _
  rw [String.ofList_toList, Nat.toNat?_repr]
  rfl

/-- **C80** is false of the code for a payload of an enumeration: it is written by the codec, here as a document, and
read as the bytes of the string. -/
theorem C80_enum_payload_fails :
    roundTrip [] [mEnum] [(mEnum, .text "ABC".toList)] = some [(mEnum, .raw (.bytes (demo.encodeValues
      [(mEnum, .text "ABC".toList)])))] ∧
    demo.encodeValues [(mEnum, .text "ABC".toList)] ≠ demo.utf8 "ABC".toList := by
  constructor <;> decide +kernel

/-- What is false of the code without the conditions on names: two keys that differ in case only are read as one entry
with both values. -/
theorem C80_keys_by_case_fails :
    roundTrip [] [mMeta] [(mMeta, .map [("k".toList, "1".toList), ("K".toList, "2".toList)])] =
      some [(mMeta, .headerMap [("k".toList, "1, 2".toList)])] := by decide +kernel

/-- An empty list is not read at all, so that a member that was an empty list is then missing. -/
theorem C80_empty_list_fails :
    roundTrip [] [mHeader] [(mHeader, .list [])] = some [] := by decide +kernel

end Verif.Http.RoundTrip
