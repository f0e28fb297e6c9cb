import Verif.Signing.Query
import Verif.Fields.Props

/-!
# What the aiohttp client makes of a request (C88)

Models the query and the headers that `AIOHTTPClient.send` hands to aiohttp (smithy_http/aio/aiohttp.py:89-112) with
`urllib.parse.parse_qs` (Python 3.11, urllib/parse.py:717-726, 790-800), and the headers of the response
(aiohttp.py:143-152).

aiohttp and yarl are not modelled: they are trusted to send the parameters and headers they are handed, in order.  Queries
are bytes and `decode` is arbitrary, as in `Verif/Signing/Query.lean`.
-/

set_option autoImplicit false

namespace Verif.Transport.Aiohttp
open Verif.Uri Verif.Text Verif.Signing
open Verif.Fields (Field Kind merge lookup Distinct ofTuples fields)

/-! ## Model -/

section
variable (decode : Bytes → Bytes)

/-- `parse_qsl(query)` without `keep_blank_values` (urllib/parse.py:779-800). -/
def parsePairs (query : Bytes) : List (Bytes × Bytes) :=
  (split (ch '&') query).filterMap fun part =>
    if part = [] then none
    else
      let nv := cut (ch '=') part
      if nv.2.getD [] = [] then none
      else some (unquotePlus decode nv.1, unquotePlus decode (nv.2.getD []))

/-- `parsed_result[name].append(value)` or `parsed_result[name] = [value]` (urllib/parse.py:721-725). -/
def gather : List (Bytes × List Bytes) → Bytes → Bytes → List (Bytes × List Bytes)
  | [], n, v => [(n, [v])]
  | (m, vs) :: d, n, v => if m = n then (m, vs ++ [v]) :: d else (m, vs) :: gather d n v

/-- `parse_qs(request.destination.query)` (aiohttp.py:108, urllib/parse.py:717-726); nothing for `None` (768-769). -/
def params : Option Bytes → List (Bytes × List Bytes)
  | none => []
  | some query => (parsePairs decode query).foldl (fun d p => gather d p.1 p.2) []

end

/-- The parameters of a mapping whose values are lists: one for each value (aiohttp.py:102-104). -/
def handed (d : List (Bytes × List Bytes)) : List (Bytes × Bytes) := d.flatMap fun e => e.2.map fun v => (e.1, v)

/-- `headers_list` (aiohttp.py:89-91). -/
def headersList {S : Type} (fs : List (Field S)) : List (S × S) := fs.flatMap Field.asTuples

/-- The fields of the response (aiohttp.py:143-152; crt.py:203-212 in the same way): the loop of
`tuples_to_fields` with `kind="header"`. -/
def responseFields {S : Type} [DecidableEq S] (lower : S → S) (ts : List (S × S)) : List (Field S) :=
  fields (ofTuples lower (some .header) [] [] ts).1 (ofTuples lower (some .header) [] [] ts).2

/-! ## Specification -/

/-- Every parameter of the query is written with a value: `name=value`, where the value is not empty. -/
def NoBlank (query : Option Bytes) : Prop :=
  ∀ part ∈ split (ch '&') (query.getD []), part ≠ [] →
    ∃ name value, ch '=' ∉ name ∧ value ≠ [] ∧ part = name ++ [ch '='] ++ value

/-! ## Lemmas -/

section
variable {decode : Bytes → Bytes}

theorem parts_pairs (parts : List Bytes) (raw : List (Bytes × Bytes))
    (h : List.Forall₂ (fun part r => IsParam part r.1 r.2) (parts.filter (· ≠ [])) raw) :
    (parts.filterMap fun part =>
      if part = [] then none
      else if (cut (ch '=') part).2.getD [] = [] then none
      else some (unquotePlus decode (cut (ch '=') part).1,
        unquotePlus decode ((cut (ch '=') part).2.getD []))) =
      (raw.filter fun r => r.2 ≠ []).map fun r => (decoded decode r.1, decoded decode r.2) := by
  induction parts generalizing raw with
  | nil =>
    simp only [List.filter_nil] at h
    cases h; rfl
  | cons p ps ih =>
    by_cases hp : p = []
    · subst hp
      rw [List.filter_cons_of_neg (by simp)] at h
      rw [List.filterMap_cons_none (by simp)]
      exact ih raw h
    · rw [List.filter_cons_of_pos (by simpa using hp)] at h
      cases h with
      | @cons _ r _ raw h1 h2 =>
        obtain ⟨h3, h4⟩ := (cut_isParam _ _ _).1 h1
        have h5 : (cut (ch '=') p).2.getD [] = r.2 := by
          rw [h3]
          by_cases he : ch '=' ∈ p
          · rw [if_pos he]; rfl
          · rw [if_neg he, h4 he]; rfl
        have h6 : (cut (ch '=') p).1 = r.1 := by rw [h3]
        by_cases hb : r.2 = []
        · rw [List.filterMap_cons_none (by rw [if_neg hp, h5, if_pos hb]),
            List.filter_cons_of_neg (by simpa using hb), ih raw h2]
        · rw [List.filterMap_cons_some (by rw [if_neg hp, h5, if_neg hb, h6]),
            List.filter_cons_of_pos (by simpa using hb), List.map_cons, ih raw h2]
          rfl

theorem noBlank_raw (parts : List Bytes) (raw : List (Bytes × Bytes))
    (h : List.Forall₂ (fun part r => IsParam part r.1 r.2) (parts.filter (· ≠ [])) raw) :
    (∀ part ∈ parts, part ≠ [] →
      ∃ name value, ch '=' ∉ name ∧ value ≠ [] ∧ part = name ++ [ch '='] ++ value) ↔ ∀ r ∈ raw, r.2 ≠ [] := by
  have hmem : (∀ part ∈ parts, part ≠ [] →
      ∃ name value, ch '=' ∉ name ∧ value ≠ [] ∧ part = name ++ [ch '='] ++ value) ↔
      ∀ part ∈ parts.filter (· ≠ []), ∃ name value, ch '=' ∉ name ∧ value ≠ [] ∧ part = name ++ [ch '='] ++ value := by
    simp only [List.mem_filter, decide_eq_true_eq, and_imp]
  rw [hmem]
  generalize parts.filter (· ≠ []) = l at h
  induction h with
  | nil => simp
  | @cons p r ps raw h1 _ ih =>
    rw [List.forall_mem_cons, List.forall_mem_cons]
    refine and_congr ⟨?_, ?_⟩ ih
    · rintro ⟨name, value, hn, hv, rfl⟩
      rcases h1 with ⟨h2, _, _⟩ | ⟨h2, h3⟩
      · exact absurd (by simp) h2
      · have : cut (ch '=') (name ++ [ch '='] ++ value) = cut (ch '=') (r.1 ++ [ch '='] ++ r.2) := by rw [h3]
        rw [List.append_assoc, List.singleton_append, cut_append _ _ _ hn, List.append_assoc, List.singleton_append,
          cut_append _ _ _ h2] at this
        injection this with _ h4
        injection h4 with h4
        rwa [← h4]
    · intro hr
      rcases h1 with ⟨_, _, h2⟩ | ⟨h2, h3⟩
      · exact absurd h2 hr
      · exact ⟨r.1, r.2, h2, hr, h3⟩

theorem handed_gather (d : List (Bytes × List Bytes)) (n v : Bytes) :
    (handed (gather d n v)).Perm (handed d ++ [(n, v)]) := by
  induction d with
  | nil => exact .refl _
  | cons e d ih =>
    obtain ⟨m, vs⟩ := e
    rw [gather]
    by_cases h : m = n
    · subst h
      rw [if_pos rfl]
      simp only [handed, List.flatMap_cons, List.map_append, List.map_cons, List.map_nil, List.append_assoc]
      refine .append_left _ ?_
      exact List.perm_append_comm
    · simp only [if_neg h, handed, List.flatMap_cons, List.append_assoc]
      exact .append_left _ ih

theorem gather_keys (d : List (Bytes × List Bytes)) (n v : Bytes) (k : Bytes) :
    k ∈ (gather d n v).map Prod.fst ↔ k = n ∨ k ∈ d.map Prod.fst := by
  induction d with
  | nil => simp [gather]
  | cons e d ih =>
    obtain ⟨m, vs⟩ := e
    rw [gather]
    by_cases h : m = n
    · subst h; simp
    · rw [if_neg h, List.map_cons, List.mem_cons, ih, List.map_cons, List.mem_cons]
      constructor
      · rintro (h | h | h)
        · exact .inr (.inl h)
        · exact .inl h
        · exact .inr (.inr h)
      · rintro (h | h | h)
        · exact .inr (.inl h)
        · exact .inl h
        · exact .inr (.inr h)

theorem gather_nodup (d : List (Bytes × List Bytes)) (n v : Bytes) (h : (d.map Prod.fst).Nodup) :
    ((gather d n v).map Prod.fst).Nodup := by
  induction d with
  | nil => simp [gather]
  | cons e d ih =>
    obtain ⟨m, vs⟩ := e
    rw [List.map_cons, List.nodup_cons] at h
    rw [gather]
    by_cases hm : m = n
    · rw [if_pos hm, List.map_cons, List.nodup_cons]; exact h
    · rw [if_neg hm, List.map_cons, List.nodup_cons]
      refine ⟨fun hk => ?_, ih h.2⟩
      rcases (gather_keys d n v m).1 hk with hk | hk
      · exact hm hk
      · exact h.1 hk

theorem handed_key (d : List (Bytes × List Bytes)) (p : Bytes × Bytes) (h : p ∈ handed d) : p.1 ∈ d.map Prod.fst := by
  obtain ⟨e, he, hp⟩ := List.mem_flatMap.1 h
  obtain ⟨v, _, rfl⟩ := List.mem_map.1 hp
  exact List.mem_map.2 ⟨e, he, rfl⟩

theorem handed_filter_absent (d : List (Bytes × List Bytes)) (n : Bytes) (h : n ∉ d.map Prod.fst) :
    (handed d).filter (fun p => p.1 = n) = [] := by
  rw [List.filter_eq_nil_iff]
  intro p hp he
  have hk := handed_key d p hp
  rw [of_decide_eq_true he] at hk
  exact h hk

theorem filter_key (n m : Bytes) (vs : List Bytes) :
    (vs.map fun v => (m, v)).filter (fun p => p.1 = n) = if m = n then vs.map fun v => (m, v) else [] := by
  by_cases h : m = n
  · rw [if_pos h, List.filter_eq_self]
    intro p hp
    obtain ⟨v, _, rfl⟩ := List.mem_map.1 hp
    simpa using h
  · rw [if_neg h, List.filter_eq_nil_iff]
    intro p hp
    obtain ⟨v, _, rfl⟩ := List.mem_map.1 hp
    simpa using h

theorem filter_gather (d : List (Bytes × List Bytes)) (n v k : Bytes) (h : (d.map Prod.fst).Nodup) :
    (handed (gather d n v)).filter (fun p => p.1 = k) =
      (handed d ++ [(n, v)]).filter (fun p => p.1 = k) := by
  induction d with
  | nil => rfl
  | cons e d ih =>
    obtain ⟨m, vs⟩ := e
    rw [List.map_cons, List.nodup_cons] at h
    rw [gather]
    by_cases hm : m = n
    · subst hm
      rw [if_pos rfl]
      simp only [handed, List.flatMap_cons, List.filter_append, filter_key]
      by_cases hk : m = k
      · subst hk
        have h0 := handed_filter_absent d m h.1
        unfold handed at h0
        rw [h0]
        simp
      · simp [hk]
    · have := ih h.2
      unfold handed at this
      simp only [if_neg hm, handed, List.flatMap_cons, List.filter_append, filter_key, this, List.append_assoc]

theorem params_perm (ps : List (Bytes × Bytes)) (d : List (Bytes × List Bytes)) (h : (d.map Prod.fst).Nodup) :
    (handed (ps.foldl (fun d p => gather d p.1 p.2) d)).Perm (handed d ++ ps) ∧
    ∀ k, (handed (ps.foldl (fun d p => gather d p.1 p.2) d)).filter (fun p => p.1 = k) =
      (handed d ++ ps).filter (fun p => p.1 = k) := by
  induction ps generalizing d with
  | nil => simp
  | cons p ps ih =>
    obtain ⟨h1, h2⟩ := ih (gather d p.1 p.2) (gather_nodup d _ _ h)
    refine ⟨h1.trans ?_, fun k => ?_⟩
    · have := (handed_gather d p.1 p.2).append_right ps
      rwa [List.append_assoc] at this
    · rw [List.foldl_cons, h2 k, List.filter_append, filter_gather d _ _ k h, List.filter_append, List.append_assoc,
        ← List.filter_append, ← List.filter_append]
      rfl

theorem params_raw (query : Option Bytes) (raw : List (Bytes × Bytes))
    (h : List.Forall₂ (fun part r => IsParam part r.1 r.2) ((split (ch '&') (query.getD [])).filter (· ≠ [])) raw) :
    (handed (params decode query)).Perm
      ((raw.filter fun r => r.2 ≠ []).map fun r => (decoded decode r.1, decoded decode r.2)) ∧
    ∀ k, (handed (params decode query)).filter (fun p => p.1 = k) =
      ((raw.filter fun r => r.2 ≠ []).map fun r => (decoded decode r.1, decoded decode r.2)).filter
        (fun p => p.1 = k) := by
  cases query with
  | none =>
    have : raw = [] := by
      have hs : (split (ch '&') ((none : Option Bytes).getD [])).filter (· ≠ []) = [] := by decide +kernel
      rw [hs] at h
      cases h; rfl
    subst this
    exact ⟨.refl _, fun _ => rfl⟩
  | some q =>
    have := params_perm (parsePairs decode q) [] (by simp)
    rw [show parsePairs decode q = _ from parts_pairs _ raw h] at this
    rw [params, show parsePairs decode q = _ from parts_pairs _ raw h]
    simpa [handed] using this

end

section
variable {S : Type} [DecidableEq S] {lower : S → S}

theorem merge_absent (c : List (Field S)) (f : Field S) (h : ∀ g ∈ c, lower g.name ≠ lower f.name) :
    merge lower c f = c ++ [f] := by
  have : lookup lower c f.name = none := by
    unfold lookup
    rw [List.find?_eq_none]
    intro g hg
    simpa [Verif.Fields.same] using h g hg
  rw [merge, this]; rfl

theorem merge_last (c : List (Field S)) (n : S) (vs : List S) (k : Kind) (v : S)
    (h : ∀ g ∈ c, lower g.name ≠ lower n) :
    merge lower (c ++ [⟨n, vs, k⟩]) ⟨n, [v], .header⟩ = c ++ [⟨n, vs ++ [v], k⟩] := by
  have : (lookup lower (c ++ [⟨n, vs, k⟩]) n).isSome = true := by
    unfold lookup
    rw [List.find?_isSome]
    exact ⟨⟨n, vs, k⟩, by simp, by simp [Verif.Fields.same]⟩
  rw [merge, if_pos this, List.map_append]
  congr 1
  · conv => rhs; rw [← List.map_id c]
    refine List.map_congr_left fun g hg => ?_
    rw [if_neg (by simpa [Verif.Fields.same] using h g hg)]
    rfl
  · simp [Verif.Fields.same]

theorem merge_values (c : List (Field S)) (n : S) (vs ws : List S) (h : ∀ g ∈ c, lower g.name ≠ lower n) :
    (ws.map fun v => (n, v)).foldl (fun c t => merge lower c ⟨t.1, [t.2], .header⟩) (c ++ [⟨n, vs, .header⟩]) =
      c ++ [⟨n, vs ++ ws, .header⟩] := by
  induction ws generalizing vs with
  | nil => simp
  | cons w ws ih => rw [List.map_cons, List.foldl_cons, merge_last c n vs _ w h, ih, List.append_assoc]; rfl

theorem merge_field (c : List (Field S)) (f : Field S) (h : ∀ g ∈ c, lower g.name ≠ lower f.name) :
    f.asTuples.foldl (fun c t => merge lower c ⟨t.1, [t.2], .header⟩) c =
      if f.values = [] then c else c ++ [{ f with kind := .header }] := by
  obtain ⟨n, vs, k⟩ := f
  cases vs with
  | nil => rfl
  | cons v vs =>
    have h1 := merge_values c n [v] vs h
    rw [← merge_absent c ⟨n, [v], .header⟩ h] at h1
    rw [if_neg (by simp)]
    exact h1

theorem merge_fields (fs c : List (Field S)) (hd : Distinct lower fs)
    (h : ∀ g ∈ c, ∀ f ∈ fs, lower g.name ≠ lower f.name) :
    (headersList fs).foldl (fun c t => merge lower c ⟨t.1, [t.2], .header⟩) c =
      c ++ (fs.filter fun f => f.values ≠ []).map fun f => { f with kind := .header } := by
  induction fs generalizing c with
  | nil => simp [headersList]
  | cons f fs ih =>
    obtain ⟨h1, h2⟩ := List.pairwise_cons.1 hd
    rw [headersList, List.flatMap_cons, List.foldl_append, merge_field c f (fun g hg => h g hg f (by simp))]
    by_cases hv : f.values = []
    · rw [if_pos hv, List.filter_cons_of_neg (by simpa using hv)]
      exact ih c h2 fun g hg f' hf' => h g hg f' (by simp [hf'])
    · rw [if_neg hv, List.filter_cons_of_pos (by simpa using hv)]
      have := ih (c ++ [{ f with kind := .header }]) h2 (by
        intro g hg f' hf'
        rcases List.mem_append.1 hg with hg | hg
        · exact h g hg f' (by simp [hf'])
        · rw [List.mem_singleton] at hg
          subst hg
          exact h1 f' hf')
      rw [headersList] at this
      rw [this, List.append_assoc, List.map_cons]
      rfl

end

/-! ## Theorems -/

/-- **C88 (partial).**  If every parameter of the query has a value, the parameters handed to aiohttp are those of the
query (each as often as it is there), and those of the same name are in the same order.  Missing: parameters without a
value, see `C88_blank_fails`. -/
theorem C88_query_partial (decode : Bytes → Bytes) (query : Option Bytes) (ps : List (Bytes × Bytes))
    (hp : Params decode query ps) (hb : NoBlank query) :
    (handed (params decode query)).Perm ps ∧
    ∀ name, (handed (params decode query)).filter (fun p => p.1 = name) = ps.filter (fun p => p.1 = name) := by
  obtain ⟨raw, h, rfl⟩ := hp
  have h1 := params_raw (decode := decode) query raw h
  have h2 : (raw.filter fun r => r.2 ≠ []) = raw := by
    rw [List.filter_eq_self]
    intro r hr
    simpa using (noBlank_raw _ raw h).1 hb r hr
  rwa [h2] at h1

/-- **C88 (negative).**  If a parameter of the query has no value, as `acl` in `?acl`, not all parameters are handed to
aiohttp. -/
theorem C88_blank_fails (decode : Bytes → Bytes) (query : Option Bytes) (ps : List (Bytes × Bytes))
    (hp : Params decode query ps) (hb : ¬ NoBlank query) :
    (handed (params decode query)).length < ps.length := by
  obtain ⟨raw, h, rfl⟩ := hp
  rw [(params_raw (decode := decode) query raw h).1.length_eq, List.length_map, List.length_map]
  refine Nat.lt_of_le_of_ne (List.length_filter_le _ _) fun he => hb ?_
  refine (noBlank_raw _ raw h).2 fun r hr => ?_
  have := List.length_filter_eq_length_iff.1 he r hr
  simpa using this

/-- **C88.**  What the signer signs for the query of the request is what a server computes for the query that is sent, if
and only if every parameter has a value: all requests that have one without are refused for their signature. -/
theorem C88_signature (decode : Bytes → Bytes) (query sent : Option Bytes)
    (hs : Params decode sent (handed (params decode query))) :
    canonicalQuery decode sent = canonicalQuery decode query ↔ NoBlank query := by
  obtain ⟨ps, hp, _⟩ := params_unique (decode := decode) query
  rw [C34_multiset sent query _ ps hs hp]
  constructor
  · intro h
    by_contra hb
    have := C88_blank_fails decode query ps hp hb
    rw [h.length_eq] at this
    omega
  · intro hb
    exact (C88_query_partial decode query ps hp hb).1

/-- **C88.**  The headers handed to aiohttp, read again by the client at the other end, are the fields of the request:
the same names, values and order, without the fields that have no value. -/
theorem C88_headers {S : Type} [DecidableEq S] (lower : S → S) (fs : List (Field S)) (hd : Distinct lower fs)
    (hk : ∀ f ∈ fs, f.kind = .header) :
    responseFields lower (headersList fs) = fs.filter fun f => f.values ≠ [] := by
  rw [responseFields, Verif.Fields.C25_from_tuples]
  have := merge_fields (lower := lower) fs [] hd (by simp)
  rw [List.nil_append] at this
  refine this.trans ?_
  conv => rhs; rw [← List.map_id (fs.filter fun f => f.values ≠ [])]
  refine List.map_congr_left fun f hf => ?_
  obtain ⟨n, vs, k⟩ := f
  have := hk _ (List.mem_filter.1 hf).1
  simp only at this
  rw [this]; rfl

/-- **C88 (negative).**  A trailer is sent as a header. -/
theorem C88_trailer_fails {S : Type} [DecidableEq S] (lower : S → S) (n v : S) :
    responseFields lower (headersList [⟨n, [v], .trailer⟩]) = [⟨n, [v], .header⟩] := by
  rw [responseFields, Verif.Fields.C25_from_tuples]
  exact merge_fields (lower := lower) [⟨n, [v], .trailer⟩] [] (by simp [Distinct]) (by simp)

/-! ## The hypotheses are met -/

/-- `b=1&a=2&b=%33` has values everywhere; the parameters of `b` are handed together. -/
example : NoBlank (some (asc "b=1&a=2&b=%33")) ∧
    handed (params id (some (asc "b=1&a=2&b=%33"))) =
      [(asc "b", asc "1"), (asc "b", asc "3"), (asc "a", asc "2")] := by
  refine ⟨?_, by decide +kernel⟩
  have : split (ch '&') ((some (asc "b=1&a=2&b=%33")).getD []) = [asc "b=1", asc "a=2", asc "b=%33"] := by decide +kernel
  rw [NoBlank, this]
  intro part hp _
  simp only [List.mem_cons, List.not_mem_nil, or_false] at hp
  rcases hp with rfl | rfl | rfl
  · exact ⟨asc "b", asc "1", by decide +kernel⟩
  · exact ⟨asc "a", asc "2", by decide +kernel⟩
  · exact ⟨asc "b", asc "%33", by decide +kernel⟩

/-- `?acl` has none. -/
example : ¬ NoBlank (some (asc "acl")) ∧ Params id (some (asc "acl")) [(asc "acl", [])] ∧
    handed (params id (some (asc "acl"))) = [] := by
  have : split (ch '&') ((some (asc "acl")).getD []) = [asc "acl"] := by decide +kernel
  refine ⟨fun h => ?_, ⟨[(asc "acl", [])], ?_, by decide +kernel⟩, by decide +kernel⟩
  · obtain ⟨n, v, _, _, he⟩ := h (asc "acl") (by rw [this]; simp) (by decide +kernel)
    have : ch '=' ∈ asc "acl" := by rw [he]; simp
    revert this
    decide +kernel
  · rw [this, show [asc "acl"].filter (· ≠ []) = [asc "acl"] by decide +kernel]
    exact .cons (.inl (by decide +kernel)) .nil

example : Distinct id [(⟨1, [2, 3], .header⟩ : Field Nat), ⟨4, [], .header⟩, ⟨5, [6], .header⟩] := by decide +kernel

end Verif.Transport.Aiohttp
