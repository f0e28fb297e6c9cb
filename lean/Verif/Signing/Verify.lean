import Verif.Signing.Props

/-!
# What a service checks (C73, C74)

C73: two requests with the same canonical request are the same as far as signing goes.  C74: the
signature in the signed request is that of the request as it is sent.
-/

set_option autoImplicit false

namespace Verif.Signing

open Verif.Uri Verif.Text Verif.Fields

variable {lib : Lib}

/-! ## Specification -/

/-- The signature of Signature Version 4 for a canonical request. -/
def specSignature (lib : Lib) (secret date region service canonical : Bytes) : Bytes :=
  lib.hex (lib.hmac
    (lib.hmac (lib.hmac (lib.hmac (lib.hmac (asc "AWS4" ++ secret) (date.take 8)) region) service)
      (asc "aws4_request"))
    (asc "AWS4-HMAC-SHA256" ++ [10] ++ date ++ [10] ++ (date.take 8 ++ [47] ++ region ++ [47] ++
      service ++ asc "/aws4_request") ++ [10] ++ lib.sha256 canonical))

/-- The payload hash: `UNSIGNED-PAYLOAD` if the connection is secure and payload signing disabled,
otherwise the hash of the content; the asynchronous signer takes a hash given as a header first, and
a constant for event streams. -/
def specHash (lib : Lib) (v : Variant) (dest : Destination) (p : Properties)
    (fs : List (Field Bytes)) (content : Option Bytes) : Bytes :=
  let own :=
    if dest.scheme = asc "https" ∧ p.payloadSigning = some false then asc "UNSIGNED-PAYLOAD"
    else match content with
      | none => asc "e3b0c44298fc1c149afbf4c8996fb92427ae41e4649b934ca495991b7852b855"
      | some c => lib.sha256 c
  match v with
  | .sync => own
  | .async =>
    match (fs.find? fun f => lib.lower f.name = asc "x-amz-content-sha256").map Field.values with
    | some [hash] => hash
    | _ =>
      if (fs.find? fun f => lib.lower f.name = asc "content-type").map (fun f => headerText f.values) =
          some (asc "application/vnd.amazon.eventstream") then
        asc "STREAMING-AWS4-HMAC-SHA256-EVENTS"
      else own

/-- The canonical path: without dot segments, and unless disabled without empty segments and
percent-encoded. -/
def specPath (dest : Destination) (p : Properties) : Bytes :=
  if p.uriEncodePath = some false then removeDots (dest.path.getD (asc "/")) false
  else quote slashSafe (removeDots (dest.path.getD (asc "/")) true)

/-- Requests whose canonical request can be read back: no line breaks in method and hash, no line
breaks and colons in header names, no line breaks in a path that is taken as it is. -/
structure Clean (lib : Lib) (dest : Destination) (method : Bytes) (fs : List (Field Bytes))
    (p : Properties) (hash : Bytes) : Prop where
  method : 10 ∉ lib.upper method
  hash : 10 ∉ hash
  names : ∀ f ∈ fs, 10 ∉ lib.lower f.name ∧ 58 ∉ lib.lower f.name
  path : p.uriEncodePath = some false → ∀ t, dest.path = some t → 10 ∉ t

/-! ## C73 -/

/-- The canonical request as lines. -/
theorem text_lines (a b c : Bytes) (ls : List Bytes) (s h : Bytes) :
    a ++ [10] ++ b ++ [10] ++ c ++ [10] ++ (ls.map (· ++ [10])).flatten ++ [10] ++ s ++ [10] ++ h =
      join 10 ([a, b, c] ++ ls ++ [[], s, h]) := by
  have h1 : ∀ (ls : List Bytes), (ls.map (· ++ [10])).flatten ++ [10] ++ s ++ [10] ++ h =
      join 10 (ls ++ [[], s, h]) := by
    intro ls
    induction ls with
    | nil => simp [join]
    | cons l ls ih =>
      rw [List.cons_append, join_cons _ _ _ (by simp), ← ih]
      simp
  rw [List.append_assoc [a, b, c], List.cons_append, join_cons _ _ _ (by simp), List.cons_append,
    join_cons _ _ _ (by simp), List.cons_append, join_cons _ _ _ (by simp), List.nil_append, ← h1]
  simp

theorem join_not_mem (sep c : UInt8) (hne : c ≠ sep) (ws : List Bytes) (h : ∀ x ∈ ws, c ∉ x) :
    c ∉ join sep ws := by
  induction ws with
  | nil => simp [join]
  | cons x ws ih =>
    by_cases he : ws = []
    · subst he; simpa [join] using h x (by simp)
    · rw [join_cons _ _ _ he]
      simp only [List.mem_append, List.mem_cons, not_or]
      exact ⟨h x (by simp), hne, ih fun y hy => h y (by simp [hy])⟩

theorem mem_join (sep c : UInt8) (ws : List Bytes) (h : c ∈ join sep ws) : c = sep ∨ ∃ x ∈ ws, c ∈ x := by
  by_contra hc
  simp only [not_or, not_exists, not_and] at hc
  exact join_not_mem sep c hc.1 ws hc.2 h

theorem mem_mergeSlashes (t : Bytes) (c : UInt8) (h : c ∈ mergeSlashes t) : c ∈ t := by
  induction hn : t.length using Nat.strongRecOn generalizing t with
  | _ n ih =>
    match t with
    | [] => exact h
    | [a] => exact h
    | a :: b :: t =>
      simp only [mergeSlashes] at h
      split at h
      · rename_i he
        rcases List.mem_cons.1 h with h | h
        · rw [h, ← he.1]; simp
        · have := ih t.length (by simp at hn; omega) t h rfl
          simp [this]
      · rcases List.mem_cons.1 h with h | h
        · simp [h]
        · have := ih (b :: t).length (by simp at hn ⊢; omega) (b :: t) h rfl
          exact List.mem_cons_of_mem _ this

theorem mem_dotLoop (ss : List Bytes) : ∀ out, ∀ s ∈ dotLoop out ss, s ∈ out ∨ s ∈ ss := by
  induction ss with
  | nil => intro out s hs; exact Or.inl hs
  | cons x ss ih =>
    intro out s hs
    simp only [dotLoop] at hs
    split at hs
    · rcases ih _ s hs with h | h
      · exact Or.inl h
      · exact Or.inr (by simp [h])
    · split at hs
      · rcases ih _ s hs with h | h
        · rcases List.mem_append.1 h with h | h
          · exact Or.inl h
          · exact Or.inr (by rw [List.mem_singleton.1 h]; simp)
        · exact Or.inr (by simp [h])
      · split at hs
        · rcases ih _ s hs with h | h
          · exact Or.inl (List.dropLast_subset _ h)
          · exact Or.inr (by simp [h])
        · rcases ih _ s hs with h | h
          · exact Or.inl h
          · exact Or.inr (by simp [h])

/-- Removing dot segments adds nothing but slashes. -/
theorem mem_removeDots (t : Bytes) (merge : Bool) (c : UInt8) (hc : c ≠ ch '/')
    (h : c ∈ removeDots t merge) : c ∈ t := by
  unfold removeDots at h
  generalize ho : dotLoop [] (split (ch '/') t) = o at h
  have h1 : ∀ s ∈ o, ∀ x ∈ s, x ∈ t := by
    intro s hs x hx
    subst ho
    rcases mem_dotLoop _ _ s hs with h | h
    · cases h
    · exact mem_split _ _ _ h _ hx
  have key : ∀ o' : List Bytes, (∀ s ∈ o', ∀ x ∈ s, x ∈ t) → c ∈ join (ch '/') o' → c ∈ t := by
    intro o' ho' hj
    rcases mem_join _ _ _ hj with h | ⟨x, hx, hcx⟩
    · exact absurd h hc
    · exact ho' x hx c hcx
  have h2 : ∀ s ∈ (if [ch '/'].isPrefixOf t && (o = [] || o.head? ≠ some []) then [] :: o else o),
      ∀ x ∈ s, x ∈ t := by
    intro s hs x hx
    split at hs
    · rcases List.mem_cons.1 hs with h | h
      · rw [h] at hx; cases hx
      · exact h1 s h x hx
    · exact h1 s hs x hx
  simp only at h
  generalize (if [ch '/'].isPrefixOf t && (o = [] || o.head? ≠ some []) then [] :: o else o) = o2 at h h2
  have h3 : ∀ s ∈ (if o2 ≠ [] && ((asc "/.").isSuffixOf t || (asc "/..").isSuffixOf t) then
      o2 ++ [[]] else o2), ∀ x ∈ s, x ∈ t := by
    intro s hs x hx
    split at hs
    · rcases List.mem_append.1 hs with h | h
      · exact h2 s h x hx
      · rw [List.mem_singleton.1 h] at hx; cases hx
    · exact h2 s hs x hx
  cases merge with
  | true =>
    rw [if_pos rfl] at h
    exact key _ h3 (mem_mergeSlashes _ _ h)
  | false =>
    rw [if_neg (by simp)] at h
    exact key _ h3 h

theorem nl_not_mem_quote (safe : UInt8 → Bool) (hs : safe 10 = false) (t : Bytes) :
    10 ∉ quote safe t :=
  not_mem_quote _ _ _ (by decide) hs (by decide)

theorem canonicalPath_eq (dest : Destination) (p : Properties) :
    canonicalPath dest.path p = specPath dest p := by
  unfold canonicalPath specPath
  cases hp : p.uriEncodePath with
  | none => rfl
  | some b => cases b <;> rfl

theorem nl_not_mem_path (dest : Destination) (p : Properties)
    (h : p.uriEncodePath = some false → ∀ t, dest.path = some t → 10 ∉ t) :
    10 ∉ canonicalPath dest.path p := by
  unfold canonicalPath
  simp only
  split
  · exact nl_not_mem_quote _ (by decide) _
  · rename_i hu
    intro hm
    have hm := mem_removeDots _ _ _ (by decide) hm
    have hp : p.uriEncodePath = some false := by
      cases hx : p.uriEncodePath with
      | none => rw [hx] at hu; simp at hu
      | some b => rw [hx] at hu; cases b <;> simp_all
    cases hx : dest.path with
    | none => rw [hx] at hm; exact absurd hm (by decide +kernel)
    | some t => rw [hx] at hm; exact h hp t hx hm

theorem nl_not_mem_query (decode : Bytes → Bytes) (q : Option Bytes) :
    10 ∉ canonicalQuery decode q := by
  cases q with
  | none => simp [canonicalQuery]
  | some q =>
    simp only [canonicalQuery]
    apply join_not_mem _ _ (by decide)
    intro x hx
    obtain ⟨y, hy, rfl⟩ := List.mem_map.1 hx
    obtain ⟨z, _, rfl⟩ := List.mem_map.1 ((sortPairs_perm _).mem_iff.1 hy)
    simp only [List.mem_append, List.mem_singleton, not_or]
    exact ⟨⟨nl_not_mem_quote _ rfl _, by decide⟩, nl_not_mem_quote _ rfl _⟩

/-- From equal canonical requests, equal parts. -/
theorem parts_eq (hw : ∀ v, ∀ x ∈ lib.words v, (10 : UInt8) ∉ x)
    {m q h m' q' h' pa pa' : Bytes} {lines lines' : List (Bytes × Bytes)}
    (c1 : 10 ∉ m) (c2 : 10 ∉ pa) (c3 : 10 ∉ q) (c4 : ∀ l ∈ lines, 10 ∉ l.1 ∧ 58 ∉ l.1) (c5 : 10 ∉ h)
    (d1 : 10 ∉ m') (d2 : 10 ∉ pa') (d3 : 10 ∉ q') (d4 : ∀ l ∈ lines', 10 ∉ l.1 ∧ 58 ∉ l.1)
    (d5 : 10 ∉ h')
    (e : m ++ [10] ++ pa ++ [10] ++ q ++ [10] ++
        (lines.map fun l => l.1 ++ [58] ++ join 32 (lib.words l.2) ++ [10]).flatten ++ [10] ++
        join 59 (lines.map Prod.fst) ++ [10] ++ h =
      m' ++ [10] ++ pa' ++ [10] ++ q' ++ [10] ++
        (lines'.map fun l => l.1 ++ [58] ++ join 32 (lib.words l.2) ++ [10]).flatten ++ [10] ++
        join 59 (lines'.map Prod.fst) ++ [10] ++ h') :
    m = m' ∧ pa = pa' ∧ q = q' ∧ h = h' ∧
    lines.map (fun l => (l.1, join 32 (lib.words l.2))) =
      lines'.map (fun l => (l.1, join 32 (lib.words l.2))) := by
  let tl : Bytes × Bytes → Bytes := fun l => l.1 ++ [58] ++ join 32 (lib.words l.2)
  have form : ∀ ls : List (Bytes × Bytes),
      (ls.map fun l => l.1 ++ [58] ++ join 32 (lib.words l.2) ++ [10]).flatten =
        ((ls.map tl).map (· ++ [10])).flatten := by
    intro ls; rw [List.map_map]; rfl
  rw [form, form, text_lines, text_lines] at e
  have hwj : ∀ v, (10 : UInt8) ∉ join 32 (lib.words v) := fun v =>
    join_not_mem _ _ (by decide) _ (hw v)
  have noNl : ∀ (a b c s g : Bytes) (ls : List (Bytes × Bytes)), 10 ∉ a → 10 ∉ b → 10 ∉ c →
      (∀ l ∈ ls, 10 ∉ l.1 ∧ 58 ∉ l.1) → s = join 59 (ls.map Prod.fst) → 10 ∉ g →
      ∀ x ∈ [a, b, c] ++ ls.map tl ++ [[], s, g], (10 : UInt8) ∉ x := by
    intro a b c s g ls ha hb hc hls hs hg x hx
    simp only [List.mem_append, List.mem_cons, List.mem_map, List.not_mem_nil, or_false] at hx
    rcases hx with ((rfl | rfl | rfl) | ⟨l, hl, rfl⟩) | (rfl | rfl | rfl)
    · exact ha
    · exact hb
    · exact hc
    · simp only [tl, List.mem_append, List.mem_singleton, not_or]
      exact ⟨⟨(hls l hl).1, by decide⟩, hwj _⟩
    · simp
    · rw [hs]
      apply join_not_mem _ _ (by decide)
      intro y hy
      obtain ⟨l, hl, rfl⟩ := List.mem_map.1 hy
      exact (hls l hl).1
    · exact hg
  have e2 := congrArg (split (10 : UInt8)) e
  rw [split_join _ _ (by simp) (noNl _ _ _ _ _ lines c1 c2 c3 c4 rfl c5),
    split_join _ _ (by simp) (noNl _ _ _ _ _ lines' d1 d2 d3 d4 rfl d5)] at e2
  have hlen : (lines.map tl).length = (lines'.map tl).length := by
    have := congrArg List.length e2
    simp only [List.length_append, List.length_cons, List.length_nil] at this
    omega
  rw [List.append_assoc, List.append_assoc] at e2
  obtain ⟨f1, f2⟩ := List.append_inj e2 rfl
  obtain ⟨f3, f4⟩ := List.append_inj f2 hlen
  simp only [List.cons.injEq, and_true, true_and] at f1 f4
  refine ⟨f1.1, f1.2.1, f1.2.2, f4.2, ?_⟩
  have cutl : ∀ ls : List (Bytes × Bytes), (∀ l ∈ ls, 10 ∉ l.1 ∧ 58 ∉ l.1) →
      (ls.map tl).map (cut 58) = ls.map fun l => (l.1, some (join 32 (lib.words l.2))) := by
    intro ls hls
    rw [List.map_map]
    apply List.map_congr_left
    intro l hl
    simp only [Function.comp, tl, List.append_assoc, List.singleton_append]
    exact cut_append _ _ _ (hls l hl).2
  have f5 := congrArg (List.map (cut (58 : UInt8))) f3
  rw [cutl lines c4, cutl lines' d4] at f5
  have f6 := congrArg (List.map fun x : Bytes × Option Bytes => (x.1, x.2.getD [])) f5
  rw [List.map_map, List.map_map] at f6
  exact f6

/-- Two requests with the same canonical request have the same method, path and query parameters as
far as these are normalised, the same signed headers with the same values up to white space, and the
same payload hash. -/
theorem C73_unambiguous (hw : ∀ v, ∀ x ∈ lib.words v, (10 : UInt8) ∉ x)
    {dest dest' : Destination} {method method' : Bytes} {fs fs' : List (Field Bytes)}
    {p p' : Properties} {hash hash' : Bytes} (hd : Distinct lib.lower fs)
    (hd' : Distinct lib.lower fs') (hc : Clean lib dest method fs p hash)
    (hc' : Clean lib dest' method' fs' p' hash') (params params' : List (Bytes × Bytes))
    (hq : Params lib.decode dest.query params) (hq' : Params lib.decode dest'.query params')
    (e : canonicalText lib dest method fs p hash = canonicalText lib dest' method' fs' p' hash') :
    lib.upper method = lib.upper method' ∧
    specPath dest p = specPath dest' p' ∧ params.Perm params' ∧ hash = hash' ∧
    ∀ name, name ∉ unsignedHeaders → ∀ value, SignedValue lib dest fs name value →
      ∃ value', SignedValue lib dest' fs' name value' ∧
        join 32 (lib.words value) = join 32 (lib.words value') := by
  obtain ⟨lines, h1, _, h3⟩ := C33_signed_headers dest method p hash hd
  obtain ⟨lines', h1', _, h3'⟩ := C33_signed_headers dest' method' p' hash' hd'
  have hnames : ∀ (d : Destination) (gs : List (Field Bytes)) (ls : List (Bytes × Bytes)),
      (∀ f ∈ gs, 10 ∉ lib.lower f.name ∧ 58 ∉ lib.lower f.name) →
      (∀ name value, (name, value) ∈ ls ↔
        name ∉ unsignedHeaders ∧ SignedValue lib d gs name value) →
      ∀ l ∈ ls, 10 ∉ l.1 ∧ 58 ∉ l.1 := by
    intro d gs ls hg hls l hl
    obtain ⟨_, hv⟩ := (hls l.1 l.2).1 hl
    generalize l.1 = n at hv
    generalize l.2 = v at hv
    cases hv with
    | header f hf => exact hg f hf
    | host _ => exact ⟨by decide +kernel, by decide +kernel⟩
  rw [h3, h3'] at e
  obtain ⟨e1, e2, e3, e4, e5⟩ := parts_eq hw hc.method (nl_not_mem_path dest p hc.path)
    (nl_not_mem_query _ _) (hnames dest fs lines hc.names h1) hc.hash hc'.method
    (nl_not_mem_path dest' p' hc'.path) (nl_not_mem_query _ _)
    (hnames dest' fs' lines' hc'.names h1') hc'.hash e
  refine ⟨e1, by rw [← canonicalPath_eq, ← canonicalPath_eq]; exact e2, (C34_multiset _ _ params params' hq hq').1 e3, e4, ?_⟩
  intro name hn value hv
  have hm := (h1 name value).2 ⟨hn, hv⟩
  have : (name, join 32 (lib.words value)) ∈ lines'.map fun l => (l.1, join 32 (lib.words l.2)) := by
    rw [← e5]
    exact List.mem_map.2 ⟨(name, value), hm, rfl⟩
  obtain ⟨l, hl, he⟩ := List.mem_map.1 this
  obtain ⟨r1, r2⟩ := Prod.mk.inj he
  refine ⟨l.2, ?_, r2.symm⟩
  have := ((h1' l.1 l.2).1 hl).2
  rwa [r1] at this

/-! ## C74 -/

theorem lookup_find (hl : lib.lower (asc "X-Amz-Content-SHA256") = asc "x-amz-content-sha256")
    (hl' : lib.lower (asc "Content-Type") = asc "content-type") (fs : List (Field Bytes)) :
    lookup lib.lower fs (asc "X-Amz-Content-SHA256") =
      (fs.find? fun f => lib.lower f.name = asc "x-amz-content-sha256") ∧
    lookup lib.lower fs (asc "Content-Type") =
      (fs.find? fun f => lib.lower f.name = asc "content-type") := by
  simp only [lookup, same, hl, hl', and_self]

theorem required_lookup (hl : LowersAscii lib) (date : Bytes) (ident : Identity)
    {fs : List (Field Bytes)} (hd : Distinct lib.lower fs) (name : Bytes)
    (h1 : lib.lower name ≠ asc "x-amz-date") (h2 : lib.lower name ≠ asc "x-amz-security-token") :
    lookup lib.lower (required lib date ident fs) name = lookup lib.lower fs name := by
  obtain ⟨l1, l2, _⟩ := lower_added hl
  apply Option.ext
  intro f
  rw [lookup_iff (required_distinct date ident hd), lookup_iff hd, mem_required hl]
  constructor
  · rintro ⟨h3 | ⟨rfl, _⟩ | ⟨t, _, rfl, _⟩, h4⟩
    · exact ⟨h3, h4⟩
    · exact absurd (h4.symm.trans l1) h1
    · exact absurd (h4.symm.trans l2) h2
  · rintro ⟨h3, h4⟩
    exact ⟨Or.inl h3, h4⟩

theorem bodyHash_spec (dest : Destination) (p : Properties) (body : Option Body) (hash : Bytes)
    (h : bodyHash lib dest p body = .ok hash) :
    hash = if dest.scheme = asc "https" ∧ p.payloadSigning = some false then asc "UNSIGNED-PAYLOAD"
      else match body.map Body.pending with
        | none => asc "e3b0c44298fc1c149afbf4c8996fb92427ae41e4649b934ca495991b7852b855"
        | some c => lib.sha256 c := by
  have hc : (dest.scheme = asc "https" && !p.payloadSigning.getD true) = true ↔
      (dest.scheme = asc "https" ∧ p.payloadSigning = some false) := by
    cases p.payloadSigning with
    | none => simp
    | some b => cases b <;> simp
  unfold bodyHash at h
  by_cases hs : (dest.scheme = asc "https" && !p.payloadSigning.getD true) = true
  · rw [if_pos hs] at h
    rw [if_pos (hc.1 hs)]
    cases h; rfl
  · rw [if_neg hs] at h
    rw [if_neg fun x => hs (hc.2 x)]
    cases body with
    | none => cases h; rfl
    | some b => cases b <;> cases h <;> rfl

theorem payloadSpec_hash (hl : LowersAscii lib) (v : Variant) (dest : Destination) (p : Properties)
    (date : Bytes) (ident : Identity) {fs fs' : List (Field Bytes)} (hd : Distinct lib.lower fs)
    (body : Option Body) (hash : Bytes)
    (h : payloadSpec lib v dest p (required lib date ident fs) body = .ok (hash, fs')) :
    hash = specHash lib v dest p fs (body.map Body.pending) := by
  obtain ⟨l1, l2, l3, _, _, l6⟩ := lower_added hl
  obtain ⟨f1, f2⟩ := lookup_find l3 l6 fs
  have r1 := required_lookup hl date ident hd (asc "X-Amz-Content-SHA256")
    (by rw [l3]; decide +kernel) (by rw [l3]; decide +kernel)
  have r2 := required_lookup hl date ident hd (asc "Content-Type")
    (by rw [l6]; decide +kernel) (by rw [l6]; decide +kernel)
  unfold payloadSpec presetPayload at h
  unfold specHash
  have own : ∀ fs0, (match bodyHash lib dest p body with
      | .error e => Except.error e
      | .ok hash => .ok (hash, if p.contentChecksum.getD false then
          put lib.lower fs0 ⟨asc "X-Amz-Content-SHA256", [hash], .header⟩ else fs0)) =
        .ok (hash, fs') →
      hash = if dest.scheme = asc "https" ∧ p.payloadSigning = some false then asc "UNSIGNED-PAYLOAD"
      else match body.map Body.pending with
        | none => asc "e3b0c44298fc1c149afbf4c8996fb92427ae41e4649b934ca495991b7852b855"
        | some c => lib.sha256 c := by
    intro fs0 h
    cases hb : bodyHash lib dest p body with
    | error e => rw [hb] at h; cases h
    | ok x =>
      rw [hb] at h
      obtain ⟨rfl, _⟩ := Prod.mk.inj (Except.ok.inj h)
      exact bodyHash_spec dest p body _ hb
  cases v with
  | sync => exact own _ h
  | async =>
    simp only [r1, r2, f1, f2] at h ⊢
    simp only [← asString_eq]
    generalize (fs.find? fun f => lib.lower f.name = asc "x-amz-content-sha256").map Field.values = l at h ⊢
    generalize (fs.find? fun f => lib.lower f.name = asc "content-type").map
      (fun f => asString f.values) = ct at h ⊢
    by_cases he : ct = some eventStreamType
    · have he' : ct = some (asc "application/vnd.amazon.eventstream") := he
      match l, h with
      | none, h => simp only [if_pos he] at h; simp only [if_pos he']; cases h; rfl
      | some [], h => simp only [if_pos he] at h; simp only [if_pos he']; cases h; rfl
      | some [x], h => cases h; rfl
      | some (a :: b :: t), h => simp only [if_pos he] at h; simp only [if_pos he']; cases h; rfl
    · have he' : ¬ct = some (asc "application/vnd.amazon.eventstream") := he
      match l, h with
      | none, h => simp only [if_neg he] at h; simp only [if_neg he']; exact own _ h
      | some [], h => simp only [if_neg he] at h; simp only [if_neg he']; exact own _ h
      | some [x], h => cases h; rfl
      | some (a :: b :: t), h => simp only [if_neg he] at h; simp only [if_neg he']; exact own _ h

/-- The authorization of a signed request is the Signature Version 4 signature of the request as it
is sent, over all its headers that are signed, its destination and its content, for the date of
signing and the scope of the credentials. -/
theorem C74_signature (hl : LowersAscii lib) (v : Variant) (now : Bytes) {w w' : World}
    {r r' : Request} {fs : List (Field Bytes)} (h : Holds lib w r.fields fs) (ident : Identity)
    (p : Properties) (hs : sign lib v now w r ident p = (w', .ok r')) :
    ∃ (sent : List (Field Bytes)) (lines : List (Bytes × Bytes)) (date hash : Bytes),
      Holds lib w' r'.fields sent ∧ date = p.date.getD now ∧
      hash = specHash lib v r.destination p fs ((bodyOf w' r').map Body.pending) ∧
      (∀ name value, (name, value) ∈ lines ↔
        name ∉ unsignedHeaders ∧ SignedValue lib r'.destination sent name value) ∧
      (lines.map Prod.fst).Pairwise (fun a b => leB a b = true ∧ a ≠ b) ∧
      (⟨asc "Authorization", [asc "AWS4-HMAC-SHA256 Credential=" ++ (ident.accessKey ++ [47] ++
          (date.take 8 ++ [47] ++ p.region ++ [47] ++ p.service ++ asc "/aws4_request")) ++
          asc ", SignedHeaders=" ++ join 59 (lines.map Prod.fst) ++ asc ", Signature=" ++
          specSignature lib ident.secretKey date p.region p.service
            (lib.upper r'.method ++ [10] ++ specPath r'.destination p ++ [10] ++
              canonicalQuery lib.decode r'.destination.query ++ [10] ++
              (lines.map fun l => l.1 ++ [58] ++ join 32 (lib.words l.2) ++ [10]).flatten ++ [10] ++
              join 59 (lines.map Prod.fst) ++ [10] ++ hash)], .header⟩ : Field Bytes) ∈ sent := by
  obtain ⟨hash, fs2, hps, hd2, u, hdst, hm, hf, hp, hfo, hh⟩ := sign_ok v now h ident p hs
  obtain ⟨_, _, _, l4, _⟩ := lower_added hl
  have hex : ∀ x : List Bytes, lib.lower (⟨asc "Authorization", x, .header⟩ : Field Bytes).name ∈
      excludedHeaders := fun _ => by simp only [l4]; decide +kernel
  have hds := hh.distinct
  refine ⟨_, signingFields lib r.destination fs2, p.date.getD now, hash, hh, rfl, ?_, ?_, ?_, ?_⟩
  · rw [hp]; exact payloadSpec_hash hl v _ p _ ident h.distinct _ hash hps
  · intro name value
    rw [hdst, ← signingFields_put r.destination fs2 _ (hex _), signingFields_eq _ hds,
      (sortPairs_perm _).mem_iff]
    exact mem_unsorted r.destination _ name value
  · rw [signingFields_eq _ hd2, List.pairwise_map]
    have hn : ((sortPairs (unsorted lib r.destination (fs2.map (key lib)))).map Prod.fst).Nodup :=
      ((sortPairs_perm _).map Prod.fst).nodup_iff.2 (unsorted_nodup r.destination hd2)
    rw [List.Nodup, List.pairwise_map] at hn
    refine ((sortPairs_sorted _).and hn).imp ?_
    rintro a b ⟨h1, h2⟩
    unfold leP at h1
    rw [if_neg h2] at h1
    exact ⟨h1, h2⟩
  · rw [mem_put hd2]
    left
    rw [hdst, hm, ← canonicalPath_eq]
    simp only [authValue, authorization, scope, signature, stringToSign, canonicalText,
      canonicalFields, List.flatMap, specSignature, nl]
    rfl

/-- With a content checksum asked for, the hash that is signed is sent. -/
theorem C74_content_hash (hl : LowersAscii lib) (v : Variant) (now : Bytes) {w w' : World}
    {r r' : Request} {fs : List (Field Bytes)} (h : Holds lib w r.fields fs) (ident : Identity)
    (p : Properties) (hp : p.contentChecksum = some true)
    (hs : sign lib v now w r ident p = (w', .ok r')) :
    ∃ sent, Holds lib w' r'.fields sent ∧ ∃ f ∈ sent, lib.lower f.name = asc "x-amz-content-sha256" ∧
      f.values = [specHash lib v r.destination p fs ((bodyOf w' r').map Body.pending)] := by
  obtain ⟨hash, fs2, hps, hd2, u, hdst, hm, hf, hpend, hfo, hh⟩ := sign_ok v now h ident p hs
  obtain ⟨_, _, l3, l4, _⟩ := lower_added hl
  have hdr := required_distinct (lib := lib) (p.date.getD now) ident h.distinct
  have hhash := payloadSpec_hash hl v _ p _ ident h.distinct _ hash hps
  have hin : ∃ f ∈ fs2, lib.lower f.name = asc "x-amz-content-sha256" ∧ f.values = [hash] := by
    have hput : ∀ x, fs2 = put lib.lower (required lib (p.date.getD now) ident fs)
        ⟨asc "X-Amz-Content-SHA256", [x], .header⟩ →
        ∃ f ∈ fs2, lib.lower f.name = asc "x-amz-content-sha256" ∧ f.values = [x] := by
      rintro x rfl
      exact ⟨_, (mem_put hdr _ _).2 (Or.inl rfl), l3, rfl⟩
    rcases payloadSpec_fields v _ p _ _ hash fs2 hps with e | e
    · unfold payloadSpec at hps
      cases hpre : presetPayload lib v (required lib (p.date.getD now) ident fs) with
      | none =>
        rw [hpre] at hps
        simp only at hps
        cases hb : bodyHash lib r.destination p (bodyOf w r) with
        | error e => rw [hb] at hps; cases hps
        | ok x =>
          rw [hb] at hps
          simp only [hp, Option.getD_some, if_true] at hps
          obtain ⟨rfl, e2⟩ := Prod.mk.inj (Except.ok.inj hps)
          exact hput _ e2.symm
      | some y =>
        rw [hpre] at hps
        obtain ⟨rfl⟩ := Except.ok.inj hps
        unfold presetPayload at hpre
        cases v with
        | sync => cases hpre
        | async =>
          simp only at hpre
          split at hpre
          · rename_i x hx
            obtain ⟨rfl, rfl⟩ := Prod.mk.inj (Option.some.inj hpre)
            obtain ⟨f, hf, hv⟩ := Option.map_eq_some_iff.1 hx
            obtain ⟨g1, g2⟩ := (lookup_iff hdr _ _).1 hf
            exact ⟨f, g1, g2.trans l3, hv⟩
          · split at hpre
            · obtain ⟨rfl, e2⟩ := Prod.mk.inj (Option.some.inj hpre)
              exact hput _ e2.symm
            · cases hpre
    · exact hput _ e
  obtain ⟨f, hf1, hf2, hf3⟩ := hin
  refine ⟨_, hh, f, (mem_put hd2 _ _).2 (Or.inr ⟨hf1, ?_⟩), hf2, ?_⟩
  · simp only [hf2, l4]
    decide +kernel
  · rw [hf3, hpend, hhash]

/-- Unless the caller gave a date, the date that is signed is the one sent as `X-Amz-Date`. -/
theorem C74_date_partial (hl : LowersAscii lib) (v : Variant) (now : Bytes) {w w' : World}
    {r r' : Request} {fs : List (Field Bytes)} (h : Holds lib w r.fields fs) (ident : Identity)
    (p : Properties) (hs : sign lib v now w r ident p = (w', .ok r'))
    (hno : ∀ f ∈ fs, lib.lower f.name ≠ asc "x-amz-date" ∧ lib.lower f.name ≠ asc "date") :
    ∃ sent, Holds lib w' r'.fields sent ∧
      ∀ f, (f ∈ sent ∧ lib.lower f.name = asc "x-amz-date") ↔
        f = ⟨asc "X-Amz-Date", [p.date.getD now], .header⟩ := by
  obtain ⟨_, _, _, _, fs', hh, _, hdate, _⟩ := C35_only_signing_headers hl v now h ident p hs
  refine ⟨fs', hh, fun f => ?_⟩
  rw [hdate f]
  constructor
  · rintro (⟨h1, h2⟩ | ⟨h1, _⟩)
    · exact absurd h2 (hno f h1).1
    · exact h1
  · intro e
    exact Or.inr ⟨e, hno⟩

/-! ## Where the claims do not hold -/

def someIdentity : Identity := ⟨asc "AK", asc "SK", some (asc "new"), false⟩
def someProperties : Properties := ⟨asc "r", asc "s", some (asc "20300102T000000Z"), none, none, none⟩

/-- One request without headers and with a body. -/
def oneWorld (headers : List (Field Bytes)) (body : Body) : World :=
  ⟨headers, [headers.mapIdx fun i f => (asciiLib.lower f.name, i)], [body]⟩

def oneRequest : Request := ⟨plainDestination, asc "GET", some 0, 0⟩

/-- The headers a signed request is sent with. -/
def sentFields (out : World × Except Error Request) : Option (List (Field Bytes)) :=
  match out with
  | (w, .ok r) => some (w.fields r.fields)
  | (_, .error _) => none

/-- Signing consumes an iterator: afterwards the caller's request has no content, and signing it
again gives another signature. -/
theorem C35_iterator_fails :
    let w := oneWorld [] (.iterator [asc "body"])
    let out := sign asciiLib .sync [] w oneRequest someIdentity someProperties
    (bodyOf w oneRequest).map Body.pending = some (asc "body") ∧
    (bodyOf out.1 oneRequest).map Body.pending = some [] ∧
    (sentFields out).isSome = true ∧
    sentFields (sign asciiLib .sync [] out.1 oneRequest someIdentity someProperties) ≠
      sentFields out := by
  decide +kernel

/-- A request that already has a date (for instance from being signed before) is sent with that date,
but signed for the date of signing; a security token it already has is kept instead of that of the
credentials. -/
theorem C74_stale_headers_fails :
    let stale : List (Field Bytes) := [⟨asc "X-Amz-Date", [asc "20200101T000000Z"], .header⟩,
      ⟨asc "X-Amz-Security-Token", [asc "old"], .header⟩]
    let out := sign asciiLib .async [] (oneWorld stale (.chunks [])) oneRequest someIdentity
      someProperties
    (sentFields out).map (fun fs => (fs.filter fun f => f.name ≠ asc "Authorization").map Field.values) =
      some [[asc "20200101T000000Z"], [asc "old"]] ∧
    (sentFields out).map (fun fs => fs.any fun f => f.values.any fun value =>
      (asc "AWS4-HMAC-SHA256 Credential=AK/20300102/r/s/aws4_request").isPrefixOf value) =
      some true := by
  decide +kernel

/-- The host that is signed for a request without a `host` header has the user name and the password of the destination, and
no brackets around an IPv6 address, so that it is no host of RFC 3986 and its port cannot be told from the address. -/
theorem C74_host_fails :
    canonicalText asciiLib { plainDestination with username := some (asc "user"), password := some (asc "secret") }
      (asc "GET") [] someProperties (asc "hash") = asc "GET\n/\n\nhost:user:secret@h\n\nhost\nhash" ∧
    canonicalText asciiLib { plainDestination with host := asc "fd00::1", port := some 8 }
      (asc "GET") [] someProperties (asc "hash") =
    canonicalText asciiLib { plainDestination with host := asc "fd00::1:8" }
      (asc "GET") [] someProperties (asc "hash") := by
  refine ⟨?_, ?_⟩ <;> decide +kernel

/-! ## The hypotheses are met -/

theorem oneWorld_holds : Holds asciiLib
    (oneWorld [⟨asc "B", [asc "1", asc "2"], .header⟩, ⟨asc "a", [asc " x  y "], .header⟩]
      (.chunks [asc "body"])) 0
    [⟨asc "B", [asc "1", asc "2"], .header⟩, ⟨asc "a", [asc " x  y "], .header⟩] :=
  ⟨by decide +kernel, ⟨.cons ⟨by decide +kernel, by decide +kernel⟩
    (.cons ⟨by decide +kernel, by decide +kernel⟩ .nil), by decide +kernel, by decide +kernel⟩⟩

/-- A request that is signed, with the headers in the order of the caller and the added ones. -/
example : (sentFields (sign asciiLib .sync []
      (oneWorld [⟨asc "B", [asc "1", asc "2"], .header⟩, ⟨asc "a", [asc " x  y "], .header⟩]
        (.chunks [asc "body"])) oneRequest someIdentity someProperties)).map
      (fun fs => fs.map Field.name) =
    some [asc "B", asc "a", asc "X-Amz-Date", asc "X-Amz-Security-Token", asc "Authorization"] := by
  decide +kernel

/-- Two collections that differ in casing and order. -/
example : let fs : List (Field Bytes) := [⟨asc "B", [asc "1"], .header⟩, ⟨asc "a", [asc "x"], .header⟩]
    let gs : List (Field Bytes) := [⟨asc "A", [asc "x"], .header⟩, ⟨asc "b", [asc "1"], .header⟩]
    (fs.map fun f => (asciiLib.lower f.name, f.values)).Perm
      (gs.map fun f => (asciiLib.lower f.name, f.values)) ∧ fs ≠ gs := by
  refine ⟨?_, by decide +kernel⟩
  have : ∀ x y : Bytes × List Bytes, [x, y].Perm [y, x] := fun x y => List.Perm.swap y x []
  exact this (asc "b", [asc "1"]) (asc "a", [asc "x"])

/-- Clean requests. -/
example : Clean asciiLib plainDestination (asc "get") [⟨asc "B", [asc "1"], .header⟩] someProperties
    (asc "hash") :=
  ⟨by decide +kernel, by decide +kernel, by decide +kernel, by intro h; cases h⟩

example : canonicalText asciiLib plainDestination (asc "get")
    [⟨asc "B", [asc "1", asc "2"], .header⟩, ⟨asc "a", [asc " x  y "], .header⟩,
      ⟨asc "User-Agent", [asc "u"], .header⟩] someProperties (asc "hash") =
    asc "GET\n/\n\na:x y\nb:1,2\nhost:h\n\na;b;host\nhash" := by decide +kernel

end Verif.Signing
