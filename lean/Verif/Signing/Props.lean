import Verif.Signing.Lemmas
import Mathlib.Data.List.Nodup

/-!
# What signing does (C33, C35, C73, C74)

`Holds lib w c fs` says that the header collection at address `c` holds the fields `fs`, in order, no
two of the same name and no object twice: what `Fields` guarantees (C25).
-/

set_option autoImplicit false

namespace Verif.Signing

open Verif.Uri Verif.Text Verif.Fields

variable {lib : Lib}

/-! ## Specification -/

/-- ASCII lower case. -/
def asciiLower (b : UInt8) : UInt8 := if 65 ≤ b.toNat ∧ b.toNat ≤ 90 then b + 32 else b

/-- `str.lower` on ASCII text. -/
def LowersAscii (lib : Lib) : Prop :=
  ∀ t : Bytes, (∀ b ∈ t, b.toNat < 128) → lib.lower t = t.map asciiLower

/-- The authority of a destination, without the default port of its scheme. -/
def authority (lib : Lib) (dest : Destination) : Bytes :=
  (match dest.username, dest.password with
    | none, _ => []
    | some name, none => name ++ asc "@"
    | some name, some password => name ++ asc ":" ++ password ++ asc "@") ++
  dest.host ++
  (match dest.port with
    | none => []
    | some port =>
      if (dest.scheme = asc "http" ∧ port = 80) ∨ (dest.scheme = asc "https" ∧ port = 443) then []
      else asc ":" ++ lib.decimal port)

/-- The values of a header as one text: several are separated by commas and quoted where they have
commas or quotes. -/
def headerText : List Bytes → Bytes
  | [] => []
  | [v] => v
  | vs => join 44 (vs.map fun v => if 44 ∈ v ∨ 34 ∈ v then
      34 :: (v.flatMap fun b => if b = 92 ∨ b = 34 then [92, b] else [b]) ++ [34] else v)

/-- The value a header contributes: that of the header of this name, or for `host`, if there is no
such header, the destination's authority without the default port of its scheme. -/
inductive SignedValue (lib : Lib) (dest : Destination) (fs : List (Field Bytes)) :
    Bytes → Bytes → Prop
  | header (f : Field Bytes) (h : f ∈ fs) : SignedValue lib dest fs (lib.lower f.name) (headerText f.values)
  | host (h : ∀ f ∈ fs, lib.lower f.name ≠ asc "host") :
      SignedValue lib dest fs (asc "host") (authority lib dest)

/-- Headers that are not signed. -/
def unsignedHeaders : List Bytes :=
  ["accept", "accept-encoding", "authorization", "connection", "expect", "user-agent",
    "x-amzn-trace-id"].map asc

/-! ## The signed headers -/

theorem assign_new (d : List (Bytes × Bytes)) (k v : Bytes) (h : ∀ x ∈ d, x.1 ≠ k) :
    assign d k v = d ++ [(k, v)] := by
  unfold assign
  rw [if_neg]
  rw [List.any_eq_true]
  rintro ⟨x, hx, he⟩
  exact h x hx (by simpa using he)

theorem fold_assign (fs : List (Field Bytes)) : ∀ d : List (Bytes × Bytes),
    Distinct lib.lower fs → (∀ x ∈ d, ∀ f ∈ fs, x.1 ≠ lib.lower f.name) →
    fs.foldl (fun d f => assign d (lib.lower f.name) (asString f.values)) d =
      d ++ fs.map fun f => (lib.lower f.name, asString f.values) := by
  induction fs with
  | nil => intro d _ _; simp
  | cons f fs ih =>
    intro d hd hx
    obtain ⟨h1, h2⟩ := List.pairwise_cons.1 hd
    rw [List.foldl_cons, assign_new _ _ _ (fun x h => hx x h f (by simp)), ih _ h2]
    · simp
    · intro x hx' g hg
      rcases List.mem_append.1 hx' with h | h
      · exact hx x h g (by simp [hg])
      · rw [List.mem_singleton.1 h]; exact h1 g hg

theorem hostField_eq (dest : Destination) : hostField lib dest = authority lib dest := by
  obtain ⟨scheme, username, password, host, port, path, query⟩ := dest
  have hne : asc "https" ≠ asc "http" := by decide +kernel
  have tail : ∀ u : Bytes, u ++ host ++ [] = u ++ host := fun u => List.append_nil _
  cases port with
  | none =>
    simp only [hostField, netloc, authority, Option.isSome_none, Bool.false_and]
    cases username <;> cases password <;> simp <;> rfl
  | some port =>
    have hd : (decide (defaultPort scheme = some port) = true) ↔
        ((scheme = asc "http" ∧ port = 80) ∨ (scheme = asc "https" ∧ port = 443)) := by
      unfold defaultPort
      by_cases h1 : scheme = asc "http"
      · have h2 : ¬scheme = asc "https" := fun h => hne (h.symm.trans h1)
        simp only [h1, if_true, decide_eq_true_eq, Option.some.injEq, true_and]
        rw [h1] at h2
        simp only [h2, false_and, or_false]
        exact eq_comm
      · by_cases h2 : scheme = asc "https"
        · simp only [h1, h2, hne, if_false, if_true, decide_eq_true_eq, Option.some.injEq, true_and,
            false_and, false_or]
          exact eq_comm
        · simp [h1, h2]
    simp only [hostField, netloc, authority, Option.isSome_some, Bool.true_and]
    by_cases hp : (scheme = asc "http" ∧ port = 80) ∨ (scheme = asc "https" ∧ port = 443)
    · rw [if_pos hp, if_pos (hd.2 hp)]
      cases username <;> cases password <;> simp <;> rfl
    · rw [if_neg hp, if_neg fun h => hp (hd.1 h)]
      cases username <;> cases password <;> simp <;> rfl

theorem asString_eq (vs : List Bytes) : asString vs = headerText vs := by
  match vs with
  | [] => rfl
  | [v] => rfl
  | a :: b :: vs =>
    have : quoteValue = fun v => if 44 ∈ v ∨ 34 ∈ v then
      34 :: (v.flatMap fun b => if b = 92 ∨ b = 34 then [92, b] else [b]) ++ [34] else v := by
      funext v
      simp only [quoteValue, show ch ',' = 44 from rfl, show ch '"' = 34 from rfl,
        show ch '\\' = 92 from rfl]
      split
      · congr 1
        congr 1
        simp only [List.singleton_append, List.cons.injEq, true_and]
        congr 1
        funext b
        by_cases h1 : b = 92
        · simp [h1]
        · by_cases h2 : b = 34 <;> simp [h1, h2]
      · rfl
    simp only [asString, headerText, this]
    rfl

/-- The fields to sign before sorting, from the fields as far as casing does not matter. -/
def unsorted (lib : Lib) (dest : Destination) (keys : List (Bytes × List Bytes)) :
    List (Bytes × Bytes) :=
  let d := (keys.filter fun x => x.1 ∉ excludedHeaders).map fun x => (x.1, asString x.2)
  if d.any (fun x => x.1 = asc "host") then d else d ++ [(asc "host", hostField lib dest)]

theorem signingFields_eq (dest : Destination) {fs : List (Field Bytes)}
    (hd : Distinct lib.lower fs) :
    signingFields lib dest fs = sortPairs (unsorted lib dest (fs.map (key lib))) := by
  unfold signingFields unsorted
  have hd' : Distinct lib.lower (fs.filter fun f => lib.lower f.name ∉ excludedHeaders) :=
    hd.filter _
  simp only [fold_assign _ [] hd' (by simp), List.nil_append]
  have : ((fs.map (key lib)).filter fun x => x.1 ∉ excludedHeaders).map
      (fun x => (x.1, asString x.2)) =
      (fs.filter fun f => lib.lower f.name ∉ excludedHeaders).map
        fun f => (lib.lower f.name, asString f.values) := by
    rw [List.filter_map, List.map_map]
    rfl
  rw [this]

theorem unsorted_perm (dest : Destination) {k k' : List (Bytes × List Bytes)} (h : k.Perm k') :
    (unsorted lib dest k).Perm (unsorted lib dest k') := by
  unfold unsorted
  have h1 := ((h.filter fun x => decide (x.1 ∉ excludedHeaders)).map fun x => (x.1, asString x.2))
  have h2 : (((k.filter fun x => decide (x.1 ∉ excludedHeaders)).map fun x => (x.1, asString x.2)).any
      fun x => decide (x.1 = asc "host")) =
      (((k'.filter fun x => decide (x.1 ∉ excludedHeaders)).map fun x => (x.1, asString x.2)).any
      fun x => decide (x.1 = asc "host")) := h1.any_eq
  simp only [h2]
  split
  · exact h1
  · exact h1.append_right _

/-- Casing and order of the headers do not matter for what is signed. -/
theorem signingFields_perm (dest : Destination) {fs gs : List (Field Bytes)}
    (hf : Distinct lib.lower fs) (hg : Distinct lib.lower gs)
    (h : (fs.map (key lib)).Perm (gs.map (key lib))) :
    signingFields lib dest fs = signingFields lib dest gs := by
  rw [signingFields_eq dest hf, signingFields_eq dest hg, sortPairs_eq_iff]
  exact unsorted_perm dest h

theorem canonicalText_perm (dest : Destination) (method : Bytes) (p : Properties) (hash : Bytes)
    {fs gs : List (Field Bytes)} (hf : Distinct lib.lower fs) (hg : Distinct lib.lower gs)
    (h : (fs.map (key lib)).Perm (gs.map (key lib))) :
    canonicalText lib dest method fs p hash = canonicalText lib dest method gs p hash := by
  simp only [canonicalText, signingFields_perm dest hf hg h]

theorem authValue_perm (date : Bytes) (ident : Identity) (p : Properties) (dest : Destination)
    (method hash : Bytes) {fs gs : List (Field Bytes)} (hf : Distinct lib.lower fs)
    (hg : Distinct lib.lower gs) (h : (fs.map (key lib)).Perm (gs.map (key lib))) :
    authValue lib date ident p dest method fs hash = authValue lib date ident p dest method gs hash := by
  simp only [authValue, canonicalText_perm dest method p hash hf hg h, signingFields_perm dest hf hg h]

/-- Two outcomes of `payloadSpec` that differ in casing and order of the headers only. -/
def SamePayload (lib : Lib) (a b : Except Error (Bytes × List (Field Bytes))) : Prop :=
  match a, b with
  | .error e, .error e' => e = e'
  | .ok x, .ok y => x.1 = y.1 ∧ Distinct lib.lower x.2 ∧ Distinct lib.lower y.2 ∧
      (x.2.map (key lib)).Perm (y.2.map (key lib))
  | _, _ => False

theorem payloadSpec_perm (v : Variant) (dest : Destination) (p : Properties) (body : Option Body)
    {fs gs : List (Field Bytes)} (hf : Distinct lib.lower fs) (hg : Distinct lib.lower gs)
    (h : (fs.map (key lib)).Perm (gs.map (key lib))) :
    SamePayload lib (payloadSpec lib v dest p fs body) (payloadSpec lib v dest p gs body) := by
  have hp : ∀ f, SamePayload lib (.ok (f, put lib.lower fs ⟨asc "X-Amz-Content-SHA256", [f], .header⟩))
      (.ok (f, put lib.lower gs ⟨asc "X-Amz-Content-SHA256", [f], .header⟩)) := fun f =>
    ⟨rfl, put_distinct hf _, put_distinct hg _, put_key_perm hf hg h _⟩
  have hrest : SamePayload lib
      (match bodyHash lib dest p body with
        | .error e => .error e
        | .ok hash => .ok (hash, if p.contentChecksum.getD false then
          put lib.lower fs ⟨asc "X-Amz-Content-SHA256", [hash], .header⟩ else fs))
      (match bodyHash lib dest p body with
        | .error e => .error e
        | .ok hash => .ok (hash, if p.contentChecksum.getD false then
          put lib.lower gs ⟨asc "X-Amz-Content-SHA256", [hash], .header⟩ else gs)) := by
    cases bodyHash lib dest p body with
    | error e => exact rfl
    | ok hash =>
      by_cases hc : p.contentChecksum.getD false = true
      · simp only [if_pos hc]; exact hp hash
      · simp only [if_neg hc]; exact ⟨rfl, hf, hg, h⟩
  unfold payloadSpec presetPayload
  cases v with
  | sync => exact hrest
  | async =>
    have hct : (lookup lib.lower fs (asc "Content-Type")).map (fun f => asString f.values) =
        (lookup lib.lower gs (asc "Content-Type")).map (fun f => asString f.values) := by
      have := congrArg (Option.map asString) (lookup_perm hf hg h (asc "Content-Type"))
      rw [Option.map_map, Option.map_map] at this
      exact this
    simp only [lookup_perm hf hg h (asc "X-Amz-Content-SHA256"), hct]
    generalize (lookup lib.lower gs (asc "X-Amz-Content-SHA256")).map Field.values = l
    generalize (lookup lib.lower gs (asc "Content-Type")).map (fun f => asString f.values) = ct
    by_cases he : ct = some eventStreamType
    · match l with
      | none => simp only [if_pos he]; exact hp _
      | some [] => simp only [if_pos he]; exact hp _
      | some [hash] => exact ⟨rfl, hf, hg, h⟩
      | some (a :: b :: t) => simp only [if_pos he]; exact hp _
    · match l with
      | none => simp only [if_neg he]; exact hrest
      | some [] => simp only [if_neg he]; exact hrest
      | some [hash] => exact ⟨rfl, hf, hg, h⟩
      | some (a :: b :: t) => simp only [if_neg he]; exact hrest

theorem required_distinct (date : Bytes) (ident : Identity) {fs : List (Field Bytes)}
    (hf : Distinct lib.lower fs) : Distinct lib.lower (required lib date ident fs) := by
  unfold required
  have h1 : Distinct lib.lower (if (lookup lib.lower fs (asc "Date")).isSome ||
      (lookup lib.lower fs (asc "X-Amz-Date")).isSome then fs
    else put lib.lower fs ⟨asc "X-Amz-Date", [date], .header⟩) := by
    split
    · exact hf
    · exact put_distinct hf _
  generalize (if (lookup lib.lower fs (asc "Date")).isSome ||
      (lookup lib.lower fs (asc "X-Amz-Date")).isSome then fs
    else put lib.lower fs ⟨asc "X-Amz-Date", [date], .header⟩) = fs1 at h1 ⊢
  cases ident.token with
  | none => exact h1
  | some token =>
    simp only
    split
    · exact h1
    · exact put_distinct h1 _

theorem isSome_perm {fs gs : List (Field Bytes)} (hf : Distinct lib.lower fs)
    (hg : Distinct lib.lower gs) (h : (fs.map (key lib)).Perm (gs.map (key lib))) (name : Bytes) :
    (lookup lib.lower fs name).isSome = (lookup lib.lower gs name).isSome := by
  have := congrArg Option.isSome (lookup_perm hf hg h name)
  simpa using this

theorem required_perm (date : Bytes) (ident : Identity) {fs gs : List (Field Bytes)}
    (hf : Distinct lib.lower fs) (hg : Distinct lib.lower gs)
    (h : (fs.map (key lib)).Perm (gs.map (key lib))) :
    ((required lib date ident fs).map (key lib)).Perm ((required lib date ident gs).map (key lib)) := by
  unfold required
  rw [isSome_perm hf hg h (asc "Date"), isSome_perm hf hg h (asc "X-Amz-Date")]
  generalize hb : ((lookup lib.lower gs (asc "Date")).isSome ||
    (lookup lib.lower gs (asc "X-Amz-Date")).isSome) = b
  have key1 : ∀ (fs' gs' : List (Field Bytes)), Distinct lib.lower fs' → Distinct lib.lower gs' →
      (fs'.map (key lib)).Perm (gs'.map (key lib)) →
      ((match ident.token with
        | none => fs'
        | some token => if (lookup lib.lower fs' (asc "X-Amz-Security-Token")).isSome then fs'
          else put lib.lower fs' ⟨asc "X-Amz-Security-Token", [token], .header⟩).map (key lib)).Perm
      ((match ident.token with
        | none => gs'
        | some token => if (lookup lib.lower gs' (asc "X-Amz-Security-Token")).isSome then gs'
          else put lib.lower gs' ⟨asc "X-Amz-Security-Token", [token], .header⟩).map (key lib)) := by
    intro fs' gs' h1 h2 h3
    cases ident.token with
    | none => exact h3
    | some token =>
      simp only [isSome_perm h1 h2 h3]
      split
      · exact h3
      · exact put_key_perm h1 h2 h3 _
  cases b with
  | true => exact key1 fs gs hf hg h
  | false =>
    exact key1 _ _ (put_distinct hf _) (put_distinct hg _) (put_key_perm hf hg h _)

/-- Two requests to the same destination with the same method, body and headers up to the casing of
their names and their order have the same canonical request. -/
theorem C33_same_canonical_request (v : Variant) (p : Properties) {w w' : World} {r r' : Request}
    {fs gs : List (Field Bytes)} (h : Holds lib w r.fields fs) (h' : Holds lib w' r'.fields gs)
    (hk : (fs.map fun f => (lib.lower f.name, f.values)).Perm
      (gs.map fun f => (lib.lower f.name, f.values)))
    (hdest : r.destination = r'.destination) (hm : r.method = r'.method)
    (hbody : bodyOf w r = bodyOf w' r') :
    (canonicalRequest lib v w r p).2.map Prod.snd = (canonicalRequest lib v w' r' p).2.map Prod.snd := by
  have hs := payloadSpec_perm v r.destination p (bodyOf w r) h.distinct h'.distinct hk
  have s1 := canonicalPayload_spec v h p
  have s2 := canonicalPayload_spec v h' p
  rw [← hdest, ← hbody] at s2
  unfold canonicalRequest
  generalize payloadSpec lib v r.destination p fs (bodyOf w r) = a at hs s1
  generalize payloadSpec lib v r.destination p gs (bodyOf w r) = b at hs s2
  match a, b, hs with
  | .error e, .error e', hs =>
    have : e = e' := hs
    subst this
    simp only at s1 s2
    rw [s1, s2]
  | .ok (hash, fs'), .ok (hash', gs'), hs =>
    obtain ⟨e, d1, d2, hp⟩ := hs
    simp only at e
    subst e
    obtain ⟨w1, r1, e1, st1⟩ := s1
    obtain ⟨w2, r2, e2, st2⟩ := s2
    simp only [e1, e2, Except.map, st1.fields, st2.fields, st1.holds.fields, st2.holds.fields,
      st1.dest, st2.dest, st1.method, st2.method, ← hdest, ← hm]
    rw [canonicalText_perm r.destination r.method p hash d1 d2 hp]

/-- Neither has it any influence on signing: both fail alike, or both succeed with the same
authorization. -/
theorem C33_same_authorization (v : Variant) (now : Bytes) (ident : Identity) (p : Properties)
    {w w' : World} {r r' : Request} {fs gs : List (Field Bytes)} (h : Holds lib w r.fields fs)
    (h' : Holds lib w' r'.fields gs)
    (hk : (fs.map fun f => (lib.lower f.name, f.values)).Perm
      (gs.map fun f => (lib.lower f.name, f.values)))
    (hdest : r.destination = r'.destination) (hm : r.method = r'.method)
    (hbody : bodyOf w r = bodyOf w' r') :
    (∃ w1 w2 e, sign lib v now w r ident p = (w1, .error e) ∧
      sign lib v now w' r' ident p = (w2, .error e)) ∨
    ∃ w1 r1 w2 r2 auth, sign lib v now w r ident p = (w1, .ok r1) ∧
      sign lib v now w' r' ident p = (w2, .ok r2) ∧
      w1.get lib r1.fields (asc "Authorization") = some auth ∧
      w2.get lib r2.fields (asc "Authorization") = some auth := by
  by_cases he : ident.expired = true
  · exact Or.inl ⟨_, _, _, sign_expired v now w r ident p he, sign_expired v now w' r' ident p he⟩
  have he : ident.expired = false := by simpa using he
  have hs := payloadSpec_perm v r.destination p (bodyOf w r)
    (required_distinct (p.date.getD now) ident h.distinct)
    (required_distinct (p.date.getD now) ident h'.distinct)
    (required_perm (p.date.getD now) ident h.distinct h'.distinct hk)
  have s1 := sign_spec v now h ident p he
  have s2 := sign_spec v now h' ident p he
  rw [← hdest, ← hbody, ← hm] at s2
  generalize payloadSpec lib v r.destination p _ (bodyOf w r) = a at hs s1
  generalize payloadSpec lib v r.destination p _ (bodyOf w r) = b at hs s2
  match a, b, hs with
  | .error e, .error e', hs =>
    have : e = e' := hs
    subst this
    obtain ⟨w1, s1, _⟩ := s1
    obtain ⟨w2, s2, _⟩ := s2
    exact Or.inl ⟨_, _, _, s1, s2⟩
  | .ok (hash, fs'), .ok (hash', gs'), hs =>
    obtain ⟨e, d1, d2, hp⟩ := hs
    simp only at e d1 d2 hp
    subst e
    obtain ⟨w1, r1, e1, _, _, _, _, _, _, hh1⟩ := s1
    obtain ⟨w2, r2, e2, _, _, _, _, _, _, hh2⟩ := s2
    refine Or.inr ⟨w1, r1, w2, r2, ⟨asc "Authorization",
      [authValue lib (p.date.getD now) ident p r.destination r.method fs' hash], .header⟩, e1, e2, ?_, ?_⟩
    · rw [hh1.get, lookup_put d1, if_pos rfl]
    · rw [hh2.get, lookup_put d2, if_pos rfl, authValue_perm _ _ _ _ _ _ d1 d2 hp]

theorem mem_unsorted (dest : Destination) (fs : List (Field Bytes)) (n value : Bytes) :
    (n, value) ∈ unsorted lib dest (fs.map (key lib)) ↔
      n ∉ excludedHeaders ∧ SignedValue lib dest fs n value := by
  have hhost : asc "host" ∉ excludedHeaders := by decide +kernel
  have hmem : ∀ x : Bytes × Bytes, x ∈ ((fs.map (key lib)).filter fun x => x.1 ∉ excludedHeaders).map
      (fun x => (x.1, asString x.2)) ↔
      x.1 ∉ excludedHeaders ∧ ∃ f ∈ fs, lib.lower f.name = x.1 ∧ x.2 = asString f.values := by
    intro x
    constructor
    · intro h
      obtain ⟨y, hy, rfl⟩ := List.mem_map.1 h
      obtain ⟨hy, hne⟩ := List.mem_filter.1 hy
      obtain ⟨f, hf, rfl⟩ := List.mem_map.1 hy
      exact ⟨by simpa using hne, f, hf, rfl, rfl⟩
    · rintro ⟨hne, f, hf, h1, h2⟩
      refine List.mem_map.2 ⟨key lib f, List.mem_filter.2 ⟨List.mem_map.2 ⟨f, hf, rfl⟩, ?_⟩, ?_⟩
      · simpa [key, h1] using hne
      · exact Prod.ext h1 h2.symm
  unfold unsorted
  generalize hd : ((fs.map (key lib)).filter fun x => x.1 ∉ excludedHeaders).map
      (fun x => (x.1, asString x.2)) = d at hmem ⊢
  have hany : d.any (fun x => x.1 = asc "host") = true ↔ ∃ f ∈ fs, lib.lower f.name = asc "host" := by
    rw [List.any_eq_true]
    constructor
    · rintro ⟨x, hx, he⟩
      have he : x.1 = asc "host" := by simpa using he
      obtain ⟨_, f, hf, h1, _⟩ := (hmem x).1 hx
      exact ⟨f, hf, h1.trans he⟩
    · rintro ⟨f, hf, h1⟩
      exact ⟨(asc "host", asString f.values), (hmem _).2 ⟨hhost, f, hf, h1, rfl⟩, by simp⟩
  by_cases ha : d.any (fun x => x.1 = asc "host") = true
  · simp only [if_pos ha, hmem]
    constructor
    · rintro ⟨hne, f, hf, rfl, rfl⟩
      exact ⟨hne, asString_eq _ ▸ .header f hf⟩
    · rintro ⟨hne, hv⟩
      cases hv with
      | header f hf => exact ⟨hne, f, hf, rfl, (asString_eq _).symm⟩
      | host hno =>
        obtain ⟨f, hf, he⟩ := hany.1 ha
        exact absurd he (hno f hf)
  · simp only [if_neg ha, List.mem_append, hmem, List.mem_singleton]
    have hno : ∀ f ∈ fs, lib.lower f.name ≠ asc "host" := fun f hf he => ha (hany.2 ⟨f, hf, he⟩)
    constructor
    · rintro (⟨hne, f, hf, rfl, rfl⟩ | h)
      · exact ⟨hne, asString_eq _ ▸ .header f hf⟩
      · obtain ⟨rfl, rfl⟩ := Prod.mk.inj h
        exact ⟨hhost, hostField_eq dest ▸ .host hno⟩
    · rintro ⟨hne, hv⟩
      cases hv with
      | header f hf => exact Or.inl ⟨hne, f, hf, rfl, (asString_eq _).symm⟩
      | host _ => exact Or.inr (by rw [hostField_eq])

theorem unsorted_nodup (dest : Destination) {fs : List (Field Bytes)} (hd : Distinct lib.lower fs) :
    ((unsorted lib dest (fs.map (key lib))).map Prod.fst).Nodup := by
  have h1 : ((((fs.map (key lib)).filter fun x => x.1 ∉ excludedHeaders).map
      (fun x => (x.1, asString x.2))).map Prod.fst).Nodup := by
    rw [List.map_map]
    have h2 : ((fs.map (key lib)).map Prod.fst).Nodup := by
      rw [List.map_map, List.Nodup, List.pairwise_map]
      exact hd
    exact (h2.sublist ((List.filter_sublist (l := fs.map (key lib))).map Prod.fst))
  unfold unsorted
  simp only
  split
  · exact h1
  · rename_i hn
    rw [List.map_append, List.nodup_append]
    refine ⟨h1, by simp, ?_⟩
    intro a ha b hb
    rw [List.map_singleton, List.mem_singleton] at hb
    subst hb
    rintro rfl
    apply hn
    obtain ⟨x, hx, he⟩ := List.mem_map.1 ha
    rw [List.any_eq_true]
    exact ⟨x, hx, by simpa using he⟩

/-- The canonical request is method, path, query, one line for every signed header, the names of the
signed headers, and the payload hash.  The signed headers are all headers but the excluded ones, and
always `host`; each is listed once, in increasing order, with its value stripped of surplus white
space. -/
theorem C33_signed_headers (dest : Destination) (method : Bytes) (p : Properties) (hash : Bytes)
    {fs : List (Field Bytes)} (hd : Distinct lib.lower fs) :
    ∃ lines : List (Bytes × Bytes),
      (∀ name value, (name, value) ∈ lines ↔
        name ∉ unsignedHeaders ∧ SignedValue lib dest fs name value) ∧
      (lines.map Prod.fst).Pairwise (fun a b => leB a b = true ∧ a ≠ b) ∧
      canonicalText lib dest method fs p hash =
        lib.upper method ++ [10] ++ canonicalPath dest.path p ++ [10] ++
        canonicalQuery lib.decode dest.query ++ [10] ++
        (lines.map fun l => l.1 ++ [58] ++ join 32 (lib.words l.2) ++ [10]).flatten ++ [10] ++
        join 59 (lines.map Prod.fst) ++ [10] ++ hash := by
  refine ⟨signingFields lib dest fs, ?_, ?_, ?_⟩
  · intro name value
    rw [signingFields_eq dest hd, (sortPairs_perm _).mem_iff]
    exact mem_unsorted dest fs name value
  · rw [signingFields_eq dest hd, List.pairwise_map]
    have hn : ((sortPairs (unsorted lib dest (fs.map (key lib)))).map Prod.fst).Nodup :=
      ((sortPairs_perm _).map Prod.fst).nodup_iff.2 (unsorted_nodup dest hd)
    rw [List.Nodup, List.pairwise_map] at hn
    refine ((sortPairs_sorted _).and hn).imp ?_
    rintro a b ⟨h1, h2⟩
    unfold leP at h1
    rw [if_neg h2] at h1
    exact ⟨h1, h2⟩
  · simp only [canonicalText, canonicalFields, List.flatMap]
    rfl

/-! ## What excluded headers there are -/

/-- A library whose text functions work on ASCII. -/
def asciiLib : Lib where
  lower t := t.map asciiLower
  upper t := t.map fun b => if 97 ≤ b.toNat ∧ b.toNat ≤ 122 then b - 32 else b
  words t := (split (ch ' ') (t.map fun b => if b.toNat ≤ 32 then ch ' ' else b)).filter (· ≠ [])
  decode t := t
  decimal n := asc (toString n)
  sha256 t := ch '#' :: t
  hmac k m := k ++ m
  hex t := t

theorem asciiLib_lowers : LowersAscii asciiLib := fun _ _ => rfl

def plainDestination : Destination := ⟨asc "https", none, none, asc "h", none, none, none⟩

/-- `transfer-encoding`, which a proxy may change or remove, is signed. -/
theorem C33_transfer_encoding_fails :
    ∃ (dest : Destination) (fs : List (Field Bytes)), Distinct asciiLib.lower fs ∧
      asc "transfer-encoding" ∈ (signingFields asciiLib dest fs).map Prod.fst :=
  ⟨plainDestination, [⟨asc "Transfer-Encoding", [asc "chunked"], .header⟩], by decide +kernel,
    by decide +kernel⟩

/-! ## The caller's request -/

/-- Signing, successful or not, leaves every header, header collection and body that was there as it
was, except that an iterator given as the body is consumed. -/
theorem C35_untouched (v : Variant) (now : Bytes) {w : World} {r : Request}
    {fs : List (Field Bytes)} (h : Holds lib w r.fields fs) (ident : Identity) (p : Properties) :
    (∀ (a : Nat) f, w.objs[a]? = some f → (sign lib v now w r ident p).1.objs[a]? = some f) ∧
    (∀ (c : Nat) d, w.colls[c]? = some d → (sign lib v now w r ident p).1.colls[c]? = some d) ∧
    ∀ (b : Nat) body, w.bodies[b]? = some body →
      (r.body ≠ some b ∨ ∀ rest, body ≠ .iterator rest) →
      (sign lib v now w r ident p).1.bodies[b]? = some body := by
  by_cases he : ident.expired = true
  · rw [sign_expired v now w r ident p he]
    exact ⟨fun _ _ h => h, fun _ _ h => h, fun _ _ h _ => h⟩
  have s := sign_spec v now h ident p (by simpa using he)
  revert s
  generalize payloadSpec lib v r.destination p _ (bodyOf w r) = a
  intro s
  cases a with
  | error e =>
    obtain ⟨w', e1, u⟩ := s
    rw [e1]
    exact ⟨u.objs, u.colls, u.bodies⟩
  | ok x =>
    obtain ⟨w', r', e1, u, _⟩ := s
    rw [e1]
    exact ⟨u.objs, u.colls, u.bodies⟩

/-- The headers signing may add. -/
def addedHeaders : List Bytes :=
  ["x-amz-date", "x-amz-security-token", "x-amz-content-sha256", "authorization"].map asc

theorem lower_added (hl : LowersAscii lib) :
    lib.lower (asc "X-Amz-Date") = asc "x-amz-date" ∧
    lib.lower (asc "X-Amz-Security-Token") = asc "x-amz-security-token" ∧
    lib.lower (asc "X-Amz-Content-SHA256") = asc "x-amz-content-sha256" ∧
    lib.lower (asc "Authorization") = asc "authorization" ∧ lib.lower (asc "Date") = asc "date" ∧
    lib.lower (asc "Content-Type") = asc "content-type" := by
  refine ⟨?_, ?_, ?_, ?_, ?_, ?_⟩ <;>
  · rw [hl _ (by decide +kernel)]
    decide +kernel

theorem required_filter (hl : LowersAscii lib) (date : Bytes) (ident : Identity)
    (fs : List (Field Bytes)) :
    (required lib date ident fs).filter (fun g => decide (lib.lower g.name ∉ addedHeaders)) =
      fs.filter (fun g => decide (lib.lower g.name ∉ addedHeaders)) := by
  obtain ⟨l1, l2, _⟩ := lower_added hl
  have p1 : ∀ fs', (put lib.lower fs' ⟨asc "X-Amz-Date", [date], .header⟩).filter
      (fun g => decide (lib.lower g.name ∉ addedHeaders)) =
      fs'.filter (fun g => decide (lib.lower g.name ∉ addedHeaders)) := fun fs' =>
    put_filter fs' _ (fun n => decide (n ∉ addedHeaders)) (by simp only [l1]; decide +kernel)
  have p2 : ∀ token fs', (put lib.lower fs' ⟨asc "X-Amz-Security-Token", [token], .header⟩).filter
      (fun g => decide (lib.lower g.name ∉ addedHeaders)) =
      fs'.filter (fun g => decide (lib.lower g.name ∉ addedHeaders)) := fun token fs' =>
    put_filter fs' _ (fun n => decide (n ∉ addedHeaders)) (by simp only [l2]; decide +kernel)
  have h1 : (if (lookup lib.lower fs (asc "Date")).isSome ||
      (lookup lib.lower fs (asc "X-Amz-Date")).isSome then fs
    else put lib.lower fs ⟨asc "X-Amz-Date", [date], .header⟩).filter
      (fun g => decide (lib.lower g.name ∉ addedHeaders)) =
      fs.filter (fun g => decide (lib.lower g.name ∉ addedHeaders)) := by
    split
    · rfl
    · exact p1 fs
  unfold required
  generalize (if (lookup lib.lower fs (asc "Date")).isSome ||
      (lookup lib.lower fs (asc "X-Amz-Date")).isSome then fs
    else put lib.lower fs ⟨asc "X-Amz-Date", [date], .header⟩) = fs1 at h1 ⊢
  cases ident.token with
  | none => exact h1
  | some token =>
    simp only
    split
    · exact h1
    · rw [p2, h1]

theorem put_absent (fs : List (Field Bytes)) (f g : Field Bytes)
    (h : (lookup lib.lower fs f.name).isSome = false) :
    g ∈ put lib.lower fs f ↔ g ∈ fs ∨ g = f := by
  unfold put
  rw [if_neg (by simp [h])]
  simp

theorem isSome_false_iff (fs : List (Field Bytes)) (name : Bytes) :
    (lookup lib.lower fs name).isSome = false ↔ ∀ g ∈ fs, lib.lower g.name ≠ lib.lower name := by
  rw [← lookup_none_iff]
  simp

/-- The fields after the required ones are there. -/
theorem mem_required (hl : LowersAscii lib) (date : Bytes) (ident : Identity)
    (fs : List (Field Bytes)) (f : Field Bytes) :
    f ∈ required lib date ident fs ↔ f ∈ fs ∨
      (f = ⟨asc "X-Amz-Date", [date], .header⟩ ∧
        ∀ g ∈ fs, lib.lower g.name ≠ asc "x-amz-date" ∧ lib.lower g.name ≠ asc "date") ∨
      ∃ token, ident.token = some token ∧ f = ⟨asc "X-Amz-Security-Token", [token], .header⟩ ∧
        ∀ g ∈ fs, lib.lower g.name ≠ asc "x-amz-security-token" := by
  obtain ⟨l1, l2, _, _, l5, _⟩ := lower_added hl
  have hne : asc "x-amz-date" ≠ asc "x-amz-security-token" := by decide +kernel
  unfold required
  generalize hf : (if (lookup lib.lower fs (asc "Date")).isSome ||
      (lookup lib.lower fs (asc "X-Amz-Date")).isSome then fs
    else put lib.lower fs ⟨asc "X-Amz-Date", [date], .header⟩) = fs1
  have h1 : ∀ x, x ∈ fs1 ↔ x ∈ fs ∨ (x = ⟨asc "X-Amz-Date", [date], .header⟩ ∧
        ∀ g ∈ fs, lib.lower g.name ≠ asc "x-amz-date" ∧ lib.lower g.name ≠ asc "date") := by
    intro x
    subst hf
    by_cases hc : ((lookup lib.lower fs (asc "Date")).isSome ||
      (lookup lib.lower fs (asc "X-Amz-Date")).isSome) = true
    · rw [if_pos hc]
      refine ⟨Or.inl, ?_⟩
      rintro (h | ⟨_, h⟩)
      · exact h
      · exfalso
        have a1 := (isSome_false_iff (lib := lib) fs (asc "Date")).2 fun g hg => by
          rw [l5]; exact (h g hg).2
        have a2 := (isSome_false_iff (lib := lib) fs (asc "X-Amz-Date")).2 fun g hg => by
          rw [l1]; exact (h g hg).1
        rw [a1, a2] at hc
        cases hc
    · rw [if_neg hc]
      have hc : ((lookup lib.lower fs (asc "Date")).isSome ||
        (lookup lib.lower fs (asc "X-Amz-Date")).isSome) = false := by simpa using hc
      obtain ⟨c1, c2⟩ := Bool.or_eq_false_iff.1 hc
      have a1 := (isSome_false_iff (lib := lib) fs (asc "Date")).1 c1
      have a2 := (isSome_false_iff (lib := lib) fs (asc "X-Amz-Date")).1 c2
      rw [l5] at a1
      rw [l1] at a2
      rw [put_absent _ _ _ c2]
      exact or_congr_right ⟨fun h => ⟨h, fun g hg => ⟨a2 g hg, a1 g hg⟩⟩, fun h => h.1⟩
  have h2 : (∀ g ∈ fs1, lib.lower g.name ≠ asc "x-amz-security-token") ↔
      ∀ g ∈ fs, lib.lower g.name ≠ asc "x-amz-security-token" := by
    constructor
    · intro h g hg; exact h g ((h1 g).2 (Or.inl hg))
    · intro h g hg
      rcases (h1 g).1 hg with hg | ⟨rfl, _⟩
      · exact h g hg
      · rw [l1]; exact hne
  rw [← or_assoc, ← h1]
  cases ht : ident.token with
  | none => simp
  | some token =>
    simp only
    by_cases hc : (lookup lib.lower fs1 (asc "X-Amz-Security-Token")).isSome = true
    · rw [if_pos hc]
      refine ⟨Or.inl, ?_⟩
      rintro (h | ⟨_, _, _, h⟩)
      · exact h
      · exfalso
        have := (isSome_false_iff (lib := lib) fs1 (asc "X-Amz-Security-Token")).2 (by
          rw [l2]; exact h2.2 h)
        rw [this] at hc
        cases hc
    · rw [if_neg hc]
      have hc : (lookup lib.lower fs1 (asc "X-Amz-Security-Token")).isSome = false := by simpa using hc
      have a := (isSome_false_iff (lib := lib) fs1 (asc "X-Amz-Security-Token")).1 hc
      rw [l2, h2] at a
      rw [put_absent _ _ _ hc]
      constructor
      · rintro (h | h)
        · exact Or.inl h
        · exact Or.inr ⟨token, rfl, h, a⟩
      · rintro (h | ⟨t, ht, h, _⟩)
        · exact Or.inl h
        · cases ht; exact Or.inr h

/-- What `payloadSpec` does to the fields: nothing, or it sets the hash. -/
theorem payloadSpec_fields (v : Variant) (dest : Destination) (p : Properties)
    (fs : List (Field Bytes)) (body : Option Body) (hash : Bytes) (fs' : List (Field Bytes))
    (h : payloadSpec lib v dest p fs body = .ok (hash, fs')) :
    fs' = fs ∨ fs' = put lib.lower fs ⟨asc "X-Amz-Content-SHA256", [hash], .header⟩ := by
  unfold payloadSpec at h
  cases hp : presetPayload lib v fs with
  | some x =>
    rw [hp] at h
    cases h
    unfold presetPayload at hp
    cases v with
    | sync => cases hp
    | async =>
      simp only at hp
      split at hp
      · cases hp; exact Or.inl rfl
      · split at hp
        · cases hp; exact Or.inr rfl
        · cases hp
  | none =>
    rw [hp] at h
    simp only at h
    cases hb : bodyHash lib dest p body with
    | error e => rw [hb] at h; cases h
    | ok hash' =>
      rw [hb] at h
      simp only at h
      by_cases hc : p.contentChecksum.getD false = true
      · rw [if_pos hc] at h; cases h; exact Or.inr rfl
      · rw [if_neg hc] at h; cases h; exact Or.inl rfl

theorem payloadSpec_filter (hl : LowersAscii lib) (v : Variant) (dest : Destination) (p : Properties)
    (fs : List (Field Bytes)) (body : Option Body) (hash : Bytes) (fs' : List (Field Bytes))
    (h : payloadSpec lib v dest p fs body = .ok (hash, fs')) :
    fs'.filter (fun g => decide (lib.lower g.name ∉ addedHeaders)) =
      fs.filter (fun g => decide (lib.lower g.name ∉ addedHeaders)) := by
  obtain ⟨_, _, l3, _⟩ := lower_added hl
  rcases payloadSpec_fields v dest p fs body hash fs' h with rfl | rfl
  · rfl
  · exact put_filter fs _ (fun n => decide (n ∉ addedHeaders)) (by simp only [l3]; decide +kernel)

/-- The outcome of signing a request is decided by its fields and body. -/
theorem sign_ok (v : Variant) (now : Bytes) {w w' : World} {r r' : Request}
    {fs : List (Field Bytes)} (h : Holds lib w r.fields fs) (ident : Identity) (p : Properties)
    (hs : sign lib v now w r ident p = (w', .ok r')) :
    ∃ hash fs', payloadSpec lib v r.destination p (required lib (p.date.getD now) ident fs)
        (bodyOf w r) = .ok (hash, fs') ∧ Distinct lib.lower fs' ∧
      Untouched w r w' ∧
      r'.destination = r.destination ∧ r'.method = r.method ∧ r'.fields = w.colls.length ∧
      (bodyOf w' r').map Body.pending = (bodyOf w r).map Body.pending ∧
      (bodyOf w' r' = some .foreign ↔ bodyOf w r = some .foreign) ∧
      Holds lib w' r'.fields (put lib.lower fs' ⟨asc "Authorization",
        [authValue lib (p.date.getD now) ident p r.destination r.method fs' hash], .header⟩) := by
  have he : ident.expired = false := by
    cases hx : ident.expired with
    | false => rfl
    | true => rw [sign_expired v now w r ident p hx] at hs; cases hs
  have s := sign_spec v now h ident p he
  cases ha : payloadSpec lib v r.destination p (required lib (p.date.getD now) ident fs)
      (bodyOf w r) with
  | error e =>
    rw [ha] at s
    obtain ⟨w1, e1, _⟩ := s
    rw [e1] at hs
    cases hs
  | ok x =>
    rw [ha] at s
    obtain ⟨w1, r1, e1, rest⟩ := s
    rw [e1] at hs
    cases hs
    refine ⟨x.1, x.2, rfl, ?_, rest⟩
    have hd := required_distinct (lib := lib) (p.date.getD now) ident h.distinct
    rcases payloadSpec_fields v _ p _ _ x.1 x.2 ha with h1 | h1
    · rw [h1]; exact hd
    · rw [h1]; exact put_distinct hd _

/-- The signed request goes to the same place with the same method and content; its headers are the
caller's, in their order and casing, except for the four headers signing may add, and live in a new
collection.  The date header is added unless the caller gave a date, the security token if the
credentials have one and the caller gave none. -/
theorem C35_only_signing_headers (hl : LowersAscii lib) (v : Variant) (now : Bytes) {w w' : World}
    {r r' : Request} {fs : List (Field Bytes)} (h : Holds lib w r.fields fs) (ident : Identity)
    (p : Properties) (hs : sign lib v now w r ident p = (w', .ok r')) :
    r'.destination = r.destination ∧ r'.method = r.method ∧
    (bodyOf w' r').map Body.pending = (bodyOf w r).map Body.pending ∧
    w.colls.length ≤ r'.fields ∧
    (∃ fs', Holds lib w' r'.fields fs' ∧
      fs'.filter (fun f => decide (lib.lower f.name ∉ addedHeaders)) =
        fs.filter (fun f => decide (lib.lower f.name ∉ addedHeaders)) ∧
      (∀ f, (f ∈ fs' ∧ lib.lower f.name = asc "x-amz-date") ↔
        (f ∈ fs ∧ lib.lower f.name = asc "x-amz-date") ∨
        (f = ⟨asc "X-Amz-Date", [p.date.getD now], .header⟩ ∧
          ∀ g ∈ fs, lib.lower g.name ≠ asc "x-amz-date" ∧ lib.lower g.name ≠ asc "date")) ∧
      (∀ f, (f ∈ fs' ∧ lib.lower f.name = asc "x-amz-security-token") ↔
        (f ∈ fs ∧ lib.lower f.name = asc "x-amz-security-token") ∨
        (∃ token, ident.token = some token ∧
          f = ⟨asc "X-Amz-Security-Token", [token], .header⟩ ∧
          ∀ g ∈ fs, lib.lower g.name ≠ asc "x-amz-security-token"))) := by
  obtain ⟨hash, fs2, hps, hd2, _, hdst, hm, hf, hp, _, hh⟩ := sign_ok v now h ident p hs
  obtain ⟨l1, l2, l3, l4, l5, _⟩ := lower_added hl
  have hd := h.distinct
  refine ⟨hdst, hm, hp, by omega, _, hh, ?_, ?_, ?_⟩
  · rw [put_filter _ _ (fun n => decide (n ∉ addedHeaders)) (by simp only [l4]; decide +kernel),
      payloadSpec_filter hl v _ p _ _ hash fs2 hps, required_filter hl]
  all_goals
    intro f
    have hauth : ∀ n, n ≠ asc "authorization" → n ≠ asc "x-amz-content-sha256" →
        ((f ∈ put lib.lower fs2 ⟨asc "Authorization", [authValue lib (p.date.getD now) ident p
          r.destination r.method fs2 hash], .header⟩ ∧ lib.lower f.name = n) ↔
        (f ∈ required lib (p.date.getD now) ident fs ∧ lib.lower f.name = n)) := by
      intro n h1 h2
      rw [mem_put hd2]
      have : (f ∈ fs2 ∧ lib.lower f.name = n) ↔
          (f ∈ required lib (p.date.getD now) ident fs ∧ lib.lower f.name = n) := by
        rcases payloadSpec_fields v _ p _ _ hash fs2 hps with e | e
        · rw [e]
        · rw [e, mem_put (required_distinct _ _ hd)]
          constructor
          · rintro ⟨rfl | ⟨h3, _⟩, h4⟩
            · exact absurd (h4.symm.trans l3) h2
            · exact ⟨h3, h4⟩
          · rintro ⟨h3, h4⟩
            exact ⟨Or.inr ⟨h3, by rw [h4, l3]; exact h2⟩, h4⟩
      rw [← this]
      constructor
      · rintro ⟨rfl | ⟨h3, _⟩, h4⟩
        · exact absurd (h4.symm.trans l4) h1
        · exact ⟨h3, h4⟩
      · rintro ⟨h3, h4⟩
        exact ⟨Or.inr ⟨h3, by rw [h4, l4]; exact h1⟩, h4⟩
  · rw [hauth _ (by decide +kernel) (by decide +kernel), mem_required hl]
    constructor
    · rintro ⟨h1 | h1 | ⟨t, _, rfl, _⟩, h2⟩
      · exact Or.inl ⟨h1, h2⟩
      · exact Or.inr h1
      · exact absurd (l2.symm.trans h2) (by decide +kernel)
    · rintro (⟨h1, h2⟩ | ⟨rfl, h1⟩)
      · exact ⟨Or.inl h1, h2⟩
      · exact ⟨Or.inr (Or.inl ⟨rfl, h1⟩), l1⟩
  · rw [hauth _ (by decide +kernel) (by decide +kernel), mem_required hl]
    constructor
    · rintro ⟨h1 | ⟨rfl, _⟩ | h1, h2⟩
      · exact Or.inl ⟨h1, h2⟩
      · exact absurd (l1.symm.trans h2) (by decide +kernel)
      · exact Or.inr h1
    · rintro (⟨h1, h2⟩ | ⟨t, ht, rfl, h1⟩)
      · exact ⟨Or.inl h1, h2⟩
      · exact ⟨Or.inr (Or.inr ⟨t, ht, rfl, h1⟩), l2⟩

/-! ## Signing again -/

theorem Untouched.holds {w w' : World} {r : Request} (u : Untouched w r w') {c : Nat}
    {fs : List (Field Bytes)} (h : Holds lib w c fs) : Holds lib w' c fs := by
  obtain ⟨d, hd⟩ : ∃ d, w.colls[c]? = some d := ⟨_, List.getElem?_eq_getElem h.there⟩
  have hd' := u.colls c d hd
  refine ⟨?_, ?_⟩
  · by_contra hc
    rw [List.getElem?_eq_none (by omega)] at hd'
    cases hd'
  · have hr := h.rep
    rw [coll_of hd] at hr
    rw [coll_of hd']
    exact ⟨hr.all.imp fun _ _ hm => ⟨u.objs _ _ hm.1, hm.2⟩, hr.keys, hr.addrs⟩

/-- Signing the caller's request a second time at the same instant with the same credentials gives
the same headers and content, provided the body can be read again. -/
theorem C35_sign_again (v : Variant) (now now' : Bytes) {w w1 : World} {r r1 : Request}
    {fs : List (Field Bytes)} (h : Holds lib w r.fields fs) (ident : Identity) (p : Properties)
    (hnow : p.date.getD now = p.date.getD now')
    (hbody : ∀ b, r.body = some b → ∃ body, w.bodies[b]? = some body ∧
      ∀ rest, body ≠ .iterator rest)
    (hs : sign lib v now w r ident p = (w1, .ok r1)) :
    ∃ w2 r2, sign lib v now' w1 r ident p = (w2, .ok r2) ∧
      w2.fields r2.fields = w1.fields r1.fields ∧
      r2.destination = r1.destination ∧ r2.method = r1.method ∧
      (bodyOf w2 r2).map Body.pending = (bodyOf w1 r1).map Body.pending := by
  obtain ⟨hash, fs2, hps, hd2, u, hdst, hm, hf, hp, _, hh⟩ := sign_ok v now h ident p hs
  have he : ident.expired = false := by
    cases hx : ident.expired with
    | false => rfl
    | true => rw [sign_expired v now w r ident p hx] at hs; cases hs
  have hb : bodyOf w1 r = bodyOf w r := by
    unfold bodyOf
    cases hr : r.body with
    | none => rfl
    | some b =>
      obtain ⟨body, hb1, hb2⟩ := hbody b hr
      simp only [Option.map_some]
      rw [hb1, u.bodies b body hb1 (Or.inr hb2)]
  have s := sign_spec v now' (u.holds h) ident p he
  rw [hb, ← hnow, hps] at s
  obtain ⟨w2, r2, e2, _, hdst2, hm2, _, hp2, _, hh2⟩ := s
  exact ⟨w2, r2, e2, by rw [hh.fields, hh2.fields], hdst2.trans hdst.symm, hm2.trans hm.symm,
    hp2.trans hp.symm⟩

theorem bodyHash_congr (dest : Destination) (p : Properties) (b b' : Option Body)
    (h1 : b'.map Body.pending = b.map Body.pending) (h2 : b' = some .foreign ↔ b = some .foreign) :
    bodyHash lib dest p b' = bodyHash lib dest p b := by
  unfold bodyHash
  split
  · rfl
  · match b, b' with
    | none, none => rfl
    | none, some _ => cases h1
    | some _, none => cases h1
    | some x, some y =>
      have hp : y.pending = x.pending := Option.some.inj h1
      have hi : y = .foreign ↔ x = .foreign := by simpa using h2
      cases x <;> cases y <;> simp_all

theorem signingFields_put (dest : Destination) (fs : List (Field Bytes)) (f : Field Bytes)
    (h : lib.lower f.name ∈ excludedHeaders) :
    signingFields lib dest (put lib.lower fs f) = signingFields lib dest fs := by
  unfold signingFields
  rw [put_filter fs f (fun n => decide (n ∉ excludedHeaders)) (by simpa using h)]

theorem canonicalText_put (dest : Destination) (method : Bytes) (p : Properties) (hash : Bytes)
    (fs : List (Field Bytes)) (f : Field Bytes) (h : lib.lower f.name ∈ excludedHeaders) :
    canonicalText lib dest method (put lib.lower fs f) p hash =
      canonicalText lib dest method fs p hash := by
  simp only [canonicalText, signingFields_put dest fs f h]

theorem authValue_put (date : Bytes) (ident : Identity) (p : Properties) (dest : Destination)
    (method hash : Bytes) (fs : List (Field Bytes)) (f : Field Bytes)
    (h : lib.lower f.name ∈ excludedHeaders) :
    authValue lib date ident p dest method (put lib.lower fs f) hash =
      authValue lib date ident p dest method fs hash := by
  simp only [authValue, canonicalText_put dest method p hash fs f h, signingFields_put dest fs f h]

theorem presetPayload_congr (v : Variant) (fs gs : List (Field Bytes))
    (h1 : lookup lib.lower gs (asc "X-Amz-Content-SHA256") =
      lookup lib.lower fs (asc "X-Amz-Content-SHA256"))
    (h2 : lookup lib.lower gs (asc "Content-Type") = lookup lib.lower fs (asc "Content-Type"))
    (h3 : presetPayload lib v fs = none) : presetPayload lib v gs = none := by
  unfold presetPayload at h3 ⊢
  cases v with
  | sync => rfl
  | async =>
    simp only [h1, h2] at h3 ⊢
    split at h3
    · cases h3
    · split at h3
      · cases h3
      · rename_i hx hy
        generalize (lookup lib.lower fs (asc "X-Amz-Content-SHA256")).map Field.values = l at hx ⊢
        match l, hx with
        | none, _ => simp only [if_neg hy]
        | some [], _ => simp only [if_neg hy]
        | some [hash], hx => exact absurd rfl (hx hash)
        | some (a :: b :: t), _ => simp only [if_neg hy]

theorem payloadSpec_again (hl : LowersAscii lib) (v : Variant) (dest : Destination) (p : Properties)
    (fs fs2 : List (Field Bytes)) (hd : Distinct lib.lower fs) (body body' : Option Body)
    (hash : Bytes) (auth : Bytes)
    (h1 : body'.map Body.pending = body.map Body.pending)
    (h2 : body' = some .foreign ↔ body = some .foreign)
    (h : payloadSpec lib v dest p fs body = .ok (hash, fs2)) :
    payloadSpec lib v dest p (put lib.lower fs2 ⟨asc "Authorization", [auth], .header⟩) body' =
      .ok (hash, put lib.lower fs2 ⟨asc "Authorization", [auth], .header⟩) := by
  obtain ⟨_, _, l3, l4, _, l6⟩ := lower_added hl
  have n1 : asc "authorization" ≠ asc "x-amz-content-sha256" := by decide +kernel
  have n2 : asc "authorization" ≠ asc "content-type" := by decide +kernel
  have n3 : asc "x-amz-content-sha256" ≠ asc "content-type" := by decide +kernel
  have hd2 : Distinct lib.lower fs2 := by
    rcases payloadSpec_fields v dest p fs body hash fs2 h with e | e
    · rw [e]; exact hd
    · rw [e]; exact put_distinct hd _
  have k1 : ∀ gs, Distinct lib.lower gs →
      lookup lib.lower (put lib.lower gs ⟨asc "Authorization", [auth], .header⟩)
        (asc "X-Amz-Content-SHA256") = lookup lib.lower gs (asc "X-Amz-Content-SHA256") := by
    intro gs hg
    rw [lookup_put hg, if_neg]
    simp only [l3, l4]; exact n1
  have k2 : ∀ gs, Distinct lib.lower gs →
      lookup lib.lower (put lib.lower gs ⟨asc "Authorization", [auth], .header⟩)
        (asc "Content-Type") = lookup lib.lower gs (asc "Content-Type") := by
    intro gs hg
    rw [lookup_put hg, if_neg]
    simp only [l4, l6]; exact n2
  have preset : ∀ gs, Distinct lib.lower gs → lookup lib.lower gs (asc "X-Amz-Content-SHA256") =
      some ⟨asc "X-Amz-Content-SHA256", [hash], .header⟩ → v = .async →
      presetPayload lib v (put lib.lower gs ⟨asc "Authorization", [auth], .header⟩) =
        some (hash, put lib.lower gs ⟨asc "Authorization", [auth], .header⟩) := by
    intro gs hg hx hv
    subst hv
    simp only [presetPayload, k1 gs hg, hx, Option.map_some]
  unfold payloadSpec at h
  cases hp : presetPayload lib v fs with
  | some x =>
    rw [hp] at h
    cases h
    have hv : v = .async := by
      cases v with
      | sync => cases hp
      | async => rfl
    subst hv
    have hp' := hp
    unfold presetPayload at hp'
    simp only at hp'
    unfold payloadSpec
    split at hp'
    · rename_i hash' hx
      cases hp'
      have : presetPayload lib .async (put lib.lower fs ⟨asc "Authorization", [auth], .header⟩) =
          some (hash, put lib.lower fs ⟨asc "Authorization", [auth], .header⟩) := by
        simp only [presetPayload, k1 fs hd, hx]
      rw [this]
    · split at hp'
      · cases hp'
        rw [preset _ (put_distinct hd _) (by rw [lookup_put hd, if_pos rfl]) rfl]
      · cases hp'
  | none =>
    rw [hp] at h
    simp only at h
    cases hb : bodyHash lib dest p body with
    | error e => rw [hb] at h; cases h
    | ok hash' =>
      rw [hb] at h
      simp only at h
      have hb' := (bodyHash_congr (lib := lib) dest p body body' h1 h2).trans hb
      by_cases hc : p.contentChecksum.getD false = true
      · rw [if_pos hc] at h
        cases h
        have hlk : lookup lib.lower (put lib.lower fs ⟨asc "X-Amz-Content-SHA256", [hash], .header⟩)
            (asc "X-Amz-Content-SHA256") =
            some ⟨asc "X-Amz-Content-SHA256", [hash], .header⟩ := by
          rw [lookup_put hd, if_pos rfl]
        cases v with
        | async =>
          unfold payloadSpec
          rw [preset _ (put_distinct hd _) hlk rfl]
        | sync =>
          unfold payloadSpec
          simp only [presetPayload, hb', if_pos hc]
          rw [put_same (put_distinct hd2 _)]
          rw [k1 _ hd2]
          exact hlk
      · rw [if_neg hc] at h
        cases h
        unfold payloadSpec
        rw [presetPayload_congr v fs _ (k1 fs hd) (k2 fs hd) hp]
        simp only [hb', if_neg hc]

theorem required_again (hl : LowersAscii lib) (v : Variant) (dest : Destination) (p : Properties)
    (date : Bytes) (ident : Identity) (fs fs2 : List (Field Bytes)) (hd : Distinct lib.lower fs)
    (body : Option Body) (hash auth : Bytes)
    (h : payloadSpec lib v dest p (required lib date ident fs) body = .ok (hash, fs2)) :
    required lib date ident (put lib.lower fs2 ⟨asc "Authorization", [auth], .header⟩) =
      put lib.lower fs2 ⟨asc "Authorization", [auth], .header⟩ := by
  obtain ⟨l1, l2, l3, l4, l5, l6⟩ := lower_added hl
  have hdr := required_distinct (lib := lib) date ident hd
  have hd2 : Distinct lib.lower fs2 := by
    rcases payloadSpec_fields v dest p _ body hash fs2 h with e | e
    · rw [e]; exact hdr
    · rw [e]; exact put_distinct hdr _
  have stays : ∀ name, lib.lower name ≠ asc "authorization" →
      lib.lower name ≠ asc "x-amz-content-sha256" →
      lookup lib.lower (put lib.lower fs2 ⟨asc "Authorization", [auth], .header⟩) name =
        lookup lib.lower (required lib date ident fs) name := by
    intro name h1 h2
    rw [lookup_put hd2, if_neg (by simp only [l4]; exact Ne.symm h1)]
    rcases payloadSpec_fields v dest p _ body hash fs2 h with e | e
    · rw [e]
    · rw [e, lookup_put hdr, if_neg (by simp only [l3]; exact Ne.symm h2)]
  have s1 := stays (asc "Date") (by rw [l5]; decide +kernel) (by rw [l5]; decide +kernel)
  have s2 := stays (asc "X-Amz-Date") (by rw [l1]; decide +kernel) (by rw [l1]; decide +kernel)
  have s3 := stays (asc "X-Amz-Security-Token") (by rw [l2]; decide +kernel)
    (by rw [l2]; decide +kernel)
  have hdate : ((lookup lib.lower (required lib date ident fs) (asc "Date")).isSome ||
      (lookup lib.lower (required lib date ident fs) (asc "X-Amz-Date")).isSome) = true := by
    by_contra hc
    have hc : ((lookup lib.lower (required lib date ident fs) (asc "Date")).isSome ||
      (lookup lib.lower (required lib date ident fs) (asc "X-Amz-Date")).isSome) = false := by
      simpa using hc
    obtain ⟨c1, c2⟩ := Bool.or_eq_false_iff.1 hc
    have a1 := (isSome_false_iff (lib := lib) _ (asc "Date")).1 c1
    have a2 := (isSome_false_iff (lib := lib) _ (asc "X-Amz-Date")).1 c2
    rw [l5] at a1
    rw [l1] at a2
    have hm : (⟨asc "X-Amz-Date", [date], .header⟩ : Field Bytes) ∈ required lib date ident fs := by
      rw [mem_required hl]
      refine Or.inr (Or.inl ⟨rfl, fun g hg => ?_⟩)
      have : g ∈ required lib date ident fs := (mem_required hl _ _ _ _).2 (Or.inl hg)
      exact ⟨a2 g this, a1 g this⟩
    exact a2 _ hm l1
  have htoken : ∀ token, ident.token = some token →
      (lookup lib.lower (required lib date ident fs) (asc "X-Amz-Security-Token")).isSome = true := by
    intro token ht
    by_contra hc
    have a := (isSome_false_iff (lib := lib) _ (asc "X-Amz-Security-Token")).1 (by simpa using hc)
    rw [l2] at a
    have hm : (⟨asc "X-Amz-Security-Token", [token], .header⟩ : Field Bytes) ∈
        required lib date ident fs := by
      rw [mem_required hl]
      refine Or.inr (Or.inr ⟨token, ht, rfl, fun g hg => ?_⟩)
      exact a g ((mem_required hl _ _ _ _).2 (Or.inl hg))
    exact a _ hm l2
  conv_lhs => unfold required
  simp only [s1, s2, hdate, if_true]
  cases ht : ident.token with
  | none => rfl
  | some token => simp only [s3, htoken token ht, if_true]

/-- Signing the signed request at the same instant with the same credentials gives the same headers
and content. -/
theorem C35_sign_signed (hl : LowersAscii lib) (v : Variant) (now now' : Bytes) {w w1 : World}
    {r r1 : Request} {fs : List (Field Bytes)} (h : Holds lib w r.fields fs) (ident : Identity)
    (p : Properties) (hnow : p.date.getD now = p.date.getD now')
    (hs : sign lib v now w r ident p = (w1, .ok r1)) :
    ∃ w2 r2, sign lib v now' w1 r1 ident p = (w2, .ok r2) ∧
      w2.fields r2.fields = w1.fields r1.fields ∧
      r2.destination = r1.destination ∧ r2.method = r1.method ∧
      (bodyOf w2 r2).map Body.pending = (bodyOf w1 r1).map Body.pending := by
  obtain ⟨hash, fs2, hps, hd2, u, hdst, hm, hf, hp, hfo, hh⟩ := sign_ok v now h ident p hs
  have he : ident.expired = false := by
    cases hx : ident.expired with
    | false => rfl
    | true => rw [sign_expired v now w r ident p hx] at hs; cases hs
  obtain ⟨_, _, _, l4, _⟩ := lower_added hl
  have hex : ∀ x : List Bytes, lib.lower (⟨asc "Authorization", x, .header⟩ : Field Bytes).name ∈
      excludedHeaders := fun _ => by simp only [l4]; decide +kernel
  have hdr := required_distinct (lib := lib) (p.date.getD now) ident h.distinct
  have s := sign_spec v now' hh ident p he
  rw [hdst, hm, ← hnow, required_again hl v r.destination p _ ident fs fs2 h.distinct _ hash _ hps,
    payloadSpec_again hl v r.destination p _ fs2 hdr (bodyOf w r) (bodyOf w1 r1) hash _ hp hfo hps] at s
  obtain ⟨w2, r2, e2, _, hdst2, hm2, _, hp2, _, hh2⟩ := s
  refine ⟨w2, r2, e2, ?_, hdst2.trans hdst.symm, hm2.trans hm.symm, hp2⟩
  rw [hh.fields, hh2.fields, authValue_put _ _ _ _ _ _ _ _ (hex _)]
  apply put_same (put_distinct hd2 _)
  rw [lookup_put hd2, if_pos rfl]

end Verif.Signing
