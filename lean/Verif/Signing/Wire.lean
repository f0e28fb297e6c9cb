import Verif.Signing.Verify
import Verif.Transport.Crt

/-!
# What is signed is what is sent (C98)

A request that was signed (`Verif.Signing`) is given to the CRT client (smithy_http/aio/crt.py), which adds a `host` header
and renders the target.  The service that gets the message works out the canonical request again, from the message alone,
and compares signatures.

The service is specified here as the documentation of Signature Version 4 describes it, `accepts`; it is not code of the
repository.  How it normalises paths and queries and cuts white space is taken over from the specification of the signer
(C32, C34, C73), as these depend on tables of characters that are given there.
-/

set_option autoImplicit false

namespace Verif.Signing.Wire

open Verif.Uri Verif.Text Verif.Fields Verif.Signing
open Verif.Transport.Crt (addMissing sent_values distinct_add lookup_add)
open Verif.Transport.Aiohttp (headersList)

/-! ## Model -/

/-- A message as it is sent. -/
structure Message where
  method : Bytes
  target : Bytes
  headers : List (Bytes × Bytes)
  body : Bytes
  deriving DecidableEq, Repr

/-- `_marshal_request` and `_render_path` of the CRT client (smithy_http/aio/crt.py:282-315), in bytes; `crt_bytes` says that
this is what `Verif.Transport.Crt` has for texts.  The authority is `URI.netloc` of the destination.  The body is what
reading it yields (C87). -/
def crtMessage (lib : Lib) (r : Request) (fs : List (Field Bytes)) (content : Bytes) : Message where
  method := r.method
  target := (match r.destination.path with | some p => p | none => asc "/") ++
    (match r.destination.query with | some q => 63 :: q | none => [])
  headers := headersList ((addMissing lib.lower (asc "accept") (asc "*/*")
    (addMissing lib.lower (asc "host") (netloc lib r.destination) fs)).filter fun f => f.kind = .header)
  body := content

/-- Signing and sending: the message of a request that was signed in the world `w`. -/
def sentMessage (lib : Lib) (out : World × Except Error Request) : Option Message :=
  match out with
  | (w, .ok r) => some (crtMessage lib r (w.fields r.fields) (((bodyOf w r).map Body.pending).getD []))
  | (_, .error _) => none

/-! ## Specification -/

/-- The values received under a name in lower case. -/
def received (lib : Lib) (m : Message) (name : Bytes) : List Bytes :=
  (m.headers.filter fun t => lib.lower t.1 = name).map Prod.snd

/-- The value of a header that the service works with: the values received, cut and put together with commas. -/
def combined (lib : Lib) (m : Message) (name : Bytes) : Bytes :=
  join 44 ((received lib m name).map fun value => join 32 (lib.words value))

/-- The hash that the service works with: the one sent, or else that of the content received. -/
def contentHash (lib : Lib) (m : Message) : Bytes :=
  match received lib m (asc "x-amz-content-sha256") with
  | [hash] => hash
  | _ => lib.sha256 m.body

/-- The path of the target, normalised. -/
def servicePath (encodePath : Bool) (m : Message) : Bytes :=
  if encodePath then quote slashSafe (removeDots (cut 63 m.target).1 true) else removeDots (cut 63 m.target).1 false

/-- The canonical request that the service works out for the header names that are said to be signed. -/
def serviceCanonical (lib : Lib) (encodePath : Bool) (m : Message) (names : List Bytes) : Bytes :=
  m.method ++ [10] ++ servicePath encodePath m ++ [10] ++ canonicalQuery lib.decode (cut 63 m.target).2 ++ [10] ++
  (names.map fun name => name ++ [58] ++ combined lib m name ++ [10]).flatten ++ [10] ++
  join 59 names ++ [10] ++ contentHash lib m

/-- Whether the service accepts a message for the given credentials: there is one date of 16 characters and one authorization, this is made
out for the credentials, the date, region and service, `host` and all `x-amz-` headers are signed, and the signature is that
of the message. -/
def accepts (lib : Lib) (accessKey secret region service : Bytes) (encodePath : Bool) (m : Message) : Bool :=
  match received lib m (asc "x-amz-date"), received lib m (asc "authorization") with
  | [date], [auth] =>
    let start := asc "AWS4-HMAC-SHA256 Credential=" ++ accessKey ++ [47] ++ date.take 8 ++ [47] ++ region ++ [47] ++
      service ++ asc "/aws4_request, SignedHeaders="
    match cut 44 (auth.drop start.length) with
    | (list, some rest) =>
      let names := split 59 list
      date.length = 16 && start.isPrefixOf auth &&
      names.contains (asc "host") &&
      (m.headers.all fun t => !(asc "x-amz-").isPrefixOf (lib.lower t.1) || names.contains (lib.lower t.1)) &&
      rest = asc " Signature=" ++ specSignature lib secret date region service (serviceCanonical lib encodePath m names)
    | (_, none) => false
  | _, _ => false

/-- Requests that can be sent as they were signed: the method is in upper case, the path is absolute and without question
mark, a port is not the default port of the scheme unless the request has its own `host`, every header has one value and a
name without commas and semicolons, no date is given, and the hash that is signed is one the service gets to know: a hash
was asked to be sent, or given to the asynchronous signer, or no hash was given and the content is signed or an event
stream. -/
structure Sendable (lib : Lib) (v : Variant) (p : Properties) (r : Request) (fs : List (Field Bytes)) : Prop where
  method : lib.upper r.method = r.method
  path : ∀ t, r.destination.path = some t → t.head? = some 47 ∧ 63 ∉ t
  port : (∀ f ∈ fs, lib.lower f.name ≠ asc "host") →
    ¬ ((r.destination.scheme = asc "http" ∧ r.destination.port = some 80) ∨
      (r.destination.scheme = asc "https" ∧ r.destination.port = some 443))
  one : ∀ f ∈ fs, f.values.length = 1 ∧ f.kind = .header
  names : ∀ f ∈ fs, 44 ∉ lib.lower f.name ∧ 59 ∉ lib.lower f.name
  date : ∀ f ∈ fs, lib.lower f.name ≠ asc "x-amz-date" ∧ lib.lower f.name ≠ asc "date"
  hash : p.contentChecksum = some true ∨
    (v = .async ∧ ∃ f ∈ fs, lib.lower f.name = asc "x-amz-content-sha256") ∨
    ((∀ f ∈ fs, lib.lower f.name ≠ asc "x-amz-content-sha256") ∧
      (r.destination.scheme ≠ asc "https" ∨ p.payloadSigning ≠ some false ∨
        (v = .async ∧ ∃ f ∈ fs, lib.lower f.name = asc "content-type" ∧
          f.values = [asc "application/vnd.amazon.eventstream"])))

/-! ## Lemmas -/

variable {lib : Lib}

/-- The model in bytes is the one in characters. -/
theorem crt_bytes (enc : List Char → Bytes) (hinj : ∀ a b, enc a = enc b → a = b) (lower : List Char → List Char)
    (hlow : ∀ a, lib.lower (enc a) = enc (lower a)) (hasc : ∀ s : String, s ∈ ["accept", "host", "*/*"] → enc s.toList = asc s)
    (loc : List Char) (fs : List (Field (List Char))) :
    headersList ((addMissing lib.lower (asc "accept") (asc "*/*") (addMissing lib.lower (asc "host") (enc loc)
      (fs.map fun f => ⟨enc f.name, f.values.map enc, f.kind⟩))).filter fun f => f.kind = .header) =
    (Verif.Transport.Crt.headers lower loc fs).map fun t => (enc t.1, enc t.2) := by
  have hadd : ∀ (n v : List Char) (gs : List (Field (List Char))),
      addMissing lib.lower (enc n) (enc v) (gs.map fun f => ⟨enc f.name, f.values.map enc, f.kind⟩) =
      (addMissing lower n v gs).map fun f => ⟨enc f.name, f.values.map enc, f.kind⟩ := by
    intro n v gs
    unfold addMissing
    have : (gs.map fun f => (⟨enc f.name, f.values.map enc, f.kind⟩ : Field Bytes)).any
        (fun f => decide (lib.lower f.name = lib.lower (enc n))) =
        gs.any fun f => decide (lower f.name = lower n) := by
      rw [List.any_map]
      congr 1
      funext f
      simp only [Function.comp, hlow]
      rw [decide_eq_decide]
      exact ⟨hinj _ _, fun e => by rw [e]⟩
    rw [this]
    split
    · rfl
    · simp
  rw [← hasc "accept" (by simp), ← hasc "host" (by simp), ← hasc "*/*" (by simp), hadd, hadd]
  unfold Verif.Transport.Crt.headers Verif.Transport.Crt.marshalFields headersList
  rw [List.filter_map, List.flatMap_map, List.map_flatMap]
  rw [List.flatMap_def, List.flatMap_def]
  congr 1
  refine List.map_congr_left fun f _ => ?_
  simp [Field.asTuples]

/-- The fields that the CRT client sends. -/
def marshalled (lib : Lib) (loc : Bytes) (fs : List (Field Bytes)) : List (Field Bytes) :=
  addMissing lib.lower (asc "accept") (asc "*/*") (addMissing lib.lower (asc "host") loc fs)

theorem marshalled_distinct {fs : List (Field Bytes)} (hd : Distinct lib.lower fs) (loc : Bytes) :
    Distinct lib.lower (marshalled lib loc fs) := distinct_add _ _ _ _ (distinct_add _ _ _ _ hd)

theorem received_eq (r : Request) {fs : List (Field Bytes)} (content name : Bytes)
    (hd : Distinct lib.lower fs) :
    received lib (crtMessage lib r fs content) (lib.lower name) =
      match lookup lib.lower (marshalled lib (netloc lib r.destination) fs) name with
      | some f => if f.kind = .header then f.values else []
      | none => [] := by
  refine (sent_values lib.lower _ (marshalled_distinct hd (netloc lib r.destination)) name).trans ?_
  cases lookup lib.lower (marshalled lib (netloc lib r.destination) fs) name <;> rfl

theorem lookup_marshalled (fs : List (Field Bytes)) (loc name : Bytes) :
    lookup lib.lower (marshalled lib loc fs) name =
      match lookup lib.lower fs name with
      | some f => some f
      | none => if lib.lower (asc "host") = lib.lower name then some ⟨asc "host", [loc], .header⟩
        else if lib.lower (asc "accept") = lib.lower name then some ⟨asc "accept", [asc "*/*"], .header⟩
        else none := by
  rw [marshalled, lookup_add, lookup_add]
  cases lookup lib.lower fs name with
  | some f => rfl
  | none =>
    simp only
    by_cases h : lib.lower (asc "host") = lib.lower name
    · rw [if_pos h]; exact (if_pos h).symm
    · rw [if_neg h]; exact (if_neg h).symm

theorem received_field (r : Request) {fs : List (Field Bytes)} (content : Bytes) (hd : Distinct lib.lower fs)
    {f : Field Bytes} (hf : f ∈ fs) (hk : f.kind = .header) :
    received lib (crtMessage lib r fs content) (lib.lower f.name) = f.values := by
  rw [received_eq r content f.name hd, lookup_marshalled, (lookup_iff hd f.name f).2 ⟨hf, rfl⟩]
  simp only
  rw [if_pos hk]

theorem received_host (r : Request) {fs : List (Field Bytes)} (content : Bytes) (hd : Distinct lib.lower fs)
    (hl : lib.lower (asc "host") = asc "host") (hno : ∀ f ∈ fs, lib.lower f.name ≠ asc "host") :
    received lib (crtMessage lib r fs content) (asc "host") = [netloc lib r.destination] := by
  have := received_eq r content (asc "host") hd
  rw [hl] at this
  rw [this, lookup_marshalled, (lookup_none_iff (asc "host")).2 (by rw [hl]; exact hno)]
  simp

theorem received_none (r : Request) {fs : List (Field Bytes)} (content name : Bytes) (hd : Distinct lib.lower fs)
    (h1 : lib.lower name ≠ lib.lower (asc "host")) (h2 : lib.lower name ≠ lib.lower (asc "accept"))
    (hno : ∀ f ∈ fs, lib.lower f.name ≠ lib.lower name) :
    received lib (crtMessage lib r fs content) (lib.lower name) = [] := by
  rw [received_eq r content name hd, lookup_marshalled, (lookup_none_iff name).2 hno]
  simp only
  rw [if_neg (fun h => h1 h.symm), if_neg (fun h => h2 h.symm)]

theorem mem_headers (r : Request) (fs : List (Field Bytes)) (content : Bytes) (t : Bytes × Bytes)
    (ht : t ∈ (crtMessage lib r fs content).headers) :
    t.1 = asc "host" ∨ t.1 = asc "accept" ∨ ∃ f ∈ fs, f.kind = .header ∧ t.1 = f.name := by
  obtain ⟨g, hg, htg⟩ := List.mem_flatMap.1 ht
  obtain ⟨v, _, rfl⟩ := List.mem_map.1 htg
  obtain ⟨hg, hk⟩ := List.mem_filter.1 hg
  have hadd : ∀ (n v : Bytes) (gs : List (Field Bytes)), g ∈ addMissing lib.lower n v gs → g.name = n ∨ g ∈ gs := by
    intro n v gs h
    unfold addMissing at h
    split at h
    · exact .inr h
    · rcases List.mem_append.1 h with h | h
      · exact .inr h
      · rw [List.mem_singleton] at h; subst h; exact .inl rfl
  rcases hadd _ _ _ hg with h | h
  · exact .inr (.inl h)
  · rcases hadd _ _ _ h with h | h
    · exact .inl h
    · exact .inr (.inr ⟨g, h, by simpa using hk, rfl⟩)

theorem target_cut (lib : Lib) (r : Request) (fs : List (Field Bytes)) (content : Bytes)
    (hp : ∀ t, r.destination.path = some t → t.head? = some 47 ∧ 63 ∉ t) :
    cut 63 (crtMessage lib r fs content).target = (r.destination.path.getD (asc "/"), r.destination.query) := by
  have hno : 63 ∉ r.destination.path.getD (asc "/") := by
    cases h : r.destination.path with
    | none => decide +kernel
    | some t => exact (hp t h).2
  have he : (match r.destination.path with | some p => p | none => asc "/") = r.destination.path.getD (asc "/") := by
    cases r.destination.path <;> rfl
  unfold crtMessage
  simp only [he]
  cases r.destination.query with
  | none => rw [List.append_nil, cut_of_not_mem _ _ hno]
  | some q => exact cut_append _ _ _ hno

theorem authority_eq (dest : Destination) (h : ¬ ((dest.scheme = asc "http" ∧ dest.port = some 80) ∨
      (dest.scheme = asc "https" ∧ dest.port = some 443))) : authority lib dest = netloc lib dest := by
  unfold authority netloc
  congr 1
  · congr 1
    cases dest.username <;> cases dest.password <;> simp <;> rfl
  · cases hp : dest.port with
    | none => rfl
    | some q =>
      rw [hp] at h
      simp only [Option.some.injEq] at h
      simp only
      rw [if_neg h]
      rfl

/-- The headers of the signed request: those of the caller, and some with one value. -/
theorem sent_fields (hl : LowersAscii lib) (v : Variant) (now : Bytes) {w w' : World} {r r' : Request}
    {fs : List (Field Bytes)} (h : Holds lib w r.fields fs) (ident : Identity) (p : Properties)
    (hs : sign lib v now w r ident p = (w', .ok r')) {sent : List (Field Bytes)} (hh : Holds lib w' r'.fields sent) :
    (∀ f ∈ sent, f ∈ fs ∨ (f.kind = .header ∧ f.values.length = 1 ∧ lib.lower f.name ∈ addedHeaders)) ∧
    (∀ f ∈ fs, lib.lower f.name ∉ addedHeaders → f ∈ sent) := by
  obtain ⟨hash, fs2, hps, hd2, _, _, _, _, _, _, hh'⟩ := sign_ok v now h ident p hs
  obtain ⟨l1, l2, l3, l4, _⟩ := lower_added hl
  have he := hh.fields.symm.trans hh'.fields
  have hdr := required_distinct (lib := lib) (p.date.getD now) ident h.distinct
  have hfs2 : ∀ f ∈ fs2, f ∈ fs ∨ (f.kind = .header ∧ f.values.length = 1 ∧ lib.lower f.name ∈ addedHeaders) := by
    have hreq : ∀ f ∈ required lib (p.date.getD now) ident fs,
        f ∈ fs ∨ (f.kind = .header ∧ f.values.length = 1 ∧ lib.lower f.name ∈ addedHeaders) := by
      intro f hf
      rcases (mem_required hl _ _ _ _).1 hf with h1 | ⟨rfl, _⟩ | ⟨t, _, rfl, _⟩
      · exact .inl h1
      · exact .inr ⟨rfl, rfl, by simp only [l1]; decide +kernel⟩
      · exact .inr ⟨rfl, rfl, by simp only [l2]; decide +kernel⟩
    rcases payloadSpec_fields v _ p _ _ hash fs2 hps with e | e
    · rw [e]; exact hreq
    · intro f hf
      rw [e] at hf
      rcases (mem_put hdr _ _).1 hf with rfl | ⟨h1, _⟩
      · exact .inr ⟨rfl, rfl, by simp only [l3]; decide +kernel⟩
      · exact hreq f h1
  constructor
  · intro f hf
    rw [he] at hf
    rcases (mem_put hd2 _ _).1 hf with rfl | ⟨h1, _⟩
    · exact .inr ⟨rfl, rfl, by simp only [l4]; decide +kernel⟩
    · exact hfs2 f h1
  · intro f hf hn
    rw [he, mem_put hd2]
    refine .inr ⟨?_, fun e => hn ?_⟩
    · have hreq : f ∈ required lib (p.date.getD now) ident fs := (mem_required hl _ _ _ _).2 (.inl hf)
      rcases payloadSpec_fields v _ p _ _ hash fs2 hps with e | e
      · rw [e]; exact hreq
      · rw [e, mem_put hdr]
        refine .inr ⟨hreq, fun e => hn ?_⟩
        rw [e, l3]; decide +kernel
    · rw [e, l4]; decide +kernel

/-- The hash that is signed is sent, or it is that of the content and none is sent. -/
theorem hash_shown (hl : LowersAscii lib)
    (hempty : lib.sha256 [] = asc "e3b0c44298fc1c149afbf4c8996fb92427ae41e4649b934ca495991b7852b855")
    (v : Variant) (now : Bytes) {w w' : World} {r r' : Request}
    {fs : List (Field Bytes)} (h : Holds lib w r.fields fs) (ident : Identity) (p : Properties)
    (hs : sign lib v now w r ident p = (w', .ok r')) (hc : Sendable lib v p r fs) {sent : List (Field Bytes)}
    (hh : Holds lib w' r'.fields sent) :
    (∃ f ∈ sent, lib.lower f.name = asc "x-amz-content-sha256" ∧ f.kind = .header ∧
      f.values = [specHash lib v r.destination p fs ((bodyOf w' r').map Body.pending)]) ∨
    ((∀ f ∈ sent, lib.lower f.name ≠ asc "x-amz-content-sha256") ∧
      specHash lib v r.destination p fs ((bodyOf w' r').map Body.pending) =
        lib.sha256 (((bodyOf w' r').map Body.pending).getD [])) := by
  obtain ⟨hash, fs2, hps, hd2, _, _, _, _, hpend, _, hh'⟩ := sign_ok v now h ident p hs
  obtain ⟨l1, l2, l3, l4, _, l6⟩ := lower_added hl
  have he := hh.fields.symm.trans hh'.fields
  have hdr := required_distinct (lib := lib) (p.date.getD now) ident h.distinct
  have hhash := payloadSpec_hash hl v _ p _ ident h.distinct _ hash hps
  rw [hpend, ← hhash]
  obtain ⟨s1, _⟩ := sent_fields hl v now h ident p hs hh
  -- it is enough to look at the fields before the authorization is added
  suffices hsuf : (∃ f ∈ fs2, lib.lower f.name = asc "x-amz-content-sha256" ∧ f.kind = .header ∧ f.values = [hash]) ∨
      ((∀ f ∈ fs2, lib.lower f.name ≠ asc "x-amz-content-sha256") ∧
        hash = lib.sha256 (((bodyOf w r).map Body.pending).getD [])) by
    rcases hsuf with ⟨f, hf, h1, h2, h3⟩ | ⟨h1, h2⟩
    · refine .inl ⟨f, ?_, h1, h2, h3⟩
      rw [he, mem_put hd2]
      refine .inr ⟨hf, ?_⟩
      rw [h1, l4]; decide +kernel
    · refine .inr ⟨?_, h2⟩
      intro f hf
      rw [he] at hf
      rcases (mem_put hd2 _ _).1 hf with rfl | ⟨h3, _⟩
      · rw [l4]; decide +kernel
      · exact h1 f h3
  have hput : ∀ x, (∃ f ∈ put lib.lower (required lib (p.date.getD now) ident fs) ⟨asc "X-Amz-Content-SHA256", [x], .header⟩,
      lib.lower f.name = asc "x-amz-content-sha256" ∧ f.kind = .header ∧ f.values = [x]) := fun x =>
    ⟨_, (mem_put hdr _ _).2 (.inl rfl), l3, rfl, rfl⟩
  have r1 := required_lookup hl (p.date.getD now) ident h.distinct (asc "X-Amz-Content-SHA256")
    (by rw [l3]; decide +kernel) (by rw [l3]; decide +kernel)
  have r2 := required_lookup hl (p.date.getD now) ident h.distinct (asc "Content-Type")
    (by rw [l6]; decide +kernel) (by rw [l6]; decide +kernel)
  have hreqno : (∀ f ∈ fs, lib.lower f.name ≠ asc "x-amz-content-sha256") →
      ∀ f ∈ required lib (p.date.getD now) ident fs, lib.lower f.name ≠ asc "x-amz-content-sha256" := by
    intro hno f hf
    rcases (mem_required hl _ _ _ _).1 hf with h1 | ⟨rfl, _⟩ | ⟨t, _, rfl, _⟩
    · exact hno f h1
    · rw [l1]; decide +kernel
    · rw [l2]; decide +kernel
  unfold payloadSpec at hps
  cases hpre : presetPayload lib v (required lib (p.date.getD now) ident fs) with
  | some x =>
    rw [hpre] at hps
    obtain ⟨e1, e2⟩ := Prod.mk.inj (Except.ok.inj hps)
    unfold presetPayload at hpre
    cases v with
    | sync => cases hpre
    | async =>
      simp only at hpre
      split at hpre
      · rename_i y hy
        obtain ⟨f, hf, hv⟩ := Option.map_eq_some_iff.1 hy
        rw [r1] at hf
        obtain ⟨g1, g2⟩ := (lookup_iff h.distinct _ _).1 hf
        have hx := Option.some.inj hpre
        refine .inl ⟨f, ?_, g2.trans l3, (hc.one f g1).2, ?_⟩
        · rw [← e2, ← hx]; exact (mem_required hl _ _ _ _).2 (.inl g1)
        · rw [hv, ← e1, ← hx]
      · split at hpre
        · have hx := Option.some.inj hpre
          rw [← e1, ← e2, ← hx]
          exact .inl (hput _)
        · cases hpre
  | none =>
    rw [hpre] at hps
    simp only at hps
    cases hb : bodyHash lib r.destination p (bodyOf w r) with
    | error e => rw [hb] at hps; cases hps
    | ok x =>
      rw [hb] at hps
      obtain ⟨e1, e2⟩ := Prod.mk.inj (Except.ok.inj hps)
      subst e1
      by_cases hck : p.contentChecksum = some true
      · rw [hck] at e2
        rw [← e2]
        exact .inl (hput _)
      · have hck' : p.contentChecksum.getD false = false := by
          cases hq : p.contentChecksum with
          | none => rfl
          | some b => cases b with
            | false => rfl
            | true => exact absurd hq hck
        rw [hck'] at e2
        simp only [Bool.false_eq_true, if_false] at e2
        have hx := bodyHash_spec _ _ _ _ hb
        have hfin : ¬ (r.destination.scheme = asc "https" ∧ p.payloadSigning = some false) →
            x = lib.sha256 (((bodyOf w r).map Body.pending).getD []) := by
          intro hn
          rw [if_neg hn] at hx
          rw [hx]
          cases (bodyOf w r).map Body.pending with
          | none => exact hempty.symm
          | some c => rfl
        rcases hc.hash with h1 | ⟨rfl, f, hf, h1⟩ | ⟨hno, h1⟩
        · exact absurd h1 hck
        · exfalso
          unfold presetPayload at hpre
          simp only at hpre
          rw [r1, (lookup_iff h.distinct (asc "X-Amz-Content-SHA256") f).2 ⟨hf, h1.trans l3.symm⟩] at hpre
          have hv := (hc.one f hf).1
          obtain ⟨y, hy⟩ := List.length_eq_one_iff.1 hv
          simp only [Option.map_some, hy] at hpre
          cases hpre
        · refine .inr ⟨by rw [← e2]; exact hreqno hno, hfin ?_⟩
          rintro ⟨k1, k2⟩
          rcases h1 with h1 | h1 | ⟨rfl, f, hf, g1, g2⟩
          · exact h1 k1
          · exact h1 k2
          · unfold presetPayload at hpre
            simp only at hpre
            rw [r1, (lookup_none_iff (asc "X-Amz-Content-SHA256")).2 (by rw [l3]; exact hno), r2,
              (lookup_iff h.distinct (asc "Content-Type") f).2 ⟨hf, g1.trans l6.symm⟩] at hpre
            simp only [Option.map_none, Option.map_some, g2] at hpre
            rw [if_pos (by rfl)] at hpre
            cases hpre

/-! ## Theorems -/

/-- **C98 (partial).**  A request that was signed and is sent with the CRT client is accepted by the service: from the
message alone it works out the signature that is in the message.  This holds for `Sendable` requests; see below for others. -/
theorem C98_partial (hl : LowersAscii lib)
    (hempty : lib.sha256 [] = asc "e3b0c44298fc1c149afbf4c8996fb92427ae41e4649b934ca495991b7852b855")
    (v : Variant) (now : Bytes) {w w' : World} {r r' : Request} {fs : List (Field Bytes)}
    (h : Holds lib w r.fields fs) (ident : Identity) (p : Properties)
    (hs : sign lib v now w r ident p = (w', .ok r')) (hc : Sendable lib v p r fs) (h16 : (p.date.getD now).length = 16) :
    ∃ m, sentMessage lib (sign lib v now w r ident p) = some m ∧
      accepts lib ident.accessKey ident.secretKey p.region p.service (p.uriEncodePath.getD true) m = true := by
  obtain ⟨sent, lines, date, hash, hh, hdate, hhash, hlines, hsorted, hauth⟩ := C74_signature hl v now h ident p hs
  obtain ⟨hdest, hmeth, _⟩ := C35_only_signing_headers hl v now h ident p hs
  obtain ⟨s1, s2⟩ := sent_fields hl v now h ident p hs hh
  obtain ⟨sent2, hh2, hd2⟩ := C74_date_partial hl v now h ident p hs hc.date
  have : sent2 = sent := hh2.fields.symm.trans hh.fields
  subst this
  have hshown := hash_shown hl hempty v now h ident p hs hc hh
  rw [← hhash] at hshown
  obtain ⟨l1, l2, l3, l4, l5, l6⟩ := lower_added hl
  have lhost : lib.lower (asc "host") = asc "host" := by rw [hl _ (by decide +kernel)]; decide +kernel
  have laccept : lib.lower (asc "accept") = asc "accept" := by rw [hl _ (by decide +kernel)]; decide +kernel
  have lcontent : lib.lower (asc "x-amz-content-sha256") = asc "x-amz-content-sha256" := by
    rw [hl _ (by decide +kernel)]; decide +kernel
  have hd := hh.distinct
  rw [hs]
  refine ⟨_, rfl, ?_⟩
  rw [hh.fields]
  generalize hcont : ((bodyOf w' r').map Body.pending).getD [] = content at hshown
  generalize hm : crtMessage lib r' sent2 content = m
  -- what is received
  have hkind : ∀ f ∈ sent2, f.kind = .header ∧ f.values.length = 1 := by
    intro f hf
    rcases s1 f hf with h1 | ⟨h1, h2, _⟩
    · exact ⟨(hc.one f h1).2, (hc.one f h1).1⟩
    · exact ⟨h1, h2⟩
  have hrecv : ∀ f ∈ sent2, received lib m (lib.lower f.name) = f.values := by
    intro f hf
    rw [← hm]
    exact received_field r' content hd hf (hkind f hf).1
  have hdateR : received lib m (asc "x-amz-date") = [date] := by
    have hf := ((hd2 ⟨asc "X-Amz-Date", [p.date.getD now], .header⟩).2 rfl).1
    have := hrecv _ hf
    simp only [l1] at this
    rw [this, hdate]
  have hauthR := hrecv _ hauth
  simp only [l4] at hauthR
  -- the names
  have hnames : ∀ n ∈ lines.map Prod.fst, 44 ∉ n ∧ 59 ∉ n := by
    intro n hn
    obtain ⟨l, hl1, rfl⟩ := List.mem_map.1 hn
    have hv := ((hlines l.1 l.2).1 hl1).2
    generalize l.1 = n at hv
    generalize l.2 = val at hv
    cases hv with
    | host _ => decide +kernel
    | header f hf =>
      rcases s1 f hf with h1 | ⟨_, _, h1⟩
      · exact hc.names f h1
      · have : ∀ n ∈ addedHeaders, 44 ∉ n ∧ 59 ∉ n := by decide +kernel
        exact this _ h1
  have hhostin : asc "host" ∈ lines.map Prod.fst := by
    by_cases hx : ∀ f ∈ sent2, lib.lower f.name ≠ asc "host"
    · exact List.mem_map.2 ⟨(asc "host", authority lib r'.destination),
        (hlines _ _).2 ⟨by decide +kernel, .host hx⟩, rfl⟩
    · simp only [not_forall, not_not] at hx
      obtain ⟨f, hf, hx⟩ := hx
      refine List.mem_map.2 ⟨(lib.lower f.name, headerText f.values), (hlines _ _).2 ⟨?_, .header f hf⟩, hx⟩
      rw [hx]; decide +kernel
  have hne : lines.map Prod.fst ≠ [] := fun h0 => by rw [h0] at hhostin; cases hhostin
  have hxamz : ∀ t ∈ m.headers, (asc "x-amz-").isPrefixOf (lib.lower t.1) = true → lib.lower t.1 ∈ lines.map Prod.fst := by
    intro t ht hpre
    rw [← hm] at ht
    rcases mem_headers r' sent2 content t ht with e | e | ⟨f, hf, _, e⟩
    · rw [e, lhost] at hpre; exact absurd hpre (by decide +kernel)
    · rw [e, laccept] at hpre; exact absurd hpre (by decide +kernel)
    · rw [e] at hpre ⊢
      refine List.mem_map.2 ⟨(lib.lower f.name, headerText f.values), (hlines _ _).2 ⟨?_, .header f hf⟩, rfl⟩
      intro hun
      have : ∀ n ∈ unsignedHeaders, (asc "x-amz-").isPrefixOf n = false := by decide +kernel
      rw [this _ hun] at hpre
      cases hpre
  -- the canonical request
  have hcanon : serviceCanonical lib (p.uriEncodePath.getD true) m (lines.map Prod.fst) =
      lib.upper r'.method ++ [10] ++ specPath r'.destination p ++ [10] ++
        canonicalQuery lib.decode r'.destination.query ++ [10] ++
        (lines.map fun l => l.1 ++ [58] ++ join 32 (lib.words l.2) ++ [10]).flatten ++ [10] ++
        join 59 (lines.map Prod.fst) ++ [10] ++ hash := by
    have hcut : cut 63 m.target = (r'.destination.path.getD (asc "/"), r'.destination.query) := by
      rw [← hm]; exact target_cut lib r' sent2 content (by rw [hdest]; exact hc.path)
    have hmm : m.method = lib.upper r'.method := by rw [← hm, hmeth, hc.method]; exact hmeth
    have hpath : (if p.uriEncodePath.getD true = true then quote slashSafe (removeDots (r'.destination.path.getD (asc "/")) true)
        else removeDots (r'.destination.path.getD (asc "/")) false) = specPath r'.destination p := by
      unfold specPath
      cases p.uriEncodePath with
      | none => rfl
      | some b => cases b <;> rfl
    have hvals : ((lines.map Prod.fst).map fun name => name ++ [58] ++
        join 44 ((received lib m name).map fun value => join 32 (lib.words value)) ++ [10]) =
        lines.map fun l => l.1 ++ [58] ++ join 32 (lib.words l.2) ++ [10] := by
      rw [List.map_map]
      refine List.map_congr_left fun l hl1 => ?_
      have hv := ((hlines l.1 l.2).1 hl1).2
      simp only [Function.comp]
      have key : join 44 ((received lib m l.1).map fun value => join 32 (lib.words value)) = join 32 (lib.words l.2) := by
        generalize l.1 = n at hv
        generalize l.2 = val at hv
        cases hv with
        | host hno =>
          have : received lib m (asc "host") = [netloc lib r'.destination] := by
            rw [← hm]; exact received_host r' content hd lhost hno
          rw [this, authority_eq r'.destination (by
            rw [hdest]
            refine hc.port fun f hf he => hno f (s2 f hf ?_) he
            rw [he]; decide +kernel)]
          rfl
        | header f hf =>
          rw [hrecv f hf]
          obtain ⟨x, hx⟩ := List.length_eq_one_iff.1 (hkind f hf).2
          rw [hx]; rfl
      rw [key]
    have hhashR : (match received lib m (asc "x-amz-content-sha256") with
        | [hash] => hash
        | _ => lib.sha256 m.body) = hash := by
      rcases hshown with ⟨f, hf, e1, _, e2⟩ | ⟨e1, e2⟩
      · have := hrecv f hf
        rw [e1, e2] at this
        rw [this]
      · have := received_none r' content (asc "x-amz-content-sha256") hd
          (by rw [lcontent, lhost]; decide +kernel) (by rw [lcontent, laccept]; decide +kernel)
          (by rw [lcontent]; exact e1)
        rw [hm, lcontent] at this
        rw [this, e2, ← hm]
        rfl
    unfold serviceCanonical servicePath combined contentHash
    simp only [hcut, hmm, hpath, hvals, hhashR]
  -- the comparison
  unfold accepts
  rw [hdateR, hauthR]
  simp only
  generalize hsig : specSignature lib ident.secretKey date p.region p.service _ = sig
  have hstart : asc "AWS4-HMAC-SHA256 Credential=" ++ (ident.accessKey ++ [47] ++
          (date.take 8 ++ [47] ++ p.region ++ [47] ++ p.service ++ asc "/aws4_request")) ++
          asc ", SignedHeaders=" ++ join 59 (lines.map Prod.fst) ++ asc ", Signature=" ++ sig =
      (asc "AWS4-HMAC-SHA256 Credential=" ++ ident.accessKey ++ [47] ++ date.take 8 ++ [47] ++ p.region ++ [47] ++
        p.service ++ asc "/aws4_request, SignedHeaders=") ++
        (join 59 (lines.map Prod.fst) ++ 44 :: (asc " Signature=" ++ sig)) := by
    have e1 : asc "/aws4_request, SignedHeaders=" = asc "/aws4_request" ++ asc ", SignedHeaders=" := by decide +kernel
    have e2 : asc ", Signature=" = 44 :: asc " Signature=" := by decide +kernel
    rw [e1, e2]
    simp only [List.append_assoc, List.cons_append]
  rw [hstart]
  generalize (asc "AWS4-HMAC-SHA256 Credential=" ++ ident.accessKey ++ [47] ++ date.take 8 ++ [47] ++ p.region ++ [47] ++
        p.service ++ asc "/aws4_request, SignedHeaders=") = start
  rw [List.drop_left, cut_append _ _ _ (join_not_mem 59 44 (by decide) _ fun n hn => (hnames n hn).1)]
  simp only
  rw [split_join 59 _ hne (fun n hn => (hnames n hn).2), hcanon, hsig]
  simp only [Bool.and_eq_true, decide_eq_true_eq, and_true]
  refine ⟨⟨⟨by rw [hdate]; exact h16, List.isPrefixOf_iff_prefix.2 (List.prefix_append _ _)⟩, List.contains_iff_mem.2 hhostin⟩, ?_⟩
  rw [List.all_eq_true]
  intro t ht
  rw [Bool.or_eq_true]
  by_cases hpre : (asc "x-amz-").isPrefixOf (lib.lower t.1) = true
  · exact .inr (List.contains_iff_mem.2 (hxamz t ht hpre))
  · rw [Bool.not_eq_true] at hpre
    exact .inl (by rw [hpre]; rfl)

/-- A message that can be sent has no line breaks outside its content. -/
structure NoBreaks (m : Message) : Prop where
  method : 10 ∉ m.method
  target : 10 ∉ m.target
  headers : ∀ t ∈ m.headers, 10 ∉ t.1 ∧ 10 ∉ t.2

/-- Hashing without collisions. -/
structure NoCollisions (lib : Lib) : Prop where
  sha256 : ∀ a b, lib.sha256 a = lib.sha256 b → a = b
  hmac : ∀ k m k' m', lib.hmac k m = lib.hmac k' m' → k = k' ∧ m = m'
  hex : ∀ a b, lib.hex a = lib.hex b → a = b

theorem cut_mem {α : Type} [DecidableEq α] (sep : α) (t : List α) :
    (∀ c ∈ (cut sep t).1, c ∈ t) ∧ ∀ u, (cut sep t).2 = some u → t = (cut sep t).1 ++ sep :: u := by
  induction t with
  | nil => exact ⟨by simp [cut], by simp [cut]⟩
  | cons x t ih =>
    unfold cut
    split
    · rename_i h
      refine ⟨by simp, fun u hu => ?_⟩
      simp only [Option.some.injEq] at hu
      rw [h, hu]; rfl
    · refine ⟨fun c hc => ?_, fun u hu => ?_⟩
      · rcases List.mem_cons.1 hc with rfl | hc
        · exact List.mem_cons_self
        · exact List.mem_cons_of_mem _ (ih.1 c hc)
      · exact congrArg (x :: ·) (ih.2 u hu)

theorem accepts_parts {accessKey secret region service : Bytes} {enc : Bool} {m : Message}
    (h : accepts lib accessKey secret region service enc m = true) :
    ∃ date names, received lib m (asc "x-amz-date") = [date] ∧ date.length = 16 ∧ names ≠ [] ∧
      (∀ n ∈ names, 59 ∉ n ∧ 44 ∉ n) ∧ asc "host" ∈ names ∧
      (∀ t ∈ m.headers, (asc "x-amz-").isPrefixOf (lib.lower t.1) = true → lib.lower t.1 ∈ names) ∧
      received lib m (asc "authorization") = [asc "AWS4-HMAC-SHA256 Credential=" ++ accessKey ++ [47] ++ date.take 8 ++
        [47] ++ region ++ [47] ++ service ++ asc "/aws4_request, SignedHeaders=" ++ (join 59 names ++ 44 ::
        (asc " Signature=" ++ specSignature lib secret date region service (serviceCanonical lib enc m names)))] := by
  unfold accepts at h
  split at h
  · rename_i date auth h1 h2
    simp only at h
    split at h
    · rename_i list rest hcut
      simp only [Bool.and_eq_true, decide_eq_true_eq] at h
      obtain ⟨⟨⟨⟨k0, k1⟩, k2⟩, k3⟩, k4⟩ := h
      refine ⟨date, split 59 list, h1, k0, split_ne_nil _ _, fun n hn => ⟨split_no_sep _ _ n hn, ?_⟩, by simpa using k2, ?_, ?_⟩
      · intro hc
        have h44 : (44 : UInt8) ∉ list := by
          have key : ∀ t : Bytes, (44 : UInt8) ∉ (cut 44 t).1 := by
            intro t
            induction t with
            | nil => simp [cut]
            | cons x t ih =>
              unfold cut
              split
              · simp
              · rename_i hx
                simp only [List.mem_cons, not_or]
                exact ⟨fun h => hx h.symm, ih⟩
          have e : list = (cut 44 (auth.drop _)).1 := (congrArg Prod.fst hcut).symm
          rw [e]
          exact key _
        exact h44 (mem_split _ _ n hn _ hc)
      · intro t ht hp
        have := List.all_eq_true.1 k3 t ht
        rw [hp] at this
        simpa using this
      · rw [h2]
        congr 1
        obtain ⟨u, hu⟩ := List.isPrefixOf_iff_prefix.1 k1
        have hc := (cut_mem 44 (auth.drop _)).2 rest (by rw [hcut])
        rw [hcut] at hc
        simp only at hc
        rw [← hu] at hc
        rw [List.drop_left] at hc
        rw [join_split, ← k4, ← hc]
        exact hu.symm
    · cases h
  · cases h

/-- **C98.**  If hashing has no collisions, a message with the authorization of another one is only accepted if it has the
same date, method, normalised path and query, the same content hash and, for `host`, every `x-amz-` header and every other
header that is said to be signed, the same value. -/
theorem C98_tampered (hw : ∀ v, ∀ x ∈ lib.words v, (10 : UInt8) ∉ x) (hsha : ∀ t, 10 ∉ lib.sha256 t)
    (hcol : NoCollisions lib) (accessKey secret region service : Bytes) (enc : Bool) (m m' : Message)
    (hb : NoBreaks m) (hb' : NoBreaks m')
    (ha : accepts lib accessKey secret region service enc m = true)
    (ha' : accepts lib accessKey secret region service enc m' = true)
    (hauth : received lib m (asc "authorization") = received lib m' (asc "authorization")) :
    received lib m (asc "x-amz-date") = received lib m' (asc "x-amz-date") ∧ m.method = m'.method ∧
    servicePath enc m = servicePath enc m' ∧
    canonicalQuery lib.decode (cut 63 m.target).2 = canonicalQuery lib.decode (cut 63 m'.target).2 ∧
    contentHash lib m = contentHash lib m' ∧
    ∃ names, (∃ before after, received lib m (asc "authorization") =
        [before ++ asc "SignedHeaders=" ++ join 59 names ++ asc ", Signature=" ++ after]) ∧
      asc "host" ∈ names ∧
      (∀ t ∈ m.headers ++ m'.headers, (asc "x-amz-").isPrefixOf (lib.lower t.1) = true → lib.lower t.1 ∈ names) ∧
      ∀ n ∈ names, combined lib m n = combined lib m' n := by
  obtain ⟨date, names, d1, d0, d2, d3, d4, d5, d6⟩ := accepts_parts ha
  obtain ⟨date', names', d1', d0', d2', d3', d4', d5', d6'⟩ := accepts_parts ha'
  have hmem : ∀ {m : Message} (hb : NoBreaks m) (n : Bytes) (x : Bytes), x ∈ received lib m n → 10 ∉ x := by
    intro m hb n x hx
    obtain ⟨t, ht, rfl⟩ := List.mem_map.1 hx
    exact (hb.headers t (List.mem_filter.1 ht).1).2
  have hdn : 10 ∉ date := hmem hb (asc "x-amz-date") date (by rw [d1]; simp)
  have hdn' : 10 ∉ date' := hmem hb' (asc "x-amz-date") date' (by rw [d1']; simp)
  rw [d6, d6'] at hauth
  have hauth := (List.cons.inj hauth).1
  -- from the end: the signatures are the same
  have htail : ∀ (a b c d : Bytes) (l l' : List Bytes) , a ++ (join 59 l ++ 44 :: (asc " Signature=" ++ c)) =
      b ++ (join 59 l' ++ 44 :: (asc " Signature=" ++ d)) → a = b → (∀ n ∈ l, 44 ∉ n) → (∀ n ∈ l', 44 ∉ n) →
      join 59 l = join 59 l' ∧ c = d := by
    rintro a b c d l l' h rfl h1 h2
    have h := List.append_cancel_left h
    have h3 := congrArg (cut 44) h
    rw [cut_append _ _ _ (join_not_mem 59 44 (by decide) _ h1), cut_append _ _ _ (join_not_mem 59 44 (by decide) _ h2)] at h3
    obtain ⟨e1, e2⟩ := Prod.mk.inj h3
    exact ⟨e1, List.append_cancel_left (Option.some.inj e2)⟩
  have hstart : date.take 8 = date'.take 8 := by
    have h := hauth
    simp only [List.append_assoc] at h
    have h := List.append_cancel_left (List.append_cancel_left (List.append_cancel_left h))
    exact (List.append_inj h (by rw [List.length_take, List.length_take, d0, d0'])).1
  obtain ⟨hn, hsig⟩ := htail _ _ _ _ _ _ hauth (by rw [hstart]) (fun n h => (d3 n h).2) (fun n h => (d3' n h).2)
  have hnames : names = names' := by
    have := congrArg (split (59 : UInt8)) hn
    rwa [split_join _ _ d2 fun n h => (d3 n h).1, split_join _ _ d2' fun n h => (d3' n h).1] at this
  subst hnames
  -- from the signature to the text that is signed
  have hmsg := (hcol.hmac _ _ _ _ (hcol.hex _ _ hsig)).2
  simp only [List.append_assoc, List.cons_append, List.nil_append] at hmsg
  have hmsg := List.append_cancel_left hmsg
  have hmsg := (List.cons.inj hmsg).2
  have hcut := congrArg (cut 10) hmsg
  rw [cut_append _ _ _ hdn, cut_append _ _ _ hdn'] at hcut
  obtain ⟨hdate, hrest⟩ := Prod.mk.inj hcut
  subst hdate
  have hrest := Option.some.inj hrest
  have hrest := List.append_cancel_left hrest
  simp only [List.cons.injEq, true_and] at hrest
  have hrest := List.append_cancel_left hrest
  simp only [List.cons.injEq, true_and] at hrest
  have hrest := List.append_cancel_left (List.append_cancel_left hrest)
  have hcanon := hcol.sha256 _ _ (List.cons.inj hrest).2
  -- line by line
  have hnl : ∀ n ∈ names, 10 ∉ n := by
    intro n hn h
    have : 10 ∉ (asc "AWS4-HMAC-SHA256 Credential=" ++ accessKey ++ [47] ++ date.take 8 ++
        [47] ++ region ++ [47] ++ service ++ asc "/aws4_request, SignedHeaders=" ++ (join 59 names ++ 44 ::
        (asc " Signature=" ++ specSignature lib secret date region service (serviceCanonical lib enc m names)))) :=
      hmem hb (asc "authorization") _ (by rw [d6]; simp)
    simp only [List.mem_append, List.mem_cons, not_or] at this
    refine this.2.1 ?_
    have hs : ∀ (ls : List Bytes), n ∈ ls → 10 ∈ join 59 ls := by
      intro ls
      induction ls with
      | nil => simp
      | cons x ls ih =>
        intro hx
        by_cases he : ls = []
        · subst he
          rw [List.mem_singleton] at hx
          subst hx; simpa [join] using h
        · rw [join_cons _ _ _ he]
          rcases List.mem_cons.1 hx with rfl | hx
          · simp [h]
          · simp [ih hx]
    exact hs names hn
  have hpath : ∀ {m : Message}, NoBreaks m → 10 ∉ servicePath enc m := by
    intro m hb
    have hc : 10 ∉ (cut 63 m.target).1 := fun h => hb.target ((cut_mem 63 m.target).1 _ h)
    unfold servicePath
    cases enc with
    | true => exact nl_not_mem_quote _ (by decide) _
    | false => exact fun h => hc (mem_removeDots _ false _ (by decide) h)
  have hcomb : ∀ (m : Message) n, 10 ∉ combined lib m n := by
    intro m n
    unfold combined
    refine join_not_mem _ _ (by decide) _ fun x hx => ?_
    obtain ⟨y, _, rfl⟩ := List.mem_map.1 hx
    exact join_not_mem _ _ (by decide) _ (hw y)
  have hhash : ∀ {m : Message}, NoBreaks m → 10 ∉ contentHash lib m := by
    intro m hb
    unfold contentHash
    split
    · rename_i x hx
      exact hmem hb (asc "x-amz-content-sha256") x (by rw [hx]; simp)
    · exact hsha _
  have hform : ∀ m : Message, serviceCanonical lib enc m names = join 10 ([m.method, servicePath enc m,
      canonicalQuery lib.decode (cut 63 m.target).2] ++ (names.map fun n => n ++ [58] ++ combined lib m n) ++
      [[], join 59 names, contentHash lib m]) := by
    intro m
    rw [← text_lines, List.map_map]
    rfl
  have hall : ∀ {m : Message}, NoBreaks m → ∀ x ∈ [m.method, servicePath enc m,
      canonicalQuery lib.decode (cut 63 m.target).2] ++ (names.map fun n => n ++ [58] ++ combined lib m n) ++
      [[], join 59 names, contentHash lib m], (10 : UInt8) ∉ x := by
    intro m hb x hx
    simp only [List.mem_append, List.mem_cons, List.mem_map, List.not_mem_nil, or_false] at hx
    rcases hx with ((rfl | rfl | rfl) | ⟨n, hn, rfl⟩) | (rfl | rfl | rfl)
    · exact hb.method
    · exact hpath hb
    · exact nl_not_mem_query _ _
    · simp only [List.mem_append, List.mem_singleton, not_or]
      exact ⟨⟨hnl n hn, by decide⟩, hcomb _ _⟩
    · simp
    · exact join_not_mem _ _ (by decide) _ hnl
    · exact hhash hb
  rw [hform, hform] at hcanon
  have hlines := congrArg (split (10 : UInt8)) hcanon
  rw [split_join _ _ (by simp) (hall hb), split_join _ _ (by simp) (hall hb')] at hlines
  obtain ⟨hl1, hl2⟩ := List.append_inj' hlines rfl
  obtain ⟨hl3, hl4⟩ := List.append_inj hl1 rfl
  simp only [List.cons.injEq, and_true, true_and] at hl2 hl3
  refine ⟨by rw [d1, d1'], hl3.1, hl3.2.1, hl3.2.2, hl2, names, ⟨asc "AWS4-HMAC-SHA256 Credential=" ++ accessKey ++ [47] ++
    date.take 8 ++ [47] ++ region ++ [47] ++ service ++ asc "/aws4_request, ",
    specSignature lib secret date region service (serviceCanonical lib enc m names), ?_⟩, d4, ?_, ?_⟩
  · rw [d6]
    have e1 : asc "/aws4_request, SignedHeaders=" = asc "/aws4_request, " ++ asc "SignedHeaders=" := by decide +kernel
    have e2 : asc ", Signature=" = 44 :: asc " Signature=" := by decide +kernel
    rw [e1, e2]
    simp only [List.append_assoc, List.cons_append]
  · intro t ht
    rcases List.mem_append.1 ht with ht | ht
    · exact d5 t ht
    · exact d5' t ht
  · intro n hn
    have key : ∀ ls : List Bytes, (ls.map fun n => n ++ [58] ++ combined lib m n) =
        (ls.map fun n => n ++ [58] ++ combined lib m' n) → ∀ n ∈ ls, combined lib m n = combined lib m' n := by
      intro ls h n hn
      have := List.map_inj_left.1 h n hn
      exact List.append_cancel_left this
    exact key names hl4 n hn

/-! ## The hypotheses are met -/

/-- The library of the examples, with the hash of no content. -/
def demoLib : Lib := { asciiLib with
  sha256 := fun t => if t = [] then asc "e3b0c44298fc1c149afbf4c8996fb92427ae41e4649b934ca495991b7852b855" else 35 :: t }

theorem demoLib_lowers : LowersAscii demoLib := fun _ _ => rfl

def demoFields : List (Field Bytes) :=
  [⟨asc "B", [asc "1, 2"], .header⟩, ⟨asc "Content-Type", [asc " x  y "], .header⟩, ⟨asc "User-Agent", [asc "u"], .header⟩]

def demoRequest : Request :=
  ⟨⟨asc "https", none, none, asc "h", some 8443, some (asc "/a/../b c"), some (asc "q=1&p=")⟩, asc "PUT", some 0, 0⟩

def demoSigned : World × Except Error Request :=
  sign demoLib .async [] (oneWorld demoFields (.chunks [asc "bo", asc "dy"])) demoRequest someIdentity someProperties

theorem demo_holds : Holds demoLib (oneWorld demoFields (.chunks [asc "bo", asc "dy"])) 0 demoFields :=
  ⟨by decide +kernel, ⟨.cons ⟨by decide +kernel, by decide +kernel⟩ (.cons ⟨by decide +kernel, by decide +kernel⟩
    (.cons ⟨by decide +kernel, by decide +kernel⟩ .nil)), by decide +kernel, by decide +kernel⟩⟩

theorem demo_sendable : Sendable demoLib .async someProperties demoRequest demoFields where
  method := by decide +kernel
  path := by
    intro t h
    cases h
    decide +kernel
  port := fun _ => by decide +kernel
  one := by decide +kernel
  names := by decide +kernel
  date := by decide +kernel
  hash := .inr (.inr ⟨by decide +kernel, by decide +kernel⟩)

/-- A signed request as it is sent, and that it is accepted. -/
example : ((sentMessage demoLib demoSigned).map fun m => (m.target, m.headers.map Prod.fst,
      accepts demoLib (asc "AK") (asc "SK") (asc "r") (asc "s") true m)) =
    some (asc "/a/../b c?q=1&p=", ["B", "Content-Type", "User-Agent", "X-Amz-Date", "X-Amz-Security-Token", "Authorization",
      "host", "accept"].map asc, true) := by decide +kernel

example : ∃ w r, demoSigned = (w, .ok r) := by
  have : (match demoSigned.2 with | .ok _ => true | .error _ => false) = true := by decide +kernel
  revert this
  generalize demoSigned = x
  obtain ⟨w, r⟩ := x
  cases r with
  | ok r => exact fun _ => ⟨w, r, rfl⟩
  | error e => exact fun h => by cases h

/-- Another credential, another content, another value of a header: not accepted. -/
example : ((sentMessage demoLib demoSigned).map fun m =>
      [accepts demoLib (asc "AK") (asc "other") (asc "r") (asc "s") true m,
        accepts demoLib (asc "AK") (asc "SK") (asc "r") (asc "s") true { m with body := asc "other" },
        accepts demoLib (asc "AK") (asc "SK") (asc "r") (asc "s") true { m with headers := m.headers ++ [(asc "b", asc "3")] },
        accepts demoLib (asc "AK") (asc "SK") (asc "r") (asc "s") true
          { m with headers := m.headers ++ [(asc "x-amz-acl", asc "public")] },
        accepts demoLib (asc "AK") (asc "SK") (asc "r") (asc "s") true
          { m with headers := m.headers ++ [(asc "User-Agent", asc "v")] }]) =
    some [false, false, false, false, true] := by decide +kernel

/-- Line breaks and backslashes written as two characters. -/
def escape : Bytes → Bytes
  | [] => []
  | b :: t => if b = 10 then 92 :: 110 :: escape t else if b = 92 then 92 :: 92 :: escape t else b :: escape t

def unescape : Bytes → Bytes
  | 92 :: 110 :: t => 10 :: unescape t
  | 92 :: 92 :: t => 92 :: unescape t
  | b :: t => b :: unescape t
  | [] => []

theorem unescape_escape (t : Bytes) : unescape (escape t) = t := by
  induction t with
  | nil => rfl
  | cons b t ih =>
    unfold escape
    by_cases h1 : b = 10
    · rw [if_pos h1, unescape, ih, h1]
    · rw [if_neg h1]
      by_cases h2 : b = 92
      · rw [if_pos h2, unescape, ih, h2]
      · rw [if_neg h2, unescape, ih]
        · intro _ h _; exact h2 h
        · intro _ h _; exact h2 h

theorem escape_no_break (t : Bytes) : 10 ∉ escape t := by
  induction t with
  | nil => simp [escape]
  | cons b t ih =>
    unfold escape
    split
    · simp [ih]
    · rename_i h
      split
      · simp [ih]
      · simp only [List.mem_cons, not_or]
        exact ⟨fun e => h e.symm, ih⟩

/-- A library whose hashes have no collisions. -/
def idealLib : Lib := { asciiLib with
  sha256 := escape
  hmac := fun k m => (k.map fun b => [0, b]).flatten ++ 1 :: m
  hex := escape }

theorem idealLib_ideal : NoCollisions idealLib where
  sha256 a b h := by
    have := congrArg unescape h
    rwa [show unescape (idealLib.sha256 a) = a from unescape_escape a,
      show unescape (idealLib.sha256 b) = b from unescape_escape b] at this
  hmac := by
    intro k m k' m' h
    change (k.map fun b => [0, b]).flatten ++ 1 :: m = (k'.map fun b => [0, b]).flatten ++ 1 :: m' at h
    induction k generalizing k' with
    | nil =>
      cases k' with
      | nil => exact ⟨rfl, by simpa using h⟩
      | cons b k' => simp at h
    | cons a k ih =>
      cases k' with
      | nil => simp at h
      | cons b k' =>
        simp only [List.map_cons, List.flatten_cons, List.cons_append, List.nil_append, List.cons.injEq, true_and] at h
        obtain ⟨h1, h2⟩ := ih k' h.2
        exact ⟨by rw [h.1, h1], h2⟩
  hex a b h := by
    have := congrArg unescape h
    rwa [show unescape (idealLib.hex a) = a from unescape_escape a,
      show unescape (idealLib.hex b) = b from unescape_escape b] at this

theorem idealLib_words (v x : Bytes) (h : x ∈ idealLib.words v) : 10 ∉ x := by
  have h := (List.mem_filter.1 h).1
  intro hx
  have := mem_split _ _ x h _ hx
  obtain ⟨b, _, hb⟩ := List.mem_map.1 this
  by_cases hc : b.toNat ≤ 32
  · rw [if_pos hc] at hb; exact absurd hb (by decide)
  · rw [if_neg hc] at hb; subst hb; exact hc (by decide)

/-- Two messages that differ in what is not signed: both are accepted. -/
example : ((sentMessage idealLib (sign idealLib .async [] (oneWorld demoFields (.chunks [asc "body"])) demoRequest someIdentity
      someProperties)).map fun m => decide (10 ∉ m.target) &&
      (m.headers.all fun t => decide (10 ∉ t.1) && decide (10 ∉ t.2)) &&
      accepts idealLib (asc "AK") (asc "SK") (asc "r") (asc "s") true m &&
      accepts idealLib (asc "AK") (asc "SK") (asc "r") (asc "s") true
        { m with headers := m.headers ++ [(asc "User-Agent", asc "v")] }) = some true := by decide +kernel

/-! ## What does not hold -/

/-- Whether a request is accepted when it is signed and sent. -/
def works (v : Variant) (dest : Destination) (method : Bytes) (fs : List (Field Bytes)) (p : Properties) : Option Bool :=
  (sentMessage demoLib (sign demoLib v [] (oneWorld fs (.chunks [asc "body"])) ⟨dest, method, some 0, 0⟩ someIdentity p)).map
    (accepts demoLib (asc "AK") (asc "SK") (asc "r") (asc "s") true)

example : works .async plainDestination (asc "GET") [] someProperties = some true := by decide +kernel

/-- **C98 (negative).**  A destination with the default port of its scheme: it is signed without the port, but the CRT client
sends `host` with the port. -/
theorem C98_default_port_fails :
    works .async { plainDestination with port := some 443 } (asc "GET") [] someProperties = some false := by decide +kernel

/-- **C98 (negative).**  A header with several values is signed with quotes around values that have commas, but they are sent
one by one as they are. -/
theorem C98_several_values_fails :
    works .async plainDestination (asc "GET") [⟨asc "B", [asc "1,2", asc "3"], .header⟩] someProperties = some false := by
  decide +kernel

/-- `Field.as_string` of smithy_http (smithy_http/__init__.py:54-71), which the requests of a smithy client are signed with:
the values are put together with a comma and a space. -/
def smithyText : List Bytes → Bytes
  | [] => []
  | [v] => v
  | v :: vs => (v :: vs).dropLast.foldr (fun x t => quoteValue x ++ [44, 32] ++ t) (quoteValue ((v :: vs).getLastD []))

/-- **C98 (negative).**  The headers of a smithy client with several values are signed with a comma and a space between the
values, while the service puts them together with a comma. -/
theorem C98_smithy_values_fails :
    join 32 (demoLib.words (smithyText [asc "1", asc "2"])) = asc "1, 2" ∧
    combined demoLib (crtMessage demoLib ⟨plainDestination, asc "GET", none, 0⟩
      [⟨asc "B", [asc "1", asc "2"], .header⟩] []) (asc "b") = asc "1,2" := by
  refine ⟨?_, ?_⟩ <;> decide +kernel

/-- **C98 (negative).**  Trailers are signed as if they were headers. -/
theorem C98_trailer_fails :
    works .async plainDestination (asc "GET") [⟨asc "B", [asc "1"], .trailer⟩] someProperties = some false := by
  decide +kernel

/-- **C98 (negative).**  Without payload signing, `UNSIGNED-PAYLOAD` is signed, but the service is not told so unless a
content checksum is asked for. -/
theorem C98_unsigned_payload_fails :
    works .async plainDestination (asc "GET") [] { someProperties with payloadSigning := some false } = some false ∧
    works .async plainDestination (asc "GET") []
      { someProperties with payloadSigning := some false, contentChecksum := some true } = some true := by
  refine ⟨?_, ?_⟩ <;> decide +kernel

/-- **C98 (negative).**  A content hash that the caller gives is used by the asynchronous signer; the other one signs its own,
but the service uses the one that is sent. -/
theorem C98_given_hash_fails :
    let given : List (Field Bytes) := [⟨asc "X-Amz-Content-SHA256", [asc "UNSIGNED-PAYLOAD"], .header⟩]
    works .sync plainDestination (asc "GET") given someProperties = some false ∧
    works .async plainDestination (asc "GET") given someProperties = some true := by
  refine ⟨?_, ?_⟩ <;> decide +kernel

/-- **C98 (negative).**  A request that has a date already is sent with that date, but signed for the time of signing. -/
theorem C98_given_date_fails :
    works .async plainDestination (asc "GET") [⟨asc "X-Amz-Date", [asc "20200101T000000Z"], .header⟩] someProperties =
      some false := by
  decide +kernel

/-- **C98 (negative).**  A method in lower case is signed in upper case. -/
theorem C98_method_fails : works .async plainDestination (asc "get") [] someProperties = some false := by decide +kernel

end Verif.Signing.Wire
