import Verif.Signing.Verify
import Verif.Publisher.ChainProps
import Mathlib.Tactic.Common

/-!
# The SigV4 scheme: requests and their events (C94)

Models `SigV4AuthScheme` (smithy_aws_core/auth/sigv4.py:71-116), the part of `_handle_attempt` that puts
the properties for the signer together (smithy_core/aio/client.py:418-436) and the part of
`create_event_publisher` that makes the signer of the events (smithy_aws_core/aio/protocols.py:199-211).
Signing itself is `Verif/Signing/Model.lean` (requests) and `Verif/Publisher/Model.lean` (events).

Simplifications: the event stream package is installed, the identity comes from a resolver that is not
looked into, and `identity_properties` (71-79), which are only handed to it, are left out.
-/

set_option autoImplicit false

namespace Verif.Signing.Scheme

open Verif.Uri Verif.Text Verif.Fields Verif.Signing
open Verif.Publisher (SignCfg Crypto Act run FitsSigned)
open Verif.Publisher.Spec (Chain)

variable {lib : Lib} {ρ : Type}

/-! ## Model -/

/-- `SigV4Config` (sigv4.py:32-34). -/
structure Config (ρ : Type) where
  region : Option Bytes
  resolver : Option ρ

inductive SchemeErr where
  /-- `SmithyIdentityError`: no resolver (84-87) -/
  | noResolver
  /-- `SmithyIdentityError`: no region (93-95) -/
  | noRegion
  /-- `KeyError`: the request has no such field (110) -/
  | notSigned
  deriving DecidableEq, Repr

/-- `identity_resolver` (sigv4.py:81-88); no config is `context.get` giving nothing. -/
def identityResolver : Option (Config ρ) → Except SchemeErr ρ
  | none => .error .noResolver
  | some c =>
    match c.resolver with
    | none => .error .noResolver
    | some r => .ok r

/-- `signer_properties` (sigv4.py:90-99). -/
def signerProperties (service : Bytes) : Option (Config ρ) → Except SchemeErr Properties
  | none => .error .noRegion
  | some c =>
    match c.region with
    | none => .error .noRegion
    | some region => .ok ⟨region, service, none, none, none, none⟩

/-- Properties of an auth option, those that signers know. -/
structure Overrides where
  region : Option Bytes := none
  service : Option Bytes := none
  date : Option Bytes := none
  payloadSigning : Option Bool := none
  contentChecksum : Option Bool := none
  uriEncodePath : Option Bool := none

/-- `signer_properties.update(option.identity_properties)` (client.py:435). -/
def Properties.update (p : Properties) (o : Overrides) : Properties where
  region := o.region.getD p.region
  service := o.service.getD p.service
  date := o.date <|> p.date
  payloadSigning := o.payloadSigning <|> p.payloadSigning
  contentChecksum := o.contentChecksum <|> p.contentChecksum
  uriEncodePath := o.uriEncodePath <|> p.uriEncodePath

/-- What a request is signed with (client.py:421, 432-435): the resolver of the identity, and properties. -/
def requestSigning (service : Bytes) (config : Option (Config ρ)) (o : Overrides) :
    Except SchemeErr (ρ × Properties) :=
  match identityResolver config with
  | .error e => .error e
  | .ok resolver =>
    match signerProperties service config with
    | .error e => .error e
    | .ok p => .ok (resolver, Properties.update p o)

/-- The last part of `re.split(sep, text)` for a separator that is plain text: the number of characters
still to be skipped, the part so far, the rest of the text. -/
def lastPart (sep : Bytes) : Nat → Bytes → Bytes → Bytes
  | _, part, [] => part
  | 0, part, c :: t =>
    if sep.isPrefixOf (c :: t) then lastPart sep (sep.length - 1) [] t else lastPart sep 0 (part ++ [c]) t
  | n + 1, part, _ :: t => lastPart sep n part t

/-- The signature that `event_signer` (sigv4.py:104-116) starts from. -/
def initialSignature (lib : Lib) (w : World) (r : Request) : Except SchemeErr Bytes :=
  match w.get lib r.fields (asc "Authorization") with
  | none => .error .notSigned
  | some f => .ok (lastPart (asc "Signature=") 0 [] (asString f.values))

/-- The signing configuration of `create_event_publisher` (protocols.py:201-211): the first signature, and
what the events are signed with. -/
def eventSigning (lib : Lib) (crypto : Crypto) (format : Int → Bytes) (service : Bytes)
    (config : Option (Config ρ)) (w : World) (r : Request) : Except SchemeErr (Bytes × SignCfg × ρ) :=
  match initialSignature lib w r with
  | .error e => .error e
  | .ok initial =>
    match signerProperties service config with
    | .error e => .error e
    | .ok p =>
      match identityResolver config with
      | .error e => .error e
      | .ok resolver =>
        .ok (initial, { crypto := crypto, region := p.region, service := p.service, date := p.date,
                        format := format }, resolver)

/-! ## Lemmas -/

theorem lastPart_plain (sep : Bytes) (c : UInt8) (hc : sep.head? = some c) (s : Bytes) :
    ∀ part, c ∉ s → lastPart sep 0 part s = part ++ s := by
  induction s with
  | nil => intro part _; simp [lastPart]
  | cons d s ih =>
    intro part h
    rw [List.mem_cons, not_or] at h
    rw [lastPart, if_neg, ih _ h.2]
    · simp
    · intro hp
      cases sep with
      | nil => simp at hc
      | cons e sep =>
        simp only [List.head?_cons, Option.some.injEq] at hc
        subst hc
        rw [List.isPrefixOf_iff_prefix] at hp
        obtain ⟨t, ht⟩ := hp
        exact h.1 (List.cons.inj ht).1

theorem lastPart_skip (sep : Bytes) (part t : Bytes) : ∀ u : Bytes, lastPart sep u.length part (u ++ t) =
    lastPart sep 0 part t := by
  intro u
  induction u with
  | nil => rfl
  | cons c u ih => rw [List.length_cons, List.cons_append, lastPart, ih]

/-- A separator that does not overlap itself is found wherever it is. -/
theorem lastPart_append (sep : Bytes) (c : UInt8) (hc : sep.head? = some c)
    (hb : ∀ k, 0 < k → k < sep.length → ¬ sep.drop k <+: sep) (s : Bytes) (hs : c ∉ s) (u : Bytes) :
    ∀ k part, k ≤ u.length → lastPart sep k part (u ++ (sep ++ s)) = s := by
  induction u with
  | nil =>
    intro k part hk
    obtain rfl : k = 0 := by simpa using hk
    cases hsep : sep with
    | nil => rw [hsep] at hc; simp at hc
    | cons d sep' =>
      rw [List.nil_append, List.cons_append, lastPart, if_pos]
      · rw [List.length_cons, Nat.add_sub_cancel, lastPart_skip]
        rw [hsep] at hc
        rw [lastPart_plain (d :: sep') c hc s [] hs, List.nil_append]
      · rw [List.isPrefixOf_iff_prefix]
        exact ⟨s, rfl⟩
  | cons d u ih =>
    intro k part hk
    rw [List.cons_append]
    cases k with
    | succ k =>
      rw [lastPart]
      exact ih k part (by simpa using hk)
    | zero =>
      rw [lastPart]
      by_cases hp : sep.isPrefixOf (d :: (u ++ (sep ++ s))) = true
      · rw [if_pos hp]
        rw [List.isPrefixOf_iff_prefix] at hp
        apply ih
        by_contra hlt
        have hlt : (d :: u).length < sep.length := by simp only [List.length_cons]; omega
        obtain ⟨t, ht⟩ := hp
        have h1 : (d :: u) <+: sep := by
          have e1 : (d :: u) <+: sep ++ t := by rw [ht]; exact ⟨sep ++ s, rfl⟩
          exact List.prefix_of_prefix_length_le e1 (List.prefix_append _ _) (Nat.le_of_lt hlt)
        obtain ⟨rest, hrest⟩ := h1
        have h2 : rest ++ t = sep ++ s := by
          have : (d :: u) ++ (rest ++ t) = (d :: u) ++ (sep ++ s) := by
            rw [← List.append_assoc, hrest, ht]; rfl
          exact List.append_cancel_left this
        have h3 : rest <+: sep := by
          have e1 : rest <+: sep ++ s := ⟨t, h2⟩
          refine List.prefix_of_prefix_length_le e1 (List.prefix_append _ _) ?_
          have := congrArg List.length hrest
          simp only [List.length_append] at this
          omega
        have h4 : sep.drop (d :: u).length = rest := by rw [← hrest]; simp
        exact hb (d :: u).length (by simp) hlt (by rw [h4]; exact h3)
      · rw [if_neg hp]
        exact ih 0 _ (Nat.zero_le _)

theorem marker_no_overlap : ∀ k, 0 < k → k < (asc "Signature=").length →
    ¬ (asc "Signature=").drop k <+: asc "Signature=" := by
  have h : ∀ k < 10, 0 < k → ((asc "Signature=").drop k).isPrefixOf (asc "Signature=") = false := by
    decide +kernel
  intro k h0 hk hp
  have := h k hk h0
  rw [← List.isPrefixOf_iff_prefix] at hp
  rw [hp] at this
  cases this

theorem hex_no_S (b : Bytes) : ch 'S' ∉ Publisher.Spec.hex b := by
  unfold Publisher.Spec.hex
  intro h
  simp only [List.mem_flatten, List.mem_map] at h
  obtain ⟨l, ⟨x, _, rfl⟩, hl⟩ := h
  have key : ∀ n < 16, (EventStream.utf8Encode "0123456789abcdef").getD n 0 ≠ ch 'S' := by decide +kernel
  have h1 : x.toNat / 16 < 16 := by have := x.toNat_lt; omega
  have h2 : x.toNat % 16 < 16 := by omega
  simp only [List.mem_cons, List.not_mem_nil, or_false] at hl
  rcases hl with hl | hl
  · exact key _ h1 hl.symm
  · exact key _ h2 hl.symm

theorem find_mem {fs : List (Fields.Field Bytes)} (hd : Distinct lib.lower fs) (f : Fields.Field Bytes)
    (hf : f ∈ fs) : lookup lib.lower fs f.name = some f := by
  induction fs with
  | nil => cases hf
  | cons g fs ih =>
    rw [Distinct, List.pairwise_cons] at hd
    rw [lookup_cons]
    rcases List.mem_cons.1 hf with rfl | hf
    · rw [if_pos]; simp [same]
    · rw [if_neg (by simpa [same] using hd.1 f hf), ih hd.2 hf]

theorem requestSigning_ok {service : Bytes} {config : Option (Config ρ)} {o : Overrides} {resolver : ρ}
    {p : Properties} (h : requestSigning service config o = .ok (resolver, p)) :
    ∃ region, config = some ⟨some region, some resolver⟩ ∧
      p = Properties.update ⟨region, service, none, none, none, none⟩ o := by
  match config, h with
  | some ⟨some region, some r⟩, h =>
    simp only [requestSigning, identityResolver, signerProperties, Except.ok.injEq, Prod.mk.injEq] at h
    exact ⟨region, by rw [h.1], h.2.symm⟩
  | some ⟨none, some r⟩, h => simp [requestSigning, identityResolver, signerProperties] at h
  | some ⟨_, none⟩, h => simp [requestSigning, identityResolver] at h
  | none, h => simp [requestSigning, identityResolver] at h

/-! ## Theorems -/

/-- **C94**, proved part: whatever request the scheme had signed, under whatever configuration, the events
that follow it are signed for the region and the service of the request's credential, with an identity from
the same resolver, and the frames handed to the writer are, however the calls interleave and whatever fails,
a chain that starts at exactly the signature in the request's authorization.  Missing: options that bring a
region, a service or a date of their own, for which it is false (`C94_option_region_fails`), and oversized
events (`C11_oversized_event_fails`). -/
theorem C94_partial (hl : LowersAscii lib) (hhex : ∀ b, lib.hex b = Publisher.Spec.hex b)
    (v : Variant) (now : Bytes) {w w' : World} {r r' : Request} {fs : List (Fields.Field Bytes)}
    (h : Holds lib w r.fields fs) (ident : Identity) (service : Bytes) (config : Option (Config ρ))
    (o : Overrides) (ho : o.region = none ∧ o.service = none ∧ o.date = none)
    (resolver : ρ) (p : Properties) (hp : requestSigning service config o = .ok (resolver, p))
    (hs : sign lib v now w r ident p = (w', .ok r'))
    (crypto : Crypto) (format : Int → Bytes) :
    ∃ (sentFields : List (Fields.Field Bytes)) (region names signature : Bytes) (c : SignCfg),
      Holds lib w' r'.fields sentFields ∧
      (⟨asc "Authorization", [asc "AWS4-HMAC-SHA256 Credential=" ++ (ident.accessKey ++ [47] ++
          (now.take 8 ++ [47] ++ region ++ [47] ++ service ++ asc "/aws4_request")) ++
          asc ", SignedHeaders=" ++ names ++ asc ", Signature=" ++ signature], .header⟩ :
        Fields.Field Bytes) ∈ sentFields ∧
      ch 'S' ∉ signature ∧
      eventSigning lib crypto format service config w' r' = .ok (signature, c, resolver) ∧
      c.crypto = crypto ∧ c.format = format ∧ c.region = region ∧ c.service = service ∧ c.date = none ∧
      ∀ acts : List Act, FitsSigned acts →
        ∃ evs, Chain c signature evs (Publisher.Spec.written (run (some c) signature acts).out)
            (run (some c) signature acts).signer.prior ∧
          (∀ m, evs.count (some m) ≤ (Publisher.Spec.sent acts).count m) ∧
          (∀ a b, evs = a ++ none :: b → b = [] ∧ none ∉ a) := by
  obtain ⟨region, hc, hpp⟩ := requestSigning_ok hp
  obtain ⟨fs', lines, date, hash, h1, h2, _, _, _, h6⟩ := C74_signature hl v now h ident p hs
  have e1 : p.region = region := by rw [hpp]; simp [Properties.update, ho.1]
  have e2 : p.service = service := by rw [hpp]; simp [Properties.update, ho.2.1]
  have e3 : p.date = none := by rw [hpp]; simp [Properties.update, ho.2.2]
  rw [e3, Option.getD_none] at h2
  rw [e1, e2, h2] at h6
  have hS : ∀ x, ch 'S' ∉ specSignature lib ident.secretKey now region service x := by
    intro x
    unfold specSignature
    rw [hhex]
    exact hex_no_S _
  refine ⟨fs', region, _, _, ⟨crypto, region, service, none, format⟩, h1, h6, hS _, ?_, rfl, rfl, rfl, rfl,
    rfl, fun acts hf => Publisher.C11_signature_chain_partial _ _ acts hf⟩
  have hg : w'.get lib r'.fields (asc "Authorization") = _ :=
    (h1.get _).trans (find_mem h1.distinct _ h6)
  have split : ∀ a s : Bytes, a ++ asc ", Signature=" ++ s = (a ++ asc ", ") ++ (asc "Signature=" ++ s) := by
    intro a s
    have : asc ", Signature=" = asc ", " ++ asc "Signature=" := by decide +kernel
    rw [this]
    simp only [List.append_assoc]
  unfold eventSigning initialSignature
  rw [hg]
  simp only [asString]
  rw [split, lastPart_append (asc "Signature=") (ch 'S') (by decide +kernel) marker_no_overlap _ (hS _) _ 0 []
    (Nat.zero_le _), hc]
  rfl

/-- A request cannot be signed, and a stream of events not opened, without a resolver and a region. -/
theorem C94_configured (lib : Lib) (service : Bytes) (config : Option (Config ρ)) (o : Overrides)
    (crypto : Crypto) (format : Int → Bytes) (w : World) (r : Request) :
    ((∃ x, requestSigning service config o = .ok x) ↔
      ∃ region resolver, config = some ⟨some region, some resolver⟩) ∧
    ((∃ x, eventSigning lib crypto format service config w r = .ok x) ↔
      (∃ region resolver, config = some ⟨some region, some resolver⟩) ∧
      (w.get lib r.fields (asc "Authorization")).isSome) := by
  constructor
  · constructor
    · rintro ⟨⟨resolver, p⟩, h⟩
      obtain ⟨region, h1, _⟩ := requestSigning_ok h
      exact ⟨region, resolver, h1⟩
    · rintro ⟨region, resolver, rfl⟩
      exact ⟨_, rfl⟩
  · unfold eventSigning initialSignature
    cases w.get lib r.fields (asc "Authorization") with
    | none => simp
    | some f =>
      simp only [Option.isSome_some, and_true]
      match config with
      | some ⟨some region, some resolver⟩ => simp [identityResolver, signerProperties]
      | some ⟨none, some resolver⟩ => simp [signerProperties]
      | some ⟨some region, none⟩ => simp [identityResolver, signerProperties]
      | some ⟨none, none⟩ => simp [signerProperties]
      | none => simp [signerProperties]

/-! ## The hypotheses are met -/

/-- `asciiLib` with real hexadecimal text. -/
def hexLib : Lib := { asciiLib with hex := Publisher.Spec.hex }

def demoCrypto : Crypto := ⟨id, fun _ _ => List.replicate 32 7, fun _ _ => by simp⟩

def demoConfig : Option (Config Unit) := some ⟨some (asc "eu"), some ()⟩

example : (∀ b, hexLib.hex b = Publisher.Spec.hex b) ∧
    requestSigning (asc "s3") demoConfig {} = .ok ((), ⟨asc "eu", asc "s3", none, none, none, none⟩) :=
  ⟨fun _ => rfl, rfl⟩

/-- Signing succeeds, and its signature is found. -/
example : (match sign hexLib .async (asc "20240101T000000Z")
      (oneWorld [⟨asc "B", [asc "1"], .header⟩] (.chunks [asc "body"])) oneRequest someIdentity
      ⟨asc "eu", asc "s3", none, none, none, none⟩ with
    | (w, .ok r) => (eventSigning hexLib demoCrypto (fun _ => []) (asc "s3") demoConfig w r).toOption.map
        (fun x => (x.1.length > 0, x.2.1.region))
    | _ => none) = some (true, asc "eu") := by decide +kernel

/-! ## What does not hold -/

/-- An auth option can bring a region (client.py:435 takes its identity properties): the request is then
signed for that region, and its events for the one of the configuration (protocols.py:206). -/
theorem C94_option_region_fails : ∃ (o : Overrides) (p : Properties) (initial : Bytes) (c : SignCfg)
    (w w' : World) (r r' : Request),
    requestSigning (asc "s3") demoConfig o = .ok ((), p) ∧
    sign hexLib .async (asc "20240101T000000Z") w r someIdentity p = (w', .ok r') ∧
    eventSigning hexLib demoCrypto (fun _ => []) (asc "s3") demoConfig w' r' = .ok (initial, c, ()) ∧
    p.region = asc "us" ∧ c.region = asc "eu" := by
  let p : Properties := ⟨asc "us", asc "s3", none, none, none, none⟩
  have key : (match sign hexLib .async (asc "20240101T000000Z") (oneWorld [] (.chunks [asc "body"])) oneRequest
        someIdentity ⟨asc "us", asc "s3", none, none, none, none⟩ with
      | (w, .ok r) => (w.get hexLib r.fields (asc "Authorization")).isSome
      | _ => false) = true := by decide +kernel
  rcases hsig : sign hexLib .async (asc "20240101T000000Z") (oneWorld [] (.chunks [asc "body"])) oneRequest
    someIdentity p with ⟨w', res⟩
  rw [hsig] at key
  match res, hsig, key with
  | .ok r', hsig, key =>
    simp only [Option.isSome_iff_exists] at key
    obtain ⟨f, hf⟩ := key
    refine ⟨{ region := some (asc "us") }, p, lastPart (asc "Signature=") 0 [] (asString f.values),
      ⟨demoCrypto, asc "eu", asc "s3", none, fun _ => []⟩, _, w', oneRequest, r', rfl, hsig, ?_, rfl, rfl⟩
    unfold eventSigning initialSignature
    rw [hf]
    rfl

end Verif.Signing.Scheme
