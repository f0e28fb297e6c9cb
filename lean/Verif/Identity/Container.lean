import Verif.Identity.IpAddress
import Verif.Uri.Build
import Mathlib.Tactic.Common

/-!
# Credentials of containers (C53)

Models `ContainerMetadataClient` and the parts of `ContainerCredentialsResolver` that read the environment
(smithy_aws_core/identity/container.py:43-163).  `URI` and its check of the host are those of
`Verif.Uri.Host`.  The cache of the resolver is in `Verif.Identity.Cache`.
-/

set_option autoImplicit false

namespace Verif.Identity.Container

open Verif.Identity.Ip (Loopback isLoopback isLoopback_iff)
open Verif.Http.Destination (Uri)

abbrev Text := List Char

/-! ## Model -/

/-- `_CONTAINER_METADATA_IP` (container.py:23). -/
def metadataIp : Text := "169.254.170.2".toList

/-- `_CONTAINER_METADATA_ALLOWED_HOSTS` (container.py:24-29). -/
def allowedHosts : List Text :=
  [metadataIp, "169.254.170.23".toList, "fd00:ec2::23".toList, "localhost".toList]

/-- `_validate_allowed_url` (container.py:50-59) does not raise. -/
def allowed (host : Text) : Bool := isLoopback host || allowedHosts.contains host

/-- Fields of a request: names and values.  `Fields` has more (see `Verif.Fields`); here a field has one
value. -/
abbrev Fields := List (Text × Text)

/-- `Fields.set_field`: an existing field keeps its place. -/
def setField (lower : Text → Text) (fs : Fields) (name value : Text) : Fields :=
  match fs with
  | [] => [(name, value)]
  | (n, v) :: fs =>
    if lower n = lower name then (name, value) :: fs else (n, v) :: setField lower fs name value

structure Request where
  method : Text
  destination : Uri
  fields : Fields
  deriving DecidableEq, Repr

/-- What comes of a request: an exception; an exception like `CancelledError` that `except Exception`
does not catch; or a response, with the value of its body if it is JSON in UTF-8. -/
inductive Outcome (J : Type) where
  | raised
  | cancelled
  | response (status : Nat) (json : Option J)
  deriving DecidableEq, Repr

/-- What can be seen. -/
inductive Event where
  | sent (r : Request)
  | slept
  deriving DecidableEq, Repr

inductive Err where
  | unsupportedHost
  | exhausted
  | cancelled
  | noUri
  | invalidHost
  | urlparse
  | tokenFile
  deriving DecidableEq, Repr

variable {J : Type}

/-- The loop of `get_credentials` (container.py:65-94): `left` attempts are left of
`self._config.retries`, `n` requests were sent.  `world n` is what comes of the request number `n`. -/
def attempt (world : Nat → Outcome J) (req : Request) : Nat → Nat → List Event × Except Err J
  | 0, _ => ([], .error .exhausted)
  | left + 1, n =>
    match world n with
    | .cancelled => ([.sent req], .error .cancelled)
    | .raised =>
      let r := attempt world req left (n + 1)
      (.sent req :: .slept :: r.1, r.2)
    | .response status json =>
      match status == 200, json with
      | true, some j => ([.sent req], .ok j)
      | _, _ =>
        let r := attempt world req left (n + 1)
        (.sent req :: .slept :: r.1, r.2)

/-- `get_credentials` (container.py:61-94).  A number of retries below zero is like zero. -/
def getCredentials (lower : Text → Text) (retries : Int) (world : Nat → Outcome J) (uri : Uri) (fields : Fields) :
    List Event × Except Err J :=
  if !allowed uri.host then ([], .error .unsupportedHost)
  else
    let fields := setField lower fields "Accept".toList "application/json".toList
    attempt world ⟨"GET".toList, uri, fields⟩ retries.toNat 0

/-- The environment variables the resolver reads (container.py:111-114), and what reading the token file
gives (container.py:165-172). -/
structure Env where
  relativeUri : Option Text
  fullUri : Option Text
  token : Option Text
  tokenFile : Option Text
  readFile : Text → Option Text

/-- What `urllib.parse.urlparse` tells of a URL. -/
structure Parsed where
  scheme : Text
  hostname : Option Text
  port : Option Nat
  path : Text
  query : Text
  fragment : Text
  deriving DecidableEq, Repr

/-- `URI.__post_init__` (smithy_core/__init__.py:58-63). -/
def makeUri (u : Uri) : Except Err Uri := if Verif.Uri.Host.accepted u.host then .ok u else .error .invalidHost

/-- `_resolve_uri_from_env` (container.py:126-145).  `none` is a `ValueError` of `urlparse` or of the
port. -/
def resolveUri (urlparse : Text → Option Parsed) (env : Env) : Except Err Uri :=
  match env.relativeUri with
  | some path => makeUri { scheme := "http".toList, host := metadataIp, path := some path }
  | none =>
    match env.fullUri with
    | some url =>
      match urlparse url with
      | none => .error .urlparse
      | some p =>
        makeUri { scheme := p.scheme, host := p.hostname.getD [], port := p.port, path := some p.path }
    | none => .error .noUri

/-- `_resolve_fields_from_env` (container.py:147-163). -/
def resolveFields (env : Env) : Except Err Fields :=
  match env.tokenFile with
  | some file =>
    match env.readFile file with
    | none => .error .tokenFile
    | some token => .ok [("Authorization".toList, token)]
  | none =>
    match env.token with
    | some token => .ok [("Authorization".toList, token)]
    | none => .ok []

/-- `get_identity` without cached credentials, up to the answer (container.py:184-186). -/
def fetch (lower : Text → Text) (urlparse : Text → Option Parsed) (retries : Int) (env : Env)
    (world : Nat → Outcome J) : List Event × Except Err J :=
  match resolveUri urlparse env with
  | .error e => ([], .error e)
  | .ok uri =>
    match resolveFields env with
    | .error e => ([], .error e)
    | .ok fields => getCredentials lower retries world uri fields

/-! ## Specification -/

/-- The hosts that credentials may be asked of: the container metadata services, the host itself by its
name, and the host itself by any address. -/
def Trusted (host : Text) : Prop :=
  host = "169.254.170.2".toList ∨ host = "169.254.170.23".toList ∨ host = "fd00:ec2::23".toList ∨
    host = "localhost".toList ∨ Loopback host

/-- The requests that were sent, in order. -/
def sent : List Event → List Request
  | [] => []
  | .sent r :: es => r :: sent es
  | .slept :: es => sent es

/-- The answer is one with credentials. -/
def Success (o : Outcome J) (j : J) : Prop := o = .response 200 (some j)

/-- The answer is one after which another attempt is made. -/
def Failure (o : Outcome J) : Prop := o ≠ .cancelled ∧ ∀ j, ¬ Success o j

/-! ## Theorems -/

/-- **C53**: a host is accepted exactly if it is one of the hosts that are trusted. -/
theorem C53_allowed_iff (host : Text) : allowed host = true ↔ Trusted host := by
  unfold allowed allowedHosts metadataIp Trusted
  rw [Bool.or_eq_true, isLoopback_iff, List.contains_iff_mem]
  simp only [List.mem_cons, List.not_mem_nil, or_false]
  constructor
  · rintro (h | h | h | h | h)
    · exact .inr (.inr (.inr (.inr h)))
    · exact .inl h
    · exact .inr (.inl h)
    · exact .inr (.inr (.inl h))
    · exact .inr (.inr (.inr (.inl h)))
  · rintro (h | h | h | h | h)
    · exact .inr (.inl h)
    · exact .inr (.inr (.inl h))
    · exact .inr (.inr (.inr (.inl h)))
    · exact .inr (.inr (.inr (.inr h)))
    · exact .inl h

theorem attempt_sent (world : Nat → Outcome J) (req : Request) (left n : Nat) :
    ∀ r ∈ sent (attempt world req left n).1, r = req := by
  induction left generalizing n with
  | zero => simp [attempt, sent]
  | succ left ih =>
    simp only [attempt]
    split
    · simp [sent]
    · simpa [sent] using ih (n + 1)
    · split
      · simp [sent]
      · simpa [sent] using ih (n + 1)

theorem setField_accept (lower : Text → Text) (fs : Fields) (name value : Text) :
    (name, value) ∈ setField lower fs name value := by
  induction fs with
  | nil => simp [setField]
  | cons x fs ih =>
    simp only [setField]
    split
    · simp
    · simp [ih]

theorem setField_other (lower : Text → Text) (fs : Fields) (name value : Text) (x : Text × Text)
    (hx : lower x.1 ≠ lower name) : x ∈ setField lower fs name value ↔ x ∈ fs := by
  have hne : x ≠ (name, value) := by rintro rfl; exact hx rfl
  induction fs with
  | nil => simp [setField, hne]
  | cons y fs ih =>
    simp only [setField]
    split
    · next h =>
      have : x ≠ y := by rintro rfl; exact hx h
      simp [hne, this]
    · simp [ih]

/-- **C53**: every request goes to a trusted host, is a `GET` of the URI given, asks for JSON and has the
fields given. -/
theorem C53_only_trusted (lower : Text → Text) (retries : Int) (world : Nat → Outcome J) (uri : Uri)
    (fields : Fields) (r : Request) (h : r ∈ sent (getCredentials lower retries world uri fields).1) :
    Trusted r.destination.host ∧ r.method = "GET".toList ∧ r.destination = uri ∧
      ("Accept".toList, "application/json".toList) ∈ r.fields ∧
      ∀ f, lower f.1 ≠ lower "Accept".toList → (f ∈ r.fields ↔ f ∈ fields) := by
  unfold getCredentials at h
  split at h
  · cases h
  · next ha =>
    have := attempt_sent _ _ _ _ r h
    subst this
    refine ⟨(C53_allowed_iff _).1 (by simpa using ha), rfl, rfl, setField_accept _ _ _ _, ?_⟩
    intro f hf
    exact setField_other _ _ _ _ f hf

/-- **C53**: for a host that is not trusted nothing is sent, and the call fails. -/
theorem C53_refused (lower : Text → Text) (retries : Int) (world : Nat → Outcome J) (uri : Uri)
    (fields : Fields) (h : ¬ Trusted uri.host) :
    getCredentials lower retries world uri fields = ([], .error .unsupportedHost) := by
  unfold getCredentials
  rw [← C53_allowed_iff] at h
  simp [h]

theorem success_iff (o : Outcome J) (j : J) : Success o j ↔ o = .response 200 (some j) := Iff.rfl

theorem attempt_spec (world : Nat → Outcome J) (req : Request) (left n : Nat) :
    (∃ k, k < left ∧ (∀ i < k, Failure (world (n + i))) ∧
      (∃ j, Success (world (n + k)) j ∧ (attempt world req left n).2 = .ok j ∨
        world (n + k) = .cancelled ∧ (attempt world req left n).2 = .error .cancelled) ∧
      (sent (attempt world req left n).1).length = k + 1) ∨
    ((∀ i < left, Failure (world (n + i))) ∧ (attempt world req left n).2 = .error .exhausted ∧
      (sent (attempt world req left n).1).length = left) ∨
    (∃ k, k < left ∧ (∀ i < k, Failure (world (n + i))) ∧ world (n + k) = .cancelled ∧
      (attempt world req left n).2 = .error .cancelled ∧
      (sent (attempt world req left n).1).length = k + 1) := by
  induction left generalizing n with
  | zero => right; left; exact ⟨by simp, rfl, rfl⟩
  | succ left ih =>
    have step : Failure (world n) → attempt world req (left + 1) n =
        (.sent req :: .slept :: (attempt world req left (n + 1)).1, (attempt world req left (n + 1)).2) := by
      intro hf
      simp only [attempt]
      split
      · next h => exact absurd h hf.1
      · rfl
      · next status json h =>
        by_cases hs : status = 200
        · subst hs
          cases json with
          | none => rfl
          | some j => exact absurd h (hf.2 j)
        · have : (status == 200) = false := by simpa using hs
          rw [this]
    have first : ∀ k, Failure (world n) → (∀ i < k, Failure (world (n + 1 + i))) → ∀ i < k + 1, Failure (world (n + i)) := by
      intro k h0 hk i hi
      cases i with
      | zero => exact h0
      | succ i =>
        have := hk i (by omega)
        rwa [show n + 1 + i = n + (i + 1) by omega] at this
    by_cases hf : Failure (world n)
    · rw [step hf]
      rcases ih (n + 1) with ⟨k, h1, h2, h3, h4⟩ | ⟨h1, h2, h3⟩ | ⟨k, h1, h2, h3, h4, h5⟩
      · left
        refine ⟨k + 1, by omega, first k hf h2, ?_, by simp [sent, h4]⟩
        rwa [show n + 1 + k = n + (k + 1) by omega] at h3
      · right; left
        exact ⟨first left hf h1, h2, by simp [sent, h3]⟩
      · right; right
        refine ⟨k + 1, by omega, first k hf h2, ?_, h4, by simp [sent, h5]⟩
        rwa [show n + 1 + k = n + (k + 1) by omega] at h3
    · by_cases hc : world n = .cancelled
      · right; right
        refine ⟨0, by omega, by simp, hc, ?_⟩
        simp only [attempt]
        rw [hc]
        exact ⟨rfl, rfl⟩
      · left
        have : ∃ j, Success (world n) j := by
          by_contra hn
          exact hf ⟨hc, fun j hj => hn ⟨j, hj⟩⟩
        obtain ⟨j, hj⟩ := this
        refine ⟨0, by omega, by simp, ⟨j, .inl ⟨hj, ?_⟩⟩, ?_⟩
        · simp only [attempt]
          rw [show world n = .response 200 (some j) from hj]
          rfl
        · simp only [attempt]
          rw [show world n = .response 200 (some j) from hj]
          rfl

/-- The result of a call for a trusted host, whatever comes of its requests: requests are repeated until
one succeeds, at most `retries` times. -/
theorem C53_attempts (lower : Text → Text) (retries : Int) (world : Nat → Outcome J) (uri : Uri)
    (fields : Fields) (h : Trusted uri.host) :
    let r := getCredentials lower retries world uri fields
    (∀ (k : Nat) (j : J), (k : Int) < retries → (∀ i < k, Failure (world i)) → Success (world k) j →
      r.2 = .ok j ∧ (sent r.1).length = k + 1) ∧
    ((∀ i : Nat, (i : Int) < retries → Failure (world i)) →
      r.2 = .error .exhausted ∧ (sent r.1).length = retries.toNat) ∧
    (∀ k : Nat, (k : Int) < retries → (∀ i < k, Failure (world i)) → world k = .cancelled →
      r.2 = .error .cancelled ∧ (sent r.1).length = k + 1) := by
  rw [← C53_allowed_iff] at h
  have hg : getCredentials lower retries world uri fields =
      attempt world ⟨"GET".toList, uri, setField lower fields "Accept".toList "application/json".toList⟩
        retries.toNat 0 := by
    unfold getCredentials
    rw [if_neg (by simp [h])]
  have hs := attempt_spec world ⟨"GET".toList, uri, setField lower fields "Accept".toList
    "application/json".toList⟩ retries.toNat 0
  rw [← hg] at hs
  simp only [Nat.zero_add] at hs
  simp only
  have notFail : ∀ k j, Success (world k) j → ¬ Failure (world k) := fun k j hk hf => hf.2 j hk
  have notFail' : ∀ k, world k = .cancelled → ¬ Failure (world k) := fun k hk hf => hf.1 hk
  have same : ∀ k k' : Nat, (∀ i < k, Failure (world i)) → ¬ Failure (world k) →
      (∀ i < k', Failure (world i)) → ¬ Failure (world k') → k = k' := by
    intro k k' h1 h2 h3 h4
    rcases Nat.lt_trichotomy k k' with hlt | he | hlt
    · exact absurd (h3 k hlt) h2
    · exact he
    · exact absurd (h1 k' hlt) h4
  refine ⟨?_, ?_, ?_⟩
  · intro k j hk hf hj
    rcases hs with ⟨k', h1, h2, ⟨j', ⟨hj', hr⟩ | ⟨hc, hr⟩⟩, h4⟩ | ⟨h1, -, -⟩ | ⟨k', h1, h2, h3, -, -⟩
    · have := same k k' hf (notFail _ _ hj) h2 (notFail _ _ hj')
      subst this
      unfold Success at hj hj'
      rw [hj] at hj'
      cases hj'
      exact ⟨hr, h4⟩
    · have := same k k' hf (notFail _ _ hj) h2 (notFail' _ hc)
      subst this
      unfold Success at hj
      rw [hj] at hc; cases hc
    · exact absurd (h1 k (by omega)) (notFail _ _ hj)
    · have := same k k' hf (notFail _ _ hj) h2 (notFail' _ h3)
      subst this
      unfold Success at hj
      rw [hj] at h3; cases h3
  · intro hf
    rcases hs with ⟨k', h1, h2, ⟨j', ⟨hj', hr⟩ | ⟨hc, hr⟩⟩, h4⟩ | ⟨h1, h2, h3⟩ | ⟨k', h1, h2, h3, -, -⟩
    · exact absurd (hf k' (by omega)) (notFail _ _ hj')
    · exact absurd (hf k' (by omega)) (notFail' _ hc)
    · exact ⟨h2, h3⟩
    · exact absurd (hf k' (by omega)) (notFail' _ h3)
  · intro k hk hf hc
    rcases hs with ⟨k', h1, h2, ⟨j', ⟨hj', hr⟩ | ⟨hc', hr⟩⟩, h4⟩ | ⟨h1, -, -⟩ | ⟨k', h1, h2, h3, h4, h5⟩
    · have := same k k' hf (notFail' _ hc) h2 (notFail _ _ hj')
      subst this
      unfold Success at hj'
      rw [hc] at hj'; cases hj'
    · have := same k k' hf (notFail' _ hc) h2 (notFail' _ hc')
      subst this
      exact ⟨hr, h4⟩
    · exact absurd (h1 k (by omega)) (notFail' _ hc)
    · have := same k k' hf (notFail' _ hc) h2 (notFail' _ h3)
      subst this
      exact ⟨h4, h5⟩

theorem makeUri_ok (u v : Uri) (h : makeUri u = .ok v) : v = u := by
  unfold makeUri at h
  split at h
  · cases h; rfl
  · cases h

theorem metadataIp_accepted : Verif.Uri.Host.accepted metadataIp = true := by decide +kernel

/-- **C53**: the relative URI wins over the full one and is asked of the container metadata service; the
full URI is asked of its own host if that is trusted.  The token of the file wins over the one of the
variable. -/
theorem C53_environment (lower : Text → Text) (urlparse : Text → Option Parsed) (retries : Int) (env : Env)
    (world : Nat → Outcome J) (r : Request) (hl : lower "Accept".toList ≠ lower "Authorization".toList)
    (h : r ∈ sent (fetch lower urlparse retries env world).1) :
    Trusted r.destination.host ∧
    (∀ path, env.relativeUri = some path → r.destination =
      { scheme := "http".toList, host := "169.254.170.2".toList, path := some path }) ∧
    (env.relativeUri = none → ∃ url p host, env.fullUri = some url ∧ urlparse url = some p ∧
      p.hostname = some host ∧
      r.destination = { scheme := p.scheme, host := host, port := p.port, path := some p.path }) ∧
    (∀ token, ("Authorization".toList, token) ∈ r.fields ↔
      (∃ file, env.tokenFile = some file ∧ env.readFile file = some token) ∨
        (env.tokenFile = none ∧ env.token = some token)) := by
  unfold fetch at h
  split at h
  · cases h
  · next uri hu =>
    split at h
    · cases h
    · next fields hf =>
      obtain ⟨h1, -, h2, -, h3⟩ := C53_only_trusted _ _ _ _ _ r h
      have hne : ¬ Trusted [] := by rw [← C53_allowed_iff]; decide
      refine ⟨h1, ?_, ?_, ?_⟩
      · intro path hp
        unfold resolveUri at hu
        rw [hp] at hu
        rw [h2, makeUri_ok _ _ hu]
        rfl
      · intro hp
        unfold resolveUri at hu
        rw [hp] at hu
        simp only at hu
        split at hu
        · next url hurl =>
          split at hu
          · cases hu
          · next p hpp =>
            have := makeUri_ok _ _ hu
            cases hh : p.hostname with
            | none =>
              rw [h2, this, hh] at h1
              exact absurd h1 hne
            | some host =>
              refine ⟨url, p, host, hurl, hpp, hh, ?_⟩
              rw [h2, this, hh]; rfl
        · cases hu
      · intro token
        rw [h3 _ (by simpa using hl.symm)]
        unfold resolveFields at hf
        split at hf
        · next file hfile =>
          split at hf
          · cases hf
          · next tok htok =>
            cases hf
            simp [hfile, htok, eq_comm]
        · next hfile =>
          split at hf
          · next tok htok => cases hf; simp [hfile, htok, eq_comm]
          · next htok => cases hf; simp [hfile, htok]

theorem metadataIp_valid : metadataIp ≠ [] ∧ (Verif.Uri.Host.Valid metadataIp ∨ Verif.Uri.Host.IPv6Zone metadataIp) := by
  refine ⟨by decide, .inl (.inr (.inl ?_))⟩
  rw [← Verif.Uri.Host.ipv4_iff, ← Verif.Regex.fullmatch_iff]
  decide +kernel

theorem metadataScheme : "http".toList ≠ [] ∧ ∀ c ∈ "http".toList, c ≠ ':' ∧ c ≠ '/' ∧ c ≠ '?' ∧ c ≠ '#' := by
  decide

/-- **C53**: whatever the relative URI is, the text of the URI that is asked is read as one of the
container metadata service. -/
theorem C53_relative_authority (natText : Nat → Text) (hn : ∀ n, ∀ c ∈ natText n, Verif.Uri.Host.isDigit c = true)
    (usesNetloc : Text → Bool) (urlparse : Text → Option Parsed) (env : Env) (path : Text) (uri : Uri)
    (hp : env.relativeUri = some path) (h : resolveUri urlparse env = .ok uri) :
    (Verif.Uri.Build.read (Verif.Uri.Build.build natText usesNetloc uri)).authority =
      some "169.254.170.2".toList := by
  unfold resolveUri at h
  rw [hp] at h
  have := makeUri_ok _ _ h
  subst this
  refine (Verif.Uri.Build.C72_authority_isolated usesNetloc hn _ ?_).2.trans ?_
  · refine ⟨metadataScheme, by simp, by simp, metadataIp_valid, by simp, by simp⟩
  · congr 1

/-- What is not so: the query of the full URI is not part of what is asked; URIs that differ in their
queries only are the same. -/
theorem C53_query_fails (urlparse : Text → Option Parsed) (env : Env) (url url' : Text) (p : Parsed) (query : Text)
    (h1 : urlparse url = some p) (h2 : urlparse url' = some { p with query := query }) :
    resolveUri urlparse { env with fullUri := some url } = resolveUri urlparse { env with fullUri := some url' } := by
  unfold resolveUri
  simp only [h1, h2]

/-! ## The hypotheses are met -/

example : Trusted "127.0.0.1".toList ∧ Trusted "::1".toList ∧ ¬ Trusted "169.254.169.254".toList ∧
    ¬ Trusted "localhost.example.com".toList := by
  simp only [← C53_allowed_iff]
  decide +kernel

example : (fetch (J := Nat) id (fun _ => none) 3
    ⟨some "/creds".toList, none, some "t".toList, none, fun _ => none⟩
    (fun n => if n = 0 then .raised else .response 200 (some 7))).2 = .ok 7 := by
  decide +kernel

end Verif.Identity.Container
