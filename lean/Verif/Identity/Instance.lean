import Verif.Identity.Container
import Verif.Json.Read
import Verif.Timestamps.Rfc3339

/-!
# Credentials of instances and containers (C122)

Models what is left of smithy_aws_core/identity/imds.py and container.py: the requests to the metadata service of an instance
(imds.py:28-145 for calls one after the other, and 148-179), and what is made of the answers (imds.py:197-238,
container.py:188-209).  The token cache with concurrent callers is C54, the requests of containers are C53, and when cached
credentials are used is C50.
-/

set_option autoImplicit false

namespace Verif.Identity.Instance

open Verif.Json (Plain)
open Verif.Timestamps (DateTime fromIso)
open Verif.Http.Destination (Uri)
open Verif.Identity.Container (Request makeUri)

abbrev Text := List Char

/-! ## Model: what is made of an answer -/

inductive Err where
  /-- the request raised an exception -/
  | request
  /-- the body is not UTF-8 -/
  | unicode
  /-- `json.loads` raises -/
  | json
  | attributeError | typeError | valueError
  /-- `SmithyIdentityError` -/
  | identity
  deriving DecidableEq, Repr

/-- `AWSCredentialsIdentity` (components.py:11-31).  Nothing checks that the texts are texts; `null` is `None`. -/
structure Credentials where
  accessKeyId : Plain
  secretAccessKey : Plain
  sessionToken : Plain
  expiration : Option DateTime
  accountId : Plain

/-- `creds.get(name)` for a dictionary; other values have no `get`, or one that is not called like this. -/
def get (j : Plain) (name : Text) : Except Err Plain :=
  match j with
  | .obj es => .ok ((es.lookup name).getD .null)
  | _ => .error .attributeError

def isNone : Plain → Bool
  | .null => true
  | _ => false

/-- `datetime.fromisoformat(expiration).replace(tzinfo=UTC)` (imds.py:222, container.py:195). -/
def expirationOf (t : Text) : Except Err DateTime :=
  match fromIso t with
  | .error _ => .error .valueError
  | .ok dt => .ok { dt with offset := some 0 }

/-- The end of `get_identity` of the resolver for instances (imds.py:216-234).  `ensure_utc` of a time in UTC is that time. -/
def ofInstance (j : Plain) : Except Err Credentials :=
  match get j "AccessKeyId".toList, get j "SecretAccessKey".toList, get j "Token".toList, get j "AccountId".toList,
    get j "Expiration".toList with
  | .ok key, .ok secret, .ok token, .ok account, .ok expiration =>
    let expires : Except Err (Option DateTime) :=
      match expiration with
      | .null => .ok none
      | .str t => (expirationOf t).map some
      | _ => .error .typeError
    match expires with
    | .error e => .error e
    | .ok expires =>
      if isNone key || isNone secret then .error .identity else .ok ⟨key, secret, token, expires, account⟩
  | _, _, _, _, _ => .error .attributeError

/-- The end of `get_identity` of the resolver for containers (container.py:188-209).  An expiration that is not a text is left
as it is here, and then `ensure_utc` raises (smithy_core/interfaces/identity.py:19-21, utils.py:18-31). -/
def ofContainer (j : Plain) : Except Err Credentials :=
  match get j "AccessKeyId".toList, get j "SecretAccessKey".toList, get j "Token".toList, get j "Expiration".toList,
    get j "AccountId".toList with
  | .ok key, .ok secret, .ok token, .ok expiration, .ok account =>
    let expires : Except Err (Option DateTime) :=
      match expiration with
      | .null => .ok none
      | .str t => (expirationOf t).map some
      | _ => if isNone key || isNone secret then .error .identity else .error .attributeError
    match expires with
    | .error e => .error e
    | .ok expires =>
      if isNone key || isNone secret then .error .identity else .ok ⟨key, secret, token, expires, account⟩
  | _, _, _, _, _ => .error .attributeError

/-! ## Model: requests to the metadata service of an instance -/

/-- `Config` (imds.py:28-76): what is used of it. -/
structure Config where
  endpoint : Uri
  ttl : Int
  profile : Option Text

/-- `_resolve_endpoint` (imds.py:66-76) with `_HOST_MAPPING` (imds.py:32-34). -/
def resolveEndpoint (endpoint : Option Uri) (mode : Text) : Except Container.Err Uri :=
  match endpoint with
  | some u => .ok u
  | none =>
    makeUri { scheme := "http".toList,
              host := if mode = "IPv6".toList then "[fd00:ec2::254]".toList else "169.254.169.254".toList, port := some 80 }

/-- `Config.__init__` (imds.py:43-57) with `_validate_token_ttl` (imds.py:59-64).  `none` is an exception. -/
def makeConfig (endpoint : Option Uri) (mode : Text) (ttl : Int) (profile : Option Text) : Option Config :=
  match resolveEndpoint endpoint mode with
  | .error _ => none
  | .ok u => if 5 ≤ ttl ∧ ttl ≤ 21600 then some ⟨u, ttl, profile⟩ else none

/-- What comes of a request: an exception, or a response with a status and the text of its body, if it is UTF-8. -/
inductive Answer where
  | raised
  | response (status : Nat) (body : Option Text)
  deriving DecidableEq, Repr

/-- What happens: the clock is read, or a request is sent and something comes of it. -/
inductive Event where
  | clock (t : Int)
  | exchange (r : Request) (a : Answer)
  deriving DecidableEq, Repr

/-- The rest of the world: what `datetime.now()` is when it is read the `n`-th time and `datetime.now(UTC)` when credentials are
looked at the `n`-th time, both in microseconds since the year 1, what comes of the `n`-th request, and what `json.loads` makes of a text. -/
structure World where
  clock : Nat → Int
  utc : Nat → Int
  answer : Nat → Answer
  loads : Text → Option Plain
  agent : Text

/-- The resolver with its token cache, and all that has happened, in order. -/
structure St where
  token : Option (Text × Int)
  credentials : Option Credentials
  looked : Nat
  history : List Event

def init : St := ⟨none, none, 0, []⟩

def clocks : List Event → Nat
  | [] => 0
  | .clock _ :: h => clocks h + 1
  | _ :: h => clocks h

def requests : List Event → Nat
  | [] => 0
  | .exchange _ _ :: h => requests h + 1
  | _ :: h => requests h

/-- `datetime.now()`. -/
def St.now (w : World) (s : St) : St × Int :=
  let t := w.clock (clocks s.history)
  ({ s with history := s.history ++ [.clock t] }, t)

/-- `await self._http_client.send(request)` and `await response.consume_body_async()`, then `decode("utf-8")`. -/
def St.send (w : World) (s : St) (r : Request) : St × Except Err Text :=
  let a := w.answer (requests s.history)
  let s := { s with history := s.history ++ [.exchange r a] }
  match a with
  | .raised => (s, .error .request)
  | .response _ none => (s, .error .unicode)
  | .response _ (some body) => (s, .ok body)

/-- `URI(scheme=..., host=..., port=..., path=...)` with those of the endpoint (imds.py:129-134 and 169-174). -/
def target (c : Config) (path : Text) : Uri :=
  { scheme := c.endpoint.scheme, host := c.endpoint.host, port := c.endpoint.port, path := some path }

/-- `str(ttl)` of a number that is not negative. -/
def intText (n : Int) : Text := Verif.Numerals.natText n.toNat

/-- The request for a token (imds.py:118-136). -/
def tokenRequest (w : World) (c : Config) : Request :=
  ⟨"PUT".toList, target c "/latest/api/token".toList,
    [("User-Agent".toList, w.agent), ("x-aws-ec2-metadata-token-ttl-seconds".toList, intText c.ttl)]⟩

/-- The request for metadata (imds.py:158-176). -/
def getRequest (w : World) (c : Config) (path token : Text) : Request :=
  ⟨"GET".toList, target c path, [("User-Agent".toList, w.agent), ("x-aws-ec2-metadata-token".toList, token)]⟩

/-- `_should_refresh` (imds.py:111-112) with `is_expired` (imds.py:88-89): `none` if a token is needed. -/
def St.current (w : World) (c : Config) (s : St) : St × Option Text :=
  match s.token with
  | none => (s, none)
  | some (v, created) =>
    let (s, now) := s.now w
    if now - created ≥ c.ttl * 1000000 then (s, none) else (s, some v)

/-- `get_token` (imds.py:141-145) with `_refresh` (imds.py:114-139), which looks again when it has the lock. -/
def St.getToken (w : World) (c : Config) (s : St) : St × Except Err Text :=
  match s.current w c with
  | (s, some v) => (s, .ok v)
  | (s, none) =>
    match s.current w c with
    | (s, some v) => (s, .ok v)
    | (s, none) =>
      match s.send w (tokenRequest w c) with
      | (s, .error e) => (s, .error e)
      | (s, .ok body) =>
        let (s, now) := s.now w
        ({ s with token := some (body, now) }, .ok body)

/-- `EC2Metadata.get` (imds.py:156-179). -/
def St.getPath (w : World) (c : Config) (s : St) (path : Text) : St × Except Err Text :=
  match s.getToken w c with
  | (s, .error e) => (s, .error e)
  | (s, .ok token) => s.send w (getRequest w c path token)

/-- `_METADATA_PATH_BASE` (imds.py:187). -/
def base : Text := "/latest/meta-data/iam/security-credentials".toList

/-- `get_identity` when the cached credentials are not used and the name of the role is known (imds.py:211-234). -/
def St.fetchFor (w : World) (c : Config) (s : St) (profile : Text) : St × Except Err Credentials :=
  match s.getPath w c (base ++ '/' :: profile) with
  | (s, .error e) => (s, .error e)
  | (s, .ok text) =>
    match w.loads text with
    | none => (s, .error .json)
    | some j =>
      match ofInstance j with
      | .error e => (s, .error e)
      | .ok x => ({ s with credentials := some x }, .ok x)

/-- `get_identity` when the cached credentials are not used (imds.py:207-234). -/
def St.fetch (w : World) (c : Config) (s : St) : St × Except Err Credentials :=
  match c.profile with
  | some p => s.fetchFor w c p
  | none =>
    match s.getPath w c base with
    | (s, .error e) => (s, .error e)
    | (s, .ok profile) => s.fetchFor w c profile

/-- `get_identity` (imds.py:197-234).  Times in UTC are compared by their fields. -/
def St.getIdentity (w : World) (c : Config) (s : St) : St × Except Err Credentials :=
  match s.credentials with
  | none => s.fetch w c
  | some x =>
    match x.expiration with
    | none => s.fetch w c
    | some e =>
      let s' := { s with looked := s.looked + 1 }
      if w.utc s.looked < Verif.Timestamps.wall e then (s', .ok x) else s'.fetch w c

/-- What is called: `get_identity`, `invalidate` (imds.py:236-238), and `get` of the client. -/
inductive Call where
  | identity
  | invalidate
  | metadata (path : Text)
  deriving DecidableEq, Repr

def St.step (w : World) (c : Config) (s : St) : Call → St
  | .identity => (s.getIdentity w c).1
  | .invalidate => { s with credentials := none }
  | .metadata path => (s.getPath w c path).1

/-- The state after calls, one after the other. -/
def run (w : World) (c : Config) (calls : List Call) : St := calls.foldl (fun s x => s.step w c x) init

/-! ## Specification -/

/-- The expiration that a member of the answer stands for: none if there is no such member or it is `null`; else the date and
time that the text has, taken for UTC. -/
inductive Expires : Option Plain → Option DateTime → Prop
  | missing : Expires none none
  | null : Expires (some .null) none
  | text {t : Text} {dt : DateTime} : fromIso t = .ok dt → Expires (some (.str t)) (some { dt with offset := some 0 })

/-- The credentials are those that an answer has: an object with both keys. -/
structure Says (j : Plain) (x : Credentials) : Prop where
  members : ∃ es, j = .obj es ∧ es.lookup "AccessKeyId".toList = some x.accessKeyId ∧
    es.lookup "SecretAccessKey".toList = some x.secretAccessKey ∧
    x.sessionToken = (es.lookup "Token".toList).getD .null ∧ x.accountId = (es.lookup "AccountId".toList).getD .null ∧
    Expires (es.lookup "Expiration".toList) x.expiration
  key : x.accessKeyId ≠ .null
  secret : x.secretAccessKey ≠ .null

/-- A request for a token, to the endpoint and with the lifetime that are configured. -/
def IsTokenRequest (w : World) (c : Config) (r : Request) : Prop :=
  r.method = "PUT".toList ∧
    r.destination = { scheme := c.endpoint.scheme, host := c.endpoint.host, port := c.endpoint.port,
                      path := some "/latest/api/token".toList } ∧
    r.fields = [("User-Agent".toList, w.agent),
      ("x-aws-ec2-metadata-token-ttl-seconds".toList, Verif.Numerals.natText c.ttl.toNat)]

/-- A request for a path, to the endpoint that is configured and with a token. -/
def IsGet (w : World) (c : Config) (path token : Text) (r : Request) : Prop :=
  r.method = "GET".toList ∧
    r.destination = { scheme := c.endpoint.scheme, host := c.endpoint.host, port := c.endpoint.port, path := some path } ∧
    r.fields = [("User-Agent".toList, w.agent), ("x-aws-ec2-metadata-token".toList, token)]

/-- The token that was given out last is `v`, and the clock was `t` then. -/
def Issued (w : World) (c : Config) (h : List Event) (v : Text) (t : Int) : Prop :=
  ∃ a r status b, h = a ++ .exchange r (.response status (some v)) :: .clock t :: b ∧ IsTokenRequest w c r ∧
    ∀ r' status' v', .exchange r' (.response status' (some v')) ∈ b → ¬ IsTokenRequest w c r'

/-- What the clock was when it was read last. -/
def LastClock (h : List Event) (t : Int) : Prop :=
  ∃ a b, h = a ++ .clock t :: b ∧ ∀ t', .clock t' ∉ b

/-- Only the clock and requests for tokens. -/
def TokensOnly (w : World) (c : Config) (h : List Event) : Prop := ∀ r a, .exchange r a ∈ h → IsTokenRequest w c r

/-- A request that may be sent after what has happened: one for a token, or one with the last token, which is not older than
its lifetime. -/
def Good (w : World) (c : Config) (h : List Event) (r : Request) : Prop :=
  IsTokenRequest w c r ∨ ∃ path v t t', IsGet w c path v r ∧ Issued w c h v t ∧ LastClock h t' ∧ t' - t < c.ttl * 1000000

/-! ## Lemmas -/

theorem get_obj (es : List (Text × Plain)) (name : Text) : get (.obj es) name = .ok ((es.lookup name).getD .null) := rfl

theorem isNone_false {p : Plain} : isNone p = false ↔ p ≠ .null := by
  cases p <;> simp [isNone]

theorem getD_some {o : Option Plain} {p : Plain} (hp : p ≠ .null) : o.getD .null = p ↔ o = some p := by
  cases o with
  | none => simp [hp.symm]
  | some q => simp

theorem says_of {es : List (Text × Plain)} {expires : Option DateTime} {x : Credentials}
    (he : Expires (es.lookup "Expiration".toList) expires) :
    (if isNone ((es.lookup "AccessKeyId".toList).getD .null) || isNone ((es.lookup "SecretAccessKey".toList).getD .null) then
      Except.error Err.identity
    else .ok (⟨(es.lookup "AccessKeyId".toList).getD .null, (es.lookup "SecretAccessKey".toList).getD .null,
      (es.lookup "Token".toList).getD .null, expires, (es.lookup "AccountId".toList).getD .null⟩ : Credentials)) = .ok x ↔
    Says (.obj es) x := by
  constructor
  · intro h
    split at h
    · cases h
    · rename_i hn
      simp only [Bool.or_eq_true, not_or, Bool.not_eq_true] at hn
      cases h
      have h1 := isNone_false.1 hn.1
      have h2 := isNone_false.1 hn.2
      exact ⟨⟨es, rfl, (getD_some h1).1 rfl, (getD_some h2).1 rfl, rfl, rfl, he⟩, h1, h2⟩
  · rintro ⟨⟨es', h0, h1, h2, h3, h4, h5⟩, h6, h7⟩
    cases h0
    rw [h1, h2, ← h3, ← h4]
    simp only [Option.getD_some, isNone_false.2 h6, isNone_false.2 h7, Bool.or_self, Bool.false_eq_true, if_false]
    have : expires = x.expiration := by
      revert h5 he
      generalize es.lookup "Expiration".toList = o
      intro he h5
      cases he with
      | missing =>
        generalize x.expiration = y at h5 ⊢
        cases h5; rfl
      | null =>
        generalize x.expiration = y at h5 ⊢
        cases h5; rfl
      | text h =>
        generalize x.expiration = y at h5 ⊢
        cases h5 with
        | text h' => rw [h] at h'; cases h'; rfl
    rw [this]

/-- C122: what is made of an answer, by both resolvers: the credentials that it says, or an exception if it does not say any. -/
theorem C122_answer (j : Plain) (x : Credentials) :
    (ofInstance j = .ok x ↔ Says j x) ∧ (ofContainer j = .ok x ↔ Says j x) := by
  have hno : (∀ es, j ≠ .obj es) → ¬ Says j x := by
    rintro h ⟨⟨es, h', _⟩, _, _⟩
    exact h es h'
  cases j with
  | obj es =>
    simp only [ofInstance, ofContainer, get_obj]
    cases hl : es.lookup "Expiration".toList with
    | none => exact ⟨says_of (hl ▸ .missing), says_of (hl ▸ .missing)⟩
    | some p =>
      have bad : (∀ e, ¬ Expires (some p) e) → ¬ Says (.obj es) x := by
        rintro h ⟨⟨es', h0, _, _, _, _, h5⟩, _, _⟩
        cases h0
        rw [hl] at h5
        exact h _ h5
      cases p with
      | null => exact ⟨says_of (hl ▸ .null), says_of (hl ▸ .null)⟩
      | str t =>
        simp only [Option.getD_some, expirationOf]
        cases hf : fromIso t with
        | error e =>
          have := bad fun e' h => by
            cases h with
            | text h => rw [hf] at h; cases h
          exact ⟨⟨fun h => (by cases h), fun h => absurd h this⟩, ⟨fun h => (by cases h), fun h => absurd h this⟩⟩
        | ok dt => exact ⟨says_of (hl ▸ .text hf), says_of (hl ▸ .text hf)⟩
      | _ =>
        have := bad fun e' h => by cases h
        refine ⟨⟨fun h => (by cases h), fun h => absurd h this⟩, ⟨fun h => ?_, fun h => absurd h this⟩⟩
        simp only [Option.getD_some] at h
        split at h <;> rename_i h' <;> split at h' <;> cases h' <;> cases h
  | _ =>
    have := hno fun es => by simp
    exact ⟨⟨fun h => (by cases h), fun h => absurd h this⟩, ⟨fun h => (by cases h), fun h => absurd h this⟩⟩

open Verif.Timestamps.Spec

/-- C122: if the answer gives the expiration as RFC 3339 does, in UTC, it is the instant that is said. -/
theorem C122_expiration_partial (r : Rfc3339) (h : r.Ok) (hz : zoneMinutes r.zone = 0) :
    ∃ u, expirationOf r.text = .ok u ∧ UtcOf r.instant u := by
  have hf := Verif.Timestamps.fromIso_text r h
  have hu := (Verif.Timestamps.C75_read_rfc3339 r h)
  refine ⟨_, by rw [expirationOf, hf], ?_⟩
  obtain ⟨h1, h2, h3, h4, h5, h6, h7, h8⟩ := h
  have hd : ∀ c ∈ r.fraction, Verif.Scalars.Strict.ascii c = true := fun c hc => Verif.Timestamps.isDigit_ascii c (h7 c hc)
  refine ⟨⟨h1, h2, ?_, ?_, ?_, Verif.Timestamps.fractionMicros_lt _ hd, ?_⟩, rfl, ?_⟩
  · simp only; omega
  · simp only; omega
  · simp only; omega
  · intro o ho
    simp only [Option.some.injEq] at ho
    omega
  · simp only [instant, Rfc3339.instant, hz, Option.getD_some]
    omega

/-- C122 is false of the code for other time zones: the offset of the text is thrown away, and the expiration is another
instant; a later one if the time zone is east of Greenwich. -/
theorem C122_offset_fails (r : Rfc3339) (h : r.Ok) :
    ∃ u, expirationOf r.text = .ok u ∧ instant u = r.instant + zoneMinutes r.zone * 60000000 := by
  refine ⟨_, by rw [expirationOf, Verif.Timestamps.fromIso_text r h], ?_⟩
  simp only [instant, Rfc3339.instant, Option.getD_some]
  omega

/-! ## The exchange -/

variable {w : World} {c : Config}

theorem target_eq (path : Text) : target c path =
    { scheme := c.endpoint.scheme, host := c.endpoint.host, port := c.endpoint.port, path := some path } := rfl

theorem isTokenRequest : IsTokenRequest w c (tokenRequest w c) := ⟨rfl, rfl, rfl⟩

theorem isGet (path token : Text) : IsGet w c path token (getRequest w c path token) := ⟨rfl, rfl, rfl⟩

theorem get_not_token {path token : Text} {r : Request} (h : IsGet w c path token r) : ¬ IsTokenRequest w c r := by
  intro h'
  have := h.1.symm.trans h'.1
  revert this
  decide

theorem issued_append {h : List Event} {v : Text} {t : Int} (hi : Issued w c h v t) (b' : List Event)
    (hb : ∀ r status v', .exchange r (.response status (some v')) ∈ b' → ¬ IsTokenRequest w c r) :
    Issued w c (h ++ b') v t := by
  obtain ⟨a, r, st, b, rfl, h1, h2⟩ := hi
  refine ⟨a, r, st, b ++ b', by simp, h1, ?_⟩
  intro r' st' v' hm
  rcases List.mem_append.1 hm with hm | hm
  · exact h2 r' st' v' hm
  · exact hb r' st' v' hm

/-- All requests were such as may be sent. -/
def AllGood (w : World) (c : Config) (h : List Event) : Prop :=
  ∀ a r x b, h = a ++ .exchange r x :: b → Good w c a r

theorem allGood_append {h : List Event} (hg : AllGood w c h) (b' : List Event)
    (hb : ∀ a r x b, b' = a ++ .exchange r x :: b → Good w c (h ++ a) r) : AllGood w c (h ++ b') := by
  intro a r x b he
  rcases List.append_eq_append_iff.1 he with ⟨a', rfl, h2⟩ | ⟨c', h1, h2⟩
  · exact hb a' r x b h2
  · cases c' with
    | nil =>
      rw [List.append_nil] at h1
      subst h1
      have := hb [] r x b h2.symm
      rwa [List.append_nil] at this
    | cons y c' =>
      cases h2
      exact hg a r x c' h1

/-- What holds between calls. -/
structure Inv (w : World) (c : Config) (s : St) : Prop where
  token : ∀ v t, s.token = some (v, t) → Issued w c s.history v t
  good : AllGood w c s.history

theorem now_inv {s : St} (hi : Inv w c s) : Inv w c (s.now w).1 ∧ (s.now w).1.token = s.token ∧
    (s.now w).1.history = s.history ++ [.clock (s.now w).2] ∧ (s.now w).1.credentials = s.credentials := by
  refine ⟨⟨?_, ?_⟩, rfl, rfl, rfl⟩
  · intro v t h
    exact issued_append (hi.token v t h) _ (by simp)
  · refine allGood_append hi.good _ ?_
    intro a r x b h
    cases a with
    | nil => cases h
    | cons y a => cases a <;> cases h

theorem lastClock_snoc (h : List Event) (t : Int) : LastClock (h ++ [.clock t]) t := ⟨h, [], rfl, by simp⟩

/-- `v` may be used now. -/
def Usable (w : World) (c : Config) (h : List Event) (v : Text) : Prop :=
  ∃ t t', Issued w c h v t ∧ LastClock h t' ∧ t' - t < c.ttl * 1000000

theorem current_inv {s : St} (hi : Inv w c s) : Inv w c (s.current w c).1 ∧ (s.current w c).1.token = s.token ∧
    (s.current w c).1.credentials = s.credentials ∧
    (∃ b, (s.current w c).1.history = s.history ++ b ∧ TokensOnly w c b) ∧
    (∀ v, (s.current w c).2 = some v → Usable w c (s.current w c).1.history v) := by
  rw [St.current]
  cases ht : s.token with
  | none => exact ⟨hi, ht, rfl, ⟨[], by simp, by intro r a h; cases h⟩, by intro v h; cases h⟩
  | some p =>
    obtain ⟨v, t⟩ := p
    obtain ⟨h1, h2, h3, h4⟩ := now_inv hi
    simp only
    have hb : ∃ b, (s.now w).1.history = s.history ++ b ∧ TokensOnly w c b :=
      ⟨_, h3, by intro r a h; simp at h⟩
    split
    · exact ⟨h1, h2.trans ht, h4, hb, by intro v h; cases h⟩
    · rename_i hn
      refine ⟨h1, h2.trans ht, h4, hb, ?_⟩
      intro v' h
      cases h
      refine ⟨t, (s.now w).2, h1.token v t (h2.trans ht), h3 ▸ lastClock_snoc _ _, by omega⟩

theorem send_history (s : St) (r : Request) : ∃ a, (s.send w r).1.history = s.history ++ [.exchange r a] ∧
    (s.send w r).1.token = s.token ∧ (s.send w r).1.credentials = s.credentials ∧
    (∀ v, (s.send w r).2 = .ok v → ∃ status, a = .response status (some v)) ∧
    (∀ e, (s.send w r).2 = .error e → ∀ status v, a ≠ .response status (some v)) := by
  refine ⟨w.answer (requests s.history), ?_⟩
  simp only [St.send]
  cases w.answer (requests s.history) with
  | raised => exact ⟨rfl, rfl, rfl, (by intro v h; cases h), by intro e _ st v h; cases h⟩
  | response st body =>
    cases body with
    | none => exact ⟨rfl, rfl, rfl, (by intro v h; cases h), by intro e _ st v h; cases h⟩
    | some body => exact ⟨rfl, rfl, rfl, (by intro v h; cases h; exact ⟨_, rfl⟩), by intro e h; cases h⟩

theorem good_snoc {h : List Event} (hg : AllGood w c h) {r : Request} {a : Answer} (hr : Good w c h r) :
    AllGood w c (h ++ [.exchange r a]) := by
  refine allGood_append hg _ ?_
  intro a' r' x b he
  cases a' with
  | nil => cases he; rwa [List.append_nil]
  | cons y a' => cases a' <;> cases he

theorem getToken_inv (hc : 0 < c.ttl) {s : St} (hi : Inv w c s) : Inv w c (s.getToken w c).1 ∧
    (s.getToken w c).1.credentials = s.credentials ∧
    (∃ b, (s.getToken w c).1.history = s.history ++ b ∧ TokensOnly w c b) ∧
    (∀ v, (s.getToken w c).2 = .ok v → Usable w c (s.getToken w c).1.history v) := by
  rw [St.getToken]
  obtain ⟨h1, h2, h3, ⟨b1, h4, h5⟩, h6⟩ := current_inv hi
  generalize s.current w c = p1 at *
  obtain ⟨s1, o1⟩ := p1
  simp only at h1 h2 h3 h4 h5 h6
  cases o1 with
  | some v => exact ⟨h1, h3, ⟨b1, h4, h5⟩, fun v' h => by cases h; exact h6 v rfl⟩
  | none =>
    obtain ⟨g1, g2, g3, ⟨b2, g4, g5⟩, g6⟩ := current_inv h1
    simp only
    generalize s1.current w c = p2 at *
    obtain ⟨s2, o2⟩ := p2
    simp only at g1 g2 g3 g4 g5 g6
    have hb2 : TokensOnly w c (b1 ++ b2) := fun r a h => (List.mem_append.1 h).elim (h5 r a) (g5 r a)
    cases o2 with
    | some v =>
      exact ⟨g1, g3.trans h3, ⟨b1 ++ b2, by rw [g4, h4, List.append_assoc], hb2⟩, fun v' h => by cases h; exact g6 v rfl⟩
    | none =>
      obtain ⟨a, k1, k2, k3, k4, k5⟩ := send_history (w := w) s2 (tokenRequest w c)
      simp only
      have kg : AllGood w c (s2.send w (tokenRequest w c)).1.history := k1 ▸ good_snoc g1.good (.inl isTokenRequest)
      have hb3 : TokensOnly w c (b1 ++ b2 ++ [.exchange (tokenRequest w c) a]) := fun r x h => by
        rcases List.mem_append.1 h with h | h
        · exact hb2 r x h
        · simp only [List.mem_singleton, Event.exchange.injEq] at h
          exact h.1 ▸ isTokenRequest
      generalize s2.send w (tokenRequest w c) = p3 at *
      obtain ⟨s3, o3⟩ := p3
      simp only at k1 k2 k3 k4 k5 kg
      cases o3 with
      | error e =>
        refine ⟨⟨?_, kg⟩, k3.trans (g3.trans h3), ⟨_, by rw [k1, g4, h4]; simp, hb3⟩, fun v h => by cases h⟩
        intro v t ht
        simp only at ht ⊢
        rw [k1]
        refine issued_append (g1.token v t (k2 ▸ ht)) _ ?_
        intro r st v' hm
        simp only [List.mem_singleton, Event.exchange.injEq] at hm
        exact absurd hm.2.symm (k5 e rfl st v')
      | ok body =>
        obtain ⟨st, rfl⟩ := k4 body rfl
        have hist : (s3.now w).1.history = s2.history ++ .exchange (tokenRequest w c) (.response st (some body)) ::
            .clock (s3.now w).2 :: [] := by
          simp [St.now, k1]
        have hiss : Issued w c (s3.now w).1.history body (s3.now w).2 := by
          rw [hist]
          exact ⟨s2.history, _, st, [], rfl, isTokenRequest, by simp⟩
        refine ⟨⟨?_, ?_⟩, k3.trans (g3.trans h3), ⟨b1 ++ b2 ++ [.exchange (tokenRequest w c) (.response st (some body)),
          .clock (s3.now w).2], ?_, ?_⟩, ?_⟩
        · intro v t ht
          cases ht
          exact hiss
        · refine allGood_append kg _ ?_
          intro a r x b h
          cases a with
          | nil => cases h
          | cons y a => cases a <;> cases h
        · simp only [hist, g4, h4, List.append_assoc]
        · intro r x h
          rcases List.mem_append.1 h with h | h
          · exact hb2 r x h
          · simp only [List.mem_cons, List.not_mem_nil, or_false, Event.exchange.injEq, reduceCtorEq] at h
            exact h.1 ▸ isTokenRequest
        · intro v h
          cases h
          refine ⟨(s3.now w).2, (s3.now w).2, hiss, lastClock_snoc _ _, ?_⟩
          omega

theorem getPath_inv (hc : 0 < c.ttl) {s : St} (hi : Inv w c s) (path : Text) : Inv w c (s.getPath w c path).1 ∧
    (s.getPath w c path).1.credentials = s.credentials ∧
    (∀ text, (s.getPath w c path).2 = .ok text → ∃ b r token status,
      (s.getPath w c path).1.history = s.history ++ b ++ [.exchange r (.response status (some text))] ∧
      TokensOnly w c b ∧ IsGet w c path token r) := by
  rw [St.getPath]
  obtain ⟨h1, h2, ⟨b, h3, h4⟩, h5⟩ := getToken_inv hc hi
  generalize s.getToken w c = p at *
  obtain ⟨s1, o⟩ := p
  simp only at h1 h2 h3 h4 h5
  cases o with
  | error e => exact ⟨h1, h2, fun t h => by cases h⟩
  | ok token =>
    simp only
    obtain ⟨a, k1, k2, k3, k4, k5⟩ := send_history (w := w) s1 (getRequest w c path token)
    obtain ⟨t, t', u1, u2, u3⟩ := h5 token rfl
    refine ⟨⟨?_, ?_⟩, k3.trans h2, ?_⟩
    · intro v t ht
      rw [k1]
      refine issued_append (h1.token v t (k2 ▸ ht)) _ ?_
      intro r st v' hm
      simp only [List.mem_singleton, Event.exchange.injEq] at hm
      exact hm.1 ▸ get_not_token (isGet path token)
    · rw [k1]
      exact good_snoc h1.good (.inr ⟨path, token, t, t', isGet path token, u1, u2, u3⟩)
    · intro text h
      obtain ⟨st, rfl⟩ := k4 text h
      exact ⟨b, _, token, st, by rw [k1, h3], h4, isGet path token⟩

/-- How `get_identity` comes by credentials when it asks for them: the role is that of the configuration, or the answer to the
request for it; the credentials are what the answer to the request for those of the role, the last one, says. -/
def Fetched (w : World) (c : Config) (before after : List Event) (x : Credentials) : Prop :=
  ∃ profile a b r token status text j,
    after = before ++ a ++ b ++ [.exchange r (.response status (some text))] ∧
    (c.profile = some profile ∧ a = [] ∨ c.profile = none ∧ ∃ a' r' token' status',
      a = a' ++ [.exchange r' (.response status' (some profile))] ∧ TokensOnly w c a' ∧
      IsGet w c "/latest/meta-data/iam/security-credentials".toList token' r') ∧
    TokensOnly w c b ∧ IsGet w c ("/latest/meta-data/iam/security-credentials/".toList ++ profile) token r ∧
    w.loads text = some j ∧ Says j x

theorem fetchFor_inv (hc : 0 < c.ttl) {s : St} (hi : Inv w c s) (profile : Text) : Inv w c (s.fetchFor w c profile).1 ∧
    (∀ x, (s.fetchFor w c profile).2 = .ok x → (s.fetchFor w c profile).1.credentials = some x ∧
      ∃ b r token status text j, (s.fetchFor w c profile).1.history =
          s.history ++ b ++ [.exchange r (.response status (some text))] ∧
        TokensOnly w c b ∧ IsGet w c ("/latest/meta-data/iam/security-credentials/".toList ++ profile) token r ∧
        w.loads text = some j ∧ Says j x) := by
  rw [St.fetchFor]
  obtain ⟨g1, g2, g3⟩ := getPath_inv hc hi (base ++ '/' :: profile)
  generalize s.getPath w c (base ++ '/' :: profile) = p at *
  obtain ⟨s2, o2⟩ := p
  simp only at g1 g2 g3
  cases o2 with
  | error e => exact ⟨g1, fun x h => by cases h⟩
  | ok text =>
    simp only
    cases hl : w.loads text with
    | none => exact ⟨g1, fun x h => by cases h⟩
    | some j =>
      simp only
      cases hj : ofInstance j with
      | error e => exact ⟨g1, fun x h => by cases h⟩
      | ok x =>
        refine ⟨⟨g1.token, g1.good⟩, ?_⟩
        intro x' h
        cases h
        obtain ⟨b, r, token, st, k1, k2, k3⟩ := g3 text rfl
        refine ⟨rfl, b, r, token, st, text, j, k1, k2, ?_, hl, ((C122_answer j _).1).1 hj⟩
        have : base ++ '/' :: profile = "/latest/meta-data/iam/security-credentials/".toList ++ profile := by
          have hb : "/latest/meta-data/iam/security-credentials/".toList = base ++ ['/'] := by decide +kernel
          rw [hb, List.append_assoc]
          rfl
        rw [← this]
        exact k3

theorem fetch_inv (hc : 0 < c.ttl) {s : St} (hi : Inv w c s) : Inv w c (s.fetch w c).1 ∧
    (∀ x, (s.fetch w c).2 = .ok x → (s.fetch w c).1.credentials = some x ∧
      Fetched w c s.history (s.fetch w c).1.history x) := by
  rw [St.fetch]
  cases hp : c.profile with
  | some p =>
    obtain ⟨h1, h2⟩ := fetchFor_inv hc hi p
    refine ⟨h1, fun x hx => ?_⟩
    obtain ⟨k1, b, r, token, st, text, j, k2, k3⟩ := h2 x hx
    exact ⟨k1, p, [], b, r, token, st, text, j, by rw [k2, List.append_nil], .inl ⟨hp, rfl⟩, k3⟩
  | none =>
    simp only
    obtain ⟨g1, g2, g3⟩ := getPath_inv hc hi base
    generalize s.getPath w c base = p at *
    obtain ⟨s1, o⟩ := p
    simp only at g1 g2 g3
    cases o with
    | error e => exact ⟨g1, fun x h => by cases h⟩
    | ok profile =>
      simp only
      obtain ⟨h1, h2⟩ := fetchFor_inv hc g1 profile
      refine ⟨h1, fun x hx => ?_⟩
      obtain ⟨k1, b, r, token, st, text, j, k2, k3⟩ := h2 x hx
      obtain ⟨b', r', token', st', l1, l2, l3⟩ := g3 profile rfl
      exact ⟨k1, profile, _, b, r, token, st, text, j, by rw [k2, l1, List.append_assoc s.history],
        .inr ⟨hp, b', r', token', st', rfl, l2, l3⟩, k3⟩

theorem getIdentity_inv (hc : 0 < c.ttl) {s : St} (hi : Inv w c s) : Inv w c (s.getIdentity w c).1 := by
  rw [St.getIdentity]
  split
  · exact (fetch_inv hc hi).1
  · split
    · exact (fetch_inv hc hi).1
    · have hi' : Inv w c { s with looked := s.looked + 1 } := ⟨hi.token, hi.good⟩
      simp only
      split
      · exact hi'
      · exact (fetch_inv hc hi').1

theorem run_inv (hc : 0 < c.ttl) (calls : List Call) : Inv w c (run w c calls) := by
  have key : ∀ (calls : List Call) (s : St), Inv w c s → Inv w c (calls.foldl (fun s x => s.step w c x) s) := by
    intro calls
    induction calls with
    | nil => exact fun s h => h
    | cons x calls ih =>
      intro s h
      refine ih _ ?_
      cases x with
      | identity => exact getIdentity_inv hc h
      | invalidate => exact ⟨h.token, h.good⟩
      | metadata path => exact (getPath_inv hc h path).1
  refine key calls init ⟨fun v t h => (by cases h), ?_⟩
  intro a r x b h
  cases a <;> cases h

theorem makeConfig_ttl {endpoint : Option Uri} {mode : Text} {ttl : Int} {profile : Option Text}
    (h : makeConfig endpoint mode ttl profile = some c) : 5 ≤ c.ttl ∧ c.ttl ≤ 21600 ∧ c.ttl = ttl := by
  rw [makeConfig] at h
  split at h
  · cases h
  · split at h
    · rename_i ht
      cases h
      exact ⟨ht.1, ht.2, rfl⟩
    · cases h

/-- C122: which configurations there are: tokens live between five seconds and six hours; the endpoint is the one that is given,
or else the address of the metadata service for the mode. -/
theorem C122_config (endpoint : Option Uri) (mode : Text) (ttl : Int) (profile : Option Text) (c : Config) :
    makeConfig endpoint mode ttl profile = some c ↔ 5 ≤ ttl ∧ ttl ≤ 21600 ∧ c.ttl = ttl ∧ c.profile = profile ∧
      c.endpoint = endpoint.getD
        { scheme := "http".toList, port := some 80,
          host := if mode = "IPv6".toList then "[fd00:ec2::254]".toList else "169.254.169.254".toList } := by
  have h6 : Verif.Uri.Host.accepted "[fd00:ec2::254]".toList = true := by decide +kernel
  have h4 : Verif.Uri.Host.accepted "169.254.169.254".toList = true := by decide +kernel
  have hr : resolveEndpoint endpoint mode = .ok (endpoint.getD
      { scheme := "http".toList, port := some 80,
        host := if mode = "IPv6".toList then "[fd00:ec2::254]".toList else "169.254.169.254".toList }) := by
    cases endpoint with
    | some u => rfl
    | none =>
      rw [resolveEndpoint, makeUri]
      by_cases hm : mode = "IPv6".toList
      · simp only [hm, if_true, h6, Option.getD_none]
      · simp only [hm, if_false, h4, if_true, Option.getD_none]
  rw [makeConfig, hr]
  constructor
  · intro h
    simp only at h
    split at h
    · rename_i ht
      cases h
      exact ⟨ht.1, ht.2, rfl, rfl, rfl⟩
    · cases h
  · rintro ⟨h1, h2, h3, h4, h5⟩
    simp only
    rw [if_pos ⟨h1, h2⟩, ← h5, ← h3, ← h4]

/-- C122: in every history of calls, whatever the service answers and however the clock goes: every request is one for a token
or one with the token that was given out last, less than its lifetime ago as far as the clock tells; and all go to the endpoint
that is configured. -/
theorem C122_requests {endpoint : Option Uri} {mode : Text} {ttl : Int} {profile : Option Text}
    (h : makeConfig endpoint mode ttl profile = some c) (calls : List Call) {before after : List Event} {r : Request}
    {a : Answer} (hh : (run w c calls).history = before ++ .exchange r a :: after) : Good w c before r :=
  (run_inv (by have := makeConfig_ttl h; omega) calls).good before r a after hh

/-- C122: in every history of calls, what `get_identity` returns: the credentials of an earlier call that have not expired, and
then nothing is asked; or those that the service's answer says. -/
theorem C122_identity {endpoint : Option Uri} {mode : Text} {ttl : Int} {profile : Option Text}
    (h : makeConfig endpoint mode ttl profile = some c) (calls : List Call) {x : Credentials}
    (hx : ((run w c calls).getIdentity w c).2 = .ok x) :
    ((run w c calls).getIdentity w c).1.credentials = some x ∧
    ((run w c calls).credentials = some x ∧ ((run w c calls).getIdentity w c).1.history = (run w c calls).history ∧
        (∃ e, x.expiration = some e ∧ w.utc (run w c calls).looked < Verif.Timestamps.wall e) ∨
      Fetched w c (run w c calls).history ((run w c calls).getIdentity w c).1.history x) := by
  have hc : 0 < c.ttl := by have := makeConfig_ttl h; omega
  have hi := run_inv (w := w) hc calls
  generalize run w c calls = s at *
  rw [St.getIdentity] at hx ⊢
  cases hs : s.credentials with
  | none =>
    simp only [hs] at hx ⊢
    obtain ⟨h1, h2⟩ := (fetch_inv hc hi).2 x hx
    exact ⟨h1, .inr h2⟩
  | some y =>
    simp only [hs] at hx ⊢
    cases he : y.expiration with
    | none =>
      simp only [he] at hx ⊢
      obtain ⟨h1, h2⟩ := (fetch_inv hc hi).2 x hx
      exact ⟨h1, .inr h2⟩
    | some e =>
      simp only [he] at hx ⊢
      by_cases hu : w.utc s.looked < Verif.Timestamps.wall e
      · simp only [hu, if_true, Except.ok.injEq] at hx ⊢
        subst hx
        exact ⟨rfl, .inl ⟨rfl, trivial, e, he, hu⟩⟩
      · simp only [hu, if_false] at hx ⊢
        have hi' : Inv w c { s with credentials := some y, looked := s.looked + 1 } := ⟨hi.token, hi.good⟩
        obtain ⟨h1, h2⟩ := (fetch_inv hc hi').2 x hx
        exact ⟨h1, .inr h2⟩

/-! ## Statuses -/

/-- What is left of an answer without its status. -/
def Answer.bare : Answer → Answer
  | .raised => .raised
  | .response _ body => .response 0 body

def Event.bare : Event → Event
  | .clock t => .clock t
  | .exchange r a => .exchange r a.bare

/-- Two worlds that differ in the statuses of the answers only. -/
structure SameButStatus (w w' : World) : Prop where
  clock : w.clock = w'.clock
  utc : w.utc = w'.utc
  loads : w.loads = w'.loads
  agent : w.agent = w'.agent
  answer : ∀ n, (w.answer n).bare = (w'.answer n).bare

/-- Two states that differ in the statuses of past answers only. -/
structure Alike (s s' : St) : Prop where
  token : s.token = s'.token
  credentials : s.credentials = s'.credentials
  looked : s.looked = s'.looked
  history : s.history.map Event.bare = s'.history.map Event.bare

theorem clocks_bare (h : List Event) : clocks (h.map Event.bare) = clocks h := by
  induction h with
  | nil => rfl
  | cons e h ih => cases e <;> simp [Event.bare, clocks, ih]

theorem requests_bare (h : List Event) : requests (h.map Event.bare) = requests h := by
  induction h with
  | nil => rfl
  | cons e h ih => cases e <;> simp [Event.bare, requests, ih]

variable {w' : World}

theorem now_alike (hw : SameButStatus w w') {s s' : St} (h : Alike s s') :
    Alike (s.now w).1 (s'.now w').1 ∧ (s.now w).2 = (s'.now w').2 := by
  have : clocks s.history = clocks s'.history := by rw [← clocks_bare, h.history, clocks_bare]
  have ht : w.clock (clocks s.history) = w'.clock (clocks s'.history) := by rw [this, hw.clock]
  exact ⟨⟨h.token, h.credentials, h.looked, by simp [St.now, h.history, ht]⟩, ht⟩

theorem send_alike (hw : SameButStatus w w') {s s' : St} (h : Alike s s') (r : Request) :
    Alike (s.send w r).1 (s'.send w' r).1 ∧ (s.send w r).2 = (s'.send w' r).2 := by
  have : requests s.history = requests s'.history := by rw [← requests_bare, h.history, requests_bare]
  have ha := hw.answer (requests s.history)
  simp only [St.send, ← this]
  generalize w.answer (requests s.history) = a at *
  generalize w'.answer (requests s.history) = a' at *
  have hh : (s.history ++ [Event.exchange r a]).map Event.bare = (s'.history ++ [Event.exchange r a']).map Event.bare := by
    simp [h.history, Event.bare, ha]
  cases a with
  | raised =>
    cases a' with
    | raised => exact ⟨⟨h.token, h.credentials, h.looked, hh⟩, rfl⟩
    | response _ _ => cases ha
  | response st body =>
    cases a' with
    | raised => cases ha
    | response st' body' =>
      obtain rfl : body = body' := by cases ha; rfl
      cases body with
      | none => exact ⟨⟨h.token, h.credentials, h.looked, hh⟩, rfl⟩
      | some body => exact ⟨⟨h.token, h.credentials, h.looked, hh⟩, rfl⟩

theorem current_alike (hw : SameButStatus w w') {s s' : St} (h : Alike s s') :
    Alike (s.current w c).1 (s'.current w' c).1 ∧ (s.current w c).2 = (s'.current w' c).2 := by
  rw [St.current, St.current, ← h.token]
  cases s.token with
  | none => exact ⟨h, rfl⟩
  | some p =>
    obtain ⟨h1, h2⟩ := now_alike hw h
    simp only [← h2]
    split
    · exact ⟨h1, rfl⟩
    · exact ⟨h1, rfl⟩

theorem getToken_alike (hw : SameButStatus w w') {s s' : St} (h : Alike s s') :
    Alike (s.getToken w c).1 (s'.getToken w' c).1 ∧ (s.getToken w c).2 = (s'.getToken w' c).2 := by
  rw [St.getToken, St.getToken]
  obtain ⟨h1, h2⟩ := current_alike (c := c) hw h
  generalize s.current w c = p at *
  generalize s'.current w' c = p' at *
  obtain ⟨s1, o⟩ := p
  obtain ⟨s1', o'⟩ := p'
  simp only at h1 h2
  subst h2
  cases o with
  | some v => exact ⟨h1, rfl⟩
  | none =>
    simp only
    obtain ⟨h3, h4⟩ := current_alike (c := c) hw h1
    generalize s1.current w c = p at *
    generalize s1'.current w' c = p' at *
    obtain ⟨s2, o⟩ := p
    obtain ⟨s2', o'⟩ := p'
    simp only at h3 h4
    subst h4
    cases o with
    | some v => exact ⟨h3, rfl⟩
    | none =>
      have he : tokenRequest w c = tokenRequest w' c := by rw [tokenRequest, tokenRequest, hw.agent]
      simp only [← he]
      obtain ⟨h5, h6⟩ := send_alike hw h3 (tokenRequest w c)
      generalize s2.send w (tokenRequest w c) = p at *
      generalize s2'.send w' (tokenRequest w c) = p' at *
      obtain ⟨s3, o⟩ := p
      obtain ⟨s3', o'⟩ := p'
      simp only at h5 h6
      subst h6
      cases o with
      | error e => exact ⟨h5, rfl⟩
      | ok body =>
        obtain ⟨h7, h8⟩ := now_alike hw h5
        exact ⟨⟨by simp only [h8], h7.credentials, h7.looked, h7.history⟩, rfl⟩

theorem getPath_alike (hw : SameButStatus w w') {s s' : St} (h : Alike s s') (path : Text) :
    Alike (s.getPath w c path).1 (s'.getPath w' c path).1 ∧ (s.getPath w c path).2 = (s'.getPath w' c path).2 := by
  rw [St.getPath, St.getPath]
  obtain ⟨h1, h2⟩ := getToken_alike (c := c) hw h
  generalize s.getToken w c = p at *
  generalize s'.getToken w' c = p' at *
  obtain ⟨s1, o⟩ := p
  obtain ⟨s1', o'⟩ := p'
  simp only at h1 h2
  subst h2
  cases o with
  | error e => exact ⟨h1, rfl⟩
  | ok token =>
    have he : getRequest w' c path token = getRequest w c path token := by rw [getRequest, getRequest, hw.agent]
    simp only [he]
    exact send_alike hw h1 _

theorem fetchFor_alike (hw : SameButStatus w w') {s s' : St} (h : Alike s s') (profile : Text) :
    Alike (s.fetchFor w c profile).1 (s'.fetchFor w' c profile).1 ∧
    (s.fetchFor w c profile).2 = (s'.fetchFor w' c profile).2 := by
  rw [St.fetchFor, St.fetchFor]
  obtain ⟨h1, h2⟩ := getPath_alike (c := c) hw h (base ++ '/' :: profile)
  generalize s.getPath w c _ = p at *
  generalize s'.getPath w' c _ = p' at *
  obtain ⟨s1, o⟩ := p
  obtain ⟨s1', o'⟩ := p'
  simp only at h1 h2
  subst h2
  cases o with
  | error e => exact ⟨h1, rfl⟩
  | ok text =>
    simp only [← hw.loads]
    split
    · exact ⟨h1, rfl⟩
    · split
      · exact ⟨h1, rfl⟩
      · exact ⟨⟨h1.token, rfl, h1.looked, h1.history⟩, rfl⟩

theorem fetch_alike (hw : SameButStatus w w') {s s' : St} (h : Alike s s') :
    Alike (s.fetch w c).1 (s'.fetch w' c).1 ∧ (s.fetch w c).2 = (s'.fetch w' c).2 := by
  rw [St.fetch, St.fetch]
  cases c.profile with
  | some p => exact fetchFor_alike hw h p
  | none =>
    simp only
    obtain ⟨h1, h2⟩ := getPath_alike (c := c) hw h base
    generalize s.getPath w c base = p at *
    generalize s'.getPath w' c base = p' at *
    obtain ⟨s1, o⟩ := p
    obtain ⟨s1', o'⟩ := p'
    simp only at h1 h2
    subst h2
    cases o with
    | error e => exact ⟨h1, rfl⟩
    | ok profile => exact fetchFor_alike hw h1 profile

theorem getIdentity_alike (hw : SameButStatus w w') {s s' : St} (h : Alike s s') :
    Alike (s.getIdentity w c).1 (s'.getIdentity w' c).1 ∧ (s.getIdentity w c).2 = (s'.getIdentity w' c).2 := by
  have hl : Alike { s with looked := s.looked + 1 } { s' with credentials := s.credentials, looked := s'.looked + 1 } :=
    ⟨h.token, rfl, by simp only [h.looked], h.history⟩
  rw [St.getIdentity, St.getIdentity, ← h.credentials]
  split
  · exact fetch_alike hw h
  · rename_i x hx
    split
    · exact fetch_alike hw h
    · simp only [← hw.utc, ← h.looked]
      split
      · exact ⟨by rw [h.looked] at hl ⊢; exact hl, rfl⟩
      · have := fetch_alike (c := c) hw hl
        rw [h.looked] at this ⊢
        exact this

/-- C122 is false of the code for answers that are errors: statuses make no difference to what is returned, so that the text of
an error is taken for a token, for the name of a role or for credentials. -/
theorem C122_status_fails (hw : SameButStatus w w') (c : Config) (calls : List Call) :
    ((run w c calls).getIdentity w c).2 = ((run w' c calls).getIdentity w' c).2 ∧
    (∀ path, ((run w c calls).getPath w c path).2 = ((run w' c calls).getPath w' c path).2) ∧
    (run w c calls).token = (run w' c calls).token := by
  have key : ∀ (calls : List Call) (s s' : St), Alike s s' →
      Alike (calls.foldl (fun s x => s.step w c x) s) (calls.foldl (fun s x => s.step w' c x) s') := by
    intro calls
    induction calls with
    | nil => exact fun s s' h => h
    | cons x calls ih =>
      intro s s' h
      refine ih _ _ ?_
      cases x with
      | identity => exact (getIdentity_alike hw h).1
      | invalidate => exact ⟨h.token, rfl, h.looked, h.history⟩
      | metadata path => exact (getPath_alike hw h path).1
  have h := key calls init init ⟨rfl, rfl, rfl, rfl⟩
  exact ⟨(getIdentity_alike hw h).2, fun path => (getPath_alike hw h path).2, h.token⟩

/-! ## The hypotheses are met -/

section Examples

def answerText : Text := "{}".toList

/-- What `json.loads` makes of an answer of the service. -/
def answerJson : Plain :=
  .obj [("Code".toList, .str "Success".toList), ("AccessKeyId".toList, .str "AKID".toList),
    ("SecretAccessKey".toList, .str "secret".toList), ("Token".toList, .str "session".toList),
    ("Expiration".toList, .str "2026-11-17T12:00:00Z".toList)]

/-- A service that answers three requests: the token, the role and the credentials.  The clock goes a second at a time. -/
def service (status : Nat) : World :=
  ⟨fun n => n * 1000000, fun _ => 0,
    fun n => match n with
      | 0 => .response status (some "tok".toList)
      | 1 => .response status (some "role".toList)
      | 2 => .response status (some answerText)
      | _ => .raised,
    fun t => if t = answerText then some answerJson else none, "aws-sdk".toList⟩

def cfg : Config := ⟨{ scheme := "http".toList, host := "169.254.169.254".toList, port := some 80 }, 21600, none⟩

example : makeConfig none "IPv4".toList 21600 none = some cfg :=
  (C122_config _ _ _ _ _).2 ⟨by decide, by decide, rfl, rfl, by
    rw [Option.getD_none, if_neg (by decide +kernel)]; rfl⟩

theorem answer_says : Says answerJson ⟨.str "AKID".toList, .str "secret".toList, .str "session".toList,
    some ⟨⟨2026, 11, 17⟩, 12, 0, 0, 0, some 0⟩, .null⟩ := by
  refine ⟨⟨_, rfl, rfl, rfl, rfl, rfl, ?_⟩, (by intro h; cases h), (by intro h; cases h)⟩
  exact Expires.text (dt := ⟨⟨2026, 11, 17⟩, 12, 0, 0, 0, some 0⟩) (by decide +kernel)

/-- Credentials are fetched, with the token in the second and third request, and served from the cache after that. -/
theorem service_run : (((run (service 200) cfg [.identity, .identity]).getIdentity (service 200) cfg).1.history.map
    (fun e => match e with | .clock _ => [] | .exchange r _ => r.method)) =
      ["PUT".toList, [], "GET".toList, [], "GET".toList] := by
  with_unfolding_all rfl

/-- It is the same if all answers are errors: the text of the error is the token. -/
theorem status_run : (run (service 404) cfg [.metadata "/x".toList]).token = some ("tok".toList, 0) ∧
    SameButStatus (service 200) (service 404) := by
  refine ⟨by with_unfolding_all rfl, rfl, rfl, rfl, rfl, ?_⟩
  intro n
  match n with
  | 0 | 1 | 2 | _ + 3 => rfl

/-- Noon two hours east of Greenwich is ten in UTC; credentials are used until noon in UTC. -/
theorem east : expirationOf "2026-11-17T12:00:00+02:00".toList = .ok ⟨⟨2026, 11, 17⟩, 12, 0, 0, 0, some 0⟩ ∧
    expirationOf "2026-11-17T12:00:00Z".toList = .ok ⟨⟨2026, 11, 17⟩, 12, 0, 0, 0, some 0⟩ := by
  refine ⟨?_, ?_⟩ <;> decide +kernel

end Examples

end Verif.Identity.Instance
