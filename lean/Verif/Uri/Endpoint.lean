import Verif.Uri.Build
import Verif.Numerals
import Verif.Transport.Crt

/-!
# Where a client sends its requests: configured endpoints (C91)

Models `resolve_static_uri` (smithy_core/endpoints.py:57-91), `StaticEndpointResolver`
(smithy_core/aio/endpoints.py:11-21) and `StandardRegionalEndpointsResolver`
(smithy_aws_core/endpoints/standard_regional.py:13-33), with `urlparse` of Python's `urllib.parse`
(3.11: urllib/parse.py:374-507 and the properties of its results, 164-217).
-/

set_option autoImplicit false

namespace Verif.Uri.Endpoint

open Verif.Text Verif.Uri.Host Verif.Regex
open Verif.Http.Destination (Uri setEndpoint)
open Verif.Numerals (natText natValue)

abbrev Text := List Char

/-! ## Model -/

/-- What is taken from Python: `str.lower`, whether `_check_bracketed_host` (urllib/parse.py:441-448)
lets what is in brackets pass, and whether `_checknetloc` (421-438) lets a text that is not ASCII
pass. -/
structure Env where
  lower : Text → Text
  bracketed : Text → Bool
  normal : Text → Bool

/-- The errors raised: Python's `ValueError`, `EndpointResolutionError`, and `SmithyError` for a host
that is not valid. -/
inductive Err where
  | value
  | resolution
  | host
  deriving DecidableEq, Repr

/-- `SplitResult` of `urllib.parse`. -/
structure Split where
  scheme : Text
  netloc : Text
  path : Text
  query : Text
  fragment : Text
  deriving DecidableEq, Repr

def letter (c : Char) : Bool := between 'a' 'z' c || between 'A' 'Z' c

/-- `scheme_chars` (urllib/parse.py:82-85). -/
def schemeChar (c : Char) : Bool := letter c || isDigit c || "+-.".toList.contains c

/-- The characters removed everywhere: `_UNSAFE_URL_BYTES_TO_REMOVE` (urllib/parse.py:92). -/
def removed (c : Char) : Bool := c = '\t' || c = '\r' || c = '\n'

/-- `str.isascii`. -/
def ascii (t : Text) : Bool := t.all fun c => decide (c.toNat < 128)

/-- The scheme and what follows it (urllib/parse.py:486-492). -/
def schemeOf (e : Env) (url : Text) : Text × Text :=
  let s := cut ':' url
  match s.1, s.2 with
  | c :: r, some rest =>
    if letter c && (c :: r).all schemeChar then (e.lower (c :: r), rest) else ([], url)
  | _, _ => ([], url)

/-- `_splitnetloc(url, 2)` if the text starts with two slashes (urllib/parse.py:413-419, 493-494). -/
def netlocOf : Text → Text × Text
  | '/' :: '/' :: r =>
    (r.takeWhile fun c => c ≠ '/' && c ≠ '?' && c ≠ '#', r.dropWhile fun c => c ≠ '/' && c ≠ '?' && c ≠ '#')
  | url => ([], url)

/-- The text between the first opening bracket and the next closing one, if there is an opening one. -/
def inBrackets (t : Text) : Option Text := (cut '[' t).2.map fun r => (cut ']' r).1

/-- The checks of the authority (urllib/parse.py:495-500, 505). -/
def netlocOk (e : Env) (n : Text) : Bool :=
  if n.contains '[' != n.contains ']' then false
  else
    (match inBrackets n with
      | some b => e.bracketed b
      | none => true) && (ascii n || e.normal n)

/-- `urlsplit` (urllib/parse.py:453-507). -/
def urlsplit (e : Env) (t : Text) : Except Err Split :=
  let url := (t.dropWhile fun c => decide (c.toNat ≤ 32)).filter fun c => !removed c
  let s := schemeOf e url
  let n := netlocOf s.2
  let f := cut '#' n.2
  let q := cut '?' f.1
  if netlocOk e n.1 then .ok ⟨s.1, n.1, q.1, q.2.getD [], f.2.getD []⟩ else .error .value

/-- `uses_params` (urllib/parse.py:64-66). -/
def usesParams : List Text :=
  ["", "ftp", "hdl", "prospero", "http", "imap", "https", "shttp", "rtsp", "rtsps", "rtspu", "sip",
    "sips", "mms", "sftp", "tel"].map String.toList

/-- The text after the last `sep`, or all of it: `t.rpartition(sep)[2]`. -/
def afterLast (sep : Char) (t : Text) : Text := (t.reverse.takeWhile fun c => c ≠ sep).reverse

/-- The path without the parameters of its last segment (`_splitparams`, urllib/parse.py:404-411). -/
def withoutParams (path : Text) : Text :=
  let last := afterLast '/' path
  path.take (path.length - last.length) ++ (cut ';' last).1

/-- `urlparse` (urllib/parse.py:374-402), without the parameters it has split off. -/
def urlparse (e : Env) (t : Text) : Except Err Split :=
  match urlsplit e t with
  | .error x => .error x
  | .ok s => .ok { s with path := if usesParams.contains s.scheme then withoutParams s.path else s.path }

/-- Host and port, the latter empty if there is none (urllib/parse.py:209-214). -/
def hostAndPort (h : Text) : Text × Text :=
  match (cut '[' h).2 with
  | some b => ((cut ']' b).1, (cut ':' ((cut ']' b).2.getD [])).2.getD [])
  | none => ((cut ':' h).1, (cut ':' h).2.getD [])

/-- `_hostinfo` (urllib/parse.py:205-217). -/
def hostinfo (netloc : Text) : Text × Option Text :=
  let r := hostAndPort (afterLast '@' netloc)
  (r.1, if r.2 = [] then none else some r.2)

/-- `hostname` (urllib/parse.py:164-173). -/
def hostname (e : Env) (netloc : Text) : Option Text :=
  let h := (hostinfo netloc).1
  if h = [] then none
  else
    let p := cut '%' h
    some (e.lower p.1 ++ (match p.2 with | none => [] | some z => '%' :: z))

/-- `port` (urllib/parse.py:175-185). -/
def portOf (netloc : Text) : Except Err (Option Nat) :=
  match (hostinfo netloc).2 with
  | none => .ok none
  | some p => if p.all isDigit && decide (natValue p ≤ 65535) then .ok (some (natValue p)) else .error .value

/-- `URI(...)`: the host is checked (smithy_core/__init__.py:58-63). -/
def mkUri (u : Uri) : Except Err Uri := if accepted u.host then .ok u else .error .host

/-- `resolve_static_uri` for a text (smithy_core/endpoints.py:79-91). -/
def parseEndpoint (e : Env) (t : Text) : Except Err Uri :=
  match urlparse e t with
  | .error x => .error x
  | .ok s =>
    match hostname e s.netloc with
    | none => .error .resolution
    | some h =>
      match portOf s.netloc with
      | .error x => .error x
      | .ok p => mkUri { host := h, path := some s.path, scheme := s.scheme, query := some s.query, port := p }

/-- What `endpoint_uri` of a client's configuration is set to (`StaticEndpointConfig`, endpoints.py:46-50). -/
inductive Configured where
  | text (t : Text)
  | uri (u : Uri)

/-- The configuration of a client: `endpoint_uri` and `region`. -/
structure Config where
  endpoint : Option Configured
  region : Option Text

/-- `resolve_static_uri` (smithy_core/endpoints.py:57-91). -/
def resolveStatic (e : Env) (config : Option Config) : Except Err (Option Uri) :=
  match config.bind (·.endpoint) with
  | none => .ok none
  | some (.uri u) => .ok (some u)
  | some (.text t) =>
    match parseEndpoint e t with
    | .error x => .error x
    | .ok u => .ok (some u)

/-- `StaticEndpointResolver.resolve_endpoint` (smithy_core/aio/endpoints.py:14-21). -/
def staticResolver (e : Env) (config : Option Config) : Except Err Uri :=
  match resolveStatic e config with
  | .error x => .error x
  | .ok none => .error .resolution
  | .ok (some u) => .ok u

/-- `StandardRegionalEndpointsResolver.resolve_endpoint` (standard_regional.py:19-33). -/
def regionalResolver (e : Env) (pre : Text) (config : Option Config) : Except Err Uri :=
  match resolveStatic e config with
  | .error x => .error x
  | .ok (some u) => .ok u
  | .ok none =>
    match config.bind (·.region) with
    | some r => mkUri { host := pre ++ '.' :: r ++ '.' :: "amazonaws.com".toList }
    | none => .error .resolution

/-! ## Specification -/

/-- An endpoint as a user writes it. -/
structure Written where
  scheme : Text
  userinfo : Option Text
  host : Text
  port : Option Nat
  path : Text
  query : Option Text
  fragment : Option Text

def opt (pre : Text) : Option Text → Text
  | none => []
  | some t => pre ++ t

/-- `scheme://userinfo@host:port/path?query#fragment`, with an address of version 6 in brackets. -/
def Written.text (w : Written) (host : Text) : Text :=
  w.scheme ++ "://".toList ++ (match w.userinfo with | none => [] | some i => i ++ ['@']) ++ host ++
    opt [':'] (w.port.map natText) ++ w.path ++ opt ['?'] w.query ++ opt ['#'] w.fragment

/-- No tab or line break is in the text. -/
def Line (t : Text) : Prop := ∀ c ∈ t, c ≠ '\t' ∧ c ≠ '\r' ∧ c ≠ '\n'

/-- What RFC 3986 allows, but that user information may hold anything that does not end it, and other
components anything but line breaks and tabs. -/
structure Written.Ok (w : Written) : Prop where
  scheme : (∃ c r, w.scheme = c :: r ∧ letter c = true) ∧
    ∀ c ∈ w.scheme, letter c = true ∨ isDigit c = true ∨ c = '+' ∨ c = '-' ∨ c = '.'
  userinfo : ∀ i, w.userinfo = some i → Line i ∧
    ∀ c ∈ i, c.toNat < 128 ∧ c ≠ '/' ∧ c ≠ '?' ∧ c ≠ '#' ∧ c ≠ '[' ∧ c ≠ ']'
  host : w.host ≠ []
  port : ∀ p, w.port = some p → p ≤ 65535
  path : (w.path = [] ∨ ∃ r, w.path = '/' :: r) ∧ Line w.path ∧ ∀ c ∈ w.path, c ≠ '?' ∧ c ≠ '#'
  query : ∀ q, w.query = some q → Line q ∧ '#' ∉ q
  fragment : ∀ f, w.fragment = some f → Line f

/-- A name or an address as it is written in a URI. -/
def HostText (e : Env) (host written : Text) : Prop :=
  (RegName host ∧ written = host) ∨
    (IPv6Zone host ∧ e.bracketed host = true ∧ written = '[' :: host ++ [']'])

/-- The name of a host in small letters, but for what follows a percent sign. -/
def small (host : Text) : Text :=
  (host.takeWhile fun c => c ≠ '%').map Char.toLower ++ host.dropWhile fun c => c ≠ '%'

/-- `str.lower` for texts of ASCII characters. -/
def Lowers (e : Env) : Prop := ∀ t, (∀ c ∈ t, c.toNat < 128) → e.lower t = t.map Char.toLower

/-! ## Lemmas -/

theorem letter_class (c : Char) (h : letter c = true) : 65 ≤ c.toNat ∧ c.toNat ≤ 122 := by
  simp only [letter, between, Bool.or_eq_true, Bool.and_eq_true, decide_eq_true_eq] at h
  have h1 : 'a'.toNat = 97 := rfl
  have h2 : 'z'.toNat = 122 := rfl
  have h3 : 'A'.toNat = 65 := rfl
  have h4 : 'Z'.toNat = 90 := rfl
  omega

theorem filter_line (t : Text) (h : Line t) : (t.filter fun c => !removed c) = t := by
  rw [List.filter_eq_self]
  intro c hc
  have := h c hc
  simp [removed, this]

theorem line_append (a b : Text) (ha : Line a) (hb : Line b) : Line (a ++ b) := by
  intro c hc
  rcases List.mem_append.1 hc with hc | hc
  · exact ha c hc
  · exact hb c hc

theorem line_of (t : Text) (p : Char → Bool) (h : ∀ c ∈ t, p c = true) (h1 : p '\t' = false)
    (h2 : p '\r' = false) (h3 : p '\n' = false) : Line t := by
  intro c hc
  have := h c hc
  refine ⟨?_, ?_, ?_⟩ <;> · rintro rfl; simp_all

theorem line_opt (pre : Text) (hp : Line pre) (t : Option Text) (h : ∀ x, t = some x → Line x) :
    Line (opt pre t) := by
  cases t with
  | none => intro c hc; cases hc
  | some x => exact line_append _ _ hp (h x rfl)

theorem takeWhile_stop (p : Char → Bool) (a b : Text) (ha : ∀ c ∈ a, p c = true)
    (hb : b = [] ∨ ∃ c r, b = c :: r ∧ p c = false) :
    (a ++ b).takeWhile p = a ∧ (a ++ b).dropWhile p = b := by
  induction a with
  | nil =>
    rcases hb with rfl | ⟨c, r, rfl, hc⟩
    · exact ⟨rfl, rfl⟩
    · simp [hc]
  | cons x a ih =>
    obtain ⟨h1, h2⟩ := ih fun c hc => ha c (by simp [hc])
    have hx := ha x (by simp)
    simp [hx, h1, h2]

theorem afterLast_not_mem (sep : Char) (t : Text) (h : sep ∉ t) : afterLast sep t = t := by
  have := (takeWhile_stop (fun c => decide (c ≠ sep)) t.reverse [] (by
    intro c hc
    simp only [decide_eq_true_eq]
    rintro rfl
    exact h (List.mem_reverse.1 hc)) (.inl rfl)).1
  rw [List.append_nil] at this
  unfold afterLast
  rw [this, List.reverse_reverse]

theorem afterLast_append (sep : Char) (a b : Text) (h : sep ∉ b) : afterLast sep (a ++ sep :: b) = b := by
  have := (takeWhile_stop (fun c => decide (c ≠ sep)) b.reverse (sep :: a.reverse) (by
    intro c hc
    simp only [decide_eq_true_eq]
    rintro rfl
    exact h (List.mem_reverse.1 hc)) (.inr ⟨sep, a.reverse, rfl, by simp⟩)).1
  unfold afterLast
  have e : (a ++ sep :: b).reverse = b.reverse ++ sep :: a.reverse := by simp
  rw [e, this, List.reverse_reverse]

theorem cut_fst_snd (sep : Char) (t : Text) :
    t = (cut sep t).1 ++ (match (cut sep t).2 with | none => [] | some r => sep :: r) := by
  induction t with
  | nil => rfl
  | cons c t ih =>
    by_cases h : c = sep
    · simp [cut, h]
    · simp only [cut, if_neg h, List.cons_append]
      rw [← ih]

theorem cut_takeWhile (sep : Char) (t : Text) :
    (cut sep t).1 = (t.takeWhile fun c => c ≠ sep) ∧
      (match (cut sep t).2 with | none => [] | some r => sep :: r) = t.dropWhile fun c => c ≠ sep := by
  induction t with
  | nil => exact ⟨rfl, rfl⟩
  | cons c t ih =>
    by_cases h : c = sep
    · simp [cut, h]
    · simp only [cut, if_neg h]
      rw [List.takeWhile_cons_of_pos (by simpa using h), List.dropWhile_cons_of_pos (by simpa using h), ih.1,
        ih.2]
      exact ⟨rfl, rfl⟩

theorem mem_takeWhile_pos (p : Char → Bool) (t : Text) (c : Char) (h : c ∈ t.takeWhile p) : p c = true := by
  induction t with
  | nil => cases h
  | cons x t ih =>
    by_cases hx : p x = true
    · rw [List.takeWhile_cons_of_pos hx] at h
      rcases List.mem_cons.1 h with rfl | h
      · exact hx
      · exact ih h
    · rw [List.takeWhile_cons_of_neg hx] at h; cases h

theorem afterLast_split (sep : Char) (t : Text) :
    ∃ pre, t = pre ++ afterLast sep t ∧ sep ∉ afterLast sep t := by
  refine ⟨(t.reverse.dropWhile fun c => c ≠ sep).reverse, ?_, ?_⟩
  · have := List.takeWhile_append_dropWhile (p := fun c => decide (c ≠ sep)) (l := t.reverse)
    have h2 := congrArg List.reverse this
    rw [List.reverse_append, List.reverse_reverse] at h2
    exact h2.symm
  · intro h
    have := mem_takeWhile_pos _ _ _ (List.mem_reverse.1 h)
    simp at this

theorem withoutParams_eq (path : Text) (h : ∀ a b, path = a ++ ';' :: b → '/' ∈ b) :
    withoutParams path = path := by
  obtain ⟨pre, hpre, hsl⟩ := afterLast_split '/' path
  have hno : ';' ∉ afterLast '/' path := by
    intro hm
    obtain ⟨a, b, hab⟩ := List.append_of_mem hm
    have := h (pre ++ a) b (by rw [List.append_assoc, ← hab]; exact hpre)
    exact hsl (by rw [hab]; simp [this])
  unfold withoutParams
  simp only [cut_of_not_mem _ _ hno]
  generalize afterLast '/' path = l at hpre
  subst hpre
  simp

/-! ### Hosts -/

theorem class_ascii (c : Char) (h : isHex c = true ∨ isUnreserved c = true ∨ isSubDelimiter c = true) :
    32 < c.toNat ∧ c.toNat < 128 := by
  have key : ∀ a b : Char, 32 < a.toNat → b.toNat < 128 → between a b c = true →
      32 < c.toNat ∧ c.toNat < 128 := by
    intro a b ha hb h
    simp only [between, Bool.and_eq_true, decide_eq_true_eq] at h
    omega
  have lits : ∀ t : Text, (∀ d ∈ t, 32 < d.toNat ∧ d.toNat < 128) → c ∈ t → 32 < c.toNat ∧ c.toNat < 128 :=
    fun t h hc => h c hc
  rcases h with h | h | h
  · simp only [isHex, isDigit, Bool.or_eq_true] at h
    rcases h with (h | h) | h <;> exact key _ _ (by decide) (by decide) h
  · simp only [isUnreserved, isDigit, Bool.or_eq_true, decide_eq_true_eq] at h
    rcases h with (((((h | h) | h) | h) | h) | h) | h
    · exact key _ _ (by decide) (by decide) h
    · exact key _ _ (by decide) (by decide) h
    · exact key _ _ (by decide) (by decide) h
    all_goals subst h; decide
  · simp only [isSubDelimiter, List.contains_iff_mem] at h
    exact lits _ (by decide) h

theorem ascii_all (P : Char → Prop) (h : ∀ n : Fin 128, P (Char.ofNat n)) (c : Char) (hc : c.toNat < 128) :
    P c := by
  have := h ⟨c.toNat, hc⟩
  simpa using this

theorem lower_class (c : Char) :
    (isHex c = true → isHex c.toLower = true) ∧ (isDigit c = true → c.toLower = c) ∧
      ((isSubDelimiter c || isUnreserved c) = true →
        (isSubDelimiter c.toLower || isUnreserved c.toLower) = true) := by
  by_cases hc : c.toNat < 128
  · refine ascii_all (fun c =>
      (isHex c = true → isHex c.toLower = true) ∧ (isDigit c = true → c.toLower = c) ∧
      ((isSubDelimiter c || isUnreserved c) = true →
        (isSubDelimiter c.toLower || isUnreserved c.toLower) = true)) ?_ c hc
    decide +kernel
  · refine ⟨fun h => absurd (class_ascii c (.inl h)).2 hc, fun h => ?_, fun h => ?_⟩
    · exact absurd (class_ascii c (.inl (by simp [isHex, h]))).2 hc
    · rw [Bool.or_eq_true] at h
      exact absurd (class_ascii c (.inr h.symm)).2 hc

theorem small_cons (c : Char) (t : Text) (h : c ≠ '%') : small (c :: t) = c.toLower :: small t := by
  unfold small
  rw [List.takeWhile_cons_of_pos (by simpa using h), List.dropWhile_cons_of_pos (by simpa using h)]
  rfl

theorem small_percent (t : Text) : small ('%' :: t) = '%' :: t := by
  unfold small
  rw [List.takeWhile_cons_of_neg (by simp), List.dropWhile_cons_of_neg (by simp)]
  rfl

theorem small_append (a z : Text) (h : '%' ∉ a) (hz : z = [] ∨ ∃ r, z = '%' :: r) :
    small (a ++ z) = a.map Char.toLower ++ z := by
  induction a with
  | nil =>
    rcases hz with rfl | ⟨r, rfl⟩
    · rfl
    · exact small_percent r
  | cons c a ih =>
    simp only [List.mem_cons, not_or] at h
    rw [List.cons_append, small_cons _ _ (Ne.symm h.1), ih h.2]
    rfl

theorem regName_small (t : Text) (h : RegName t) : RegName (small t) := by
  obtain ⟨us, rfl, hu⟩ := h
  induction us with
  | nil => exact ⟨[], rfl, by simp⟩
  | cons u us ih =>
    rcases hu u (by simp) with ⟨a, b, rfl, ha, hb⟩ | ⟨x, rfl, hx⟩
    · have : (['%', a, b] :: us).flatten = '%' :: ([a, b] ++ us.flatten) := by simp
      rw [this, small_percent, ← this]
      exact ⟨_, rfl, hu⟩
    · have hp : x ≠ '%' := by rintro rfl; revert hx; decide
      have : ([x] :: us).flatten = x :: us.flatten := by simp
      rw [this, small_cons _ _ hp]
      obtain ⟨vs, hv, hv2⟩ := ih fun u hu' => hu u (by simp [hu'])
      refine ⟨[x.toLower] :: vs, by simp [hv], ?_⟩
      intro v hv'
      rcases List.mem_cons.1 hv' with rfl | hv'
      · exact .inr ⟨_, rfl, (lower_class x).2.2 hx⟩
      · exact hv2 v hv'

theorem map_join (f : Char → Char) (sep : Char) (hs : f sep = sep) (ps : List Text) :
    (join sep ps).map f = join sep (ps.map fun p => p.map f) := by
  induction ps with
  | nil => rfl
  | cons p ps ih =>
    cases ps with
    | nil => rfl
    | cons q ps =>
      rw [join_cons _ _ _ (List.cons_ne_nil q ps), List.map_append, List.map_cons, ih, hs]
      exact (join_cons _ _ _ (by simp)).symm

theorem group_lower (g : Text) (h : Group g) : Group (g.map Char.toLower) := by
  refine ⟨by simpa using h.1, by simpa using h.2.1, ?_⟩
  intro c hc
  obtain ⟨d, hd, rfl⟩ := List.mem_map.1 hc
  exact (lower_class d).1 (h.2.2 d hd)

theorem digits_lower (t : Text) (h : ∀ c ∈ t, isDigit c = true) : t.map Char.toLower = t := by
  induction t with
  | nil => rfl
  | cons c t ih =>
    rw [List.map_cons, (lower_class c).2.1 (h c (by simp)), ih fun d hd => h d (by simp [hd])]

theorem dotted_lower (t : Text) (h : Dotted t) : t.map Char.toLower = t := by
  obtain ⟨ps, _, rfl, hp⟩ := h
  rw [map_join _ _ (by decide)]
  congr 1
  conv_rhs => rw [← List.map_id ps]
  exact List.map_congr_left fun p hp' => digits_lower p (hp p hp').2.2

theorem part_lower (p : Part) (h : p.Ok) :
    ∃ q : Part, q.Ok ∧ q.size = p.size ∧ p.text.map Char.toLower = q.text := by
  refine ⟨⟨p.groups.map fun g => g.map Char.toLower, p.dotted⟩, ⟨?_, h.2⟩, by simp [Part.size], ?_⟩
  · intro g hg
    obtain ⟨g', hg', rfl⟩ := List.mem_map.1 hg
    exact group_lower g' (h.1 g' hg')
  · unfold Part.text
    rw [map_join _ _ (by decide), List.map_append]
    congr 2
    cases hd : p.dotted with
    | none => rfl
    | some d => simp [dotted_lower d (h.2 d hd)]

theorem ipv6_lower (t : Text) (h : IPv6 t) : IPv6 (t.map Char.toLower) := by
  rcases h with ⟨p, hp, hs, rfl⟩ | ⟨l, p, hl, hp, hs, rfl⟩
  · obtain ⟨q, hq, hqs, he⟩ := part_lower p hp
    exact .inl ⟨q, hq, by rw [hqs]; exact hs, he⟩
  · obtain ⟨q, hq, hqs, he⟩ := part_lower p hp
    refine .inr ⟨l.map fun g => g.map Char.toLower, q, ?_, hq, ?_, ?_⟩
    · intro g hg
      obtain ⟨g', hg', rfl⟩ := List.mem_map.1 hg
      exact group_lower g' (hl g' hg')
    · rw [List.length_map, hqs]; exact hs
    · rw [List.map_append, List.map_append, map_join _ _ (by decide), he]
      rfl

theorem ipv6_no_percent (t : Text) (h : IPv6 t) : '%' ∉ t := by
  rcases h with ⟨p, hp, _, rfl⟩ | ⟨l, p, hl, hp, _, rfl⟩
  · exact Build.part_not_mem '%' (by decide) (by decide) (by decide) (by decide) p hp
  · intro hm
    simp only [List.mem_append] at hm
    rcases hm with (hm | hm) | hm
    · rcases mem_join _ _ _ hm with h | ⟨g, hg, hcg⟩
      · revert h; decide
      · exact Build.group_not_mem '%' (by decide) g (hl g hg) hcg
    · revert hm; decide
    · exact Build.part_not_mem '%' (by decide) (by decide) (by decide) (by decide) p hp hm

/-- An address starts with hexadecimal digits, if any, and a colon. -/
theorem ipv6_first (t : Text) (h : IPv6 t) : ∃ g r, t = g ++ ':' :: r ∧ ∀ c ∈ g, Hex c := by
  rcases h with ⟨p, hp, hs, rfl⟩ | ⟨l, p, hl, hp, _, rfl⟩
  · unfold Part.size at hs
    cases hg : p.groups with
    | nil => rw [hg] at hs; simp at hs; split at hs <;> omega
    | cons g gs =>
      refine ⟨g, join ':' (gs ++ p.dotted.toList), ?_, (hp.1 g (by rw [hg]; simp)).2.2⟩
      unfold Part.text
      rw [hg, List.cons_append, join_cons]
      intro hn
      obtain ⟨h1, h2⟩ := List.append_eq_nil_iff.1 hn
      rw [hg, h1] at hs
      simp at hs
      split at hs <;> omega
  · cases l with
    | nil => exact ⟨[], ':' :: p.text, rfl, by simp⟩
    | cons g gs =>
      cases gs with
      | nil => exact ⟨g, ':' :: p.text, by simp [join], (hl g (by simp)).2.2⟩
      | cons g' gs =>
        refine ⟨g, join ':' (g' :: gs) ++ "::".toList ++ p.text, ?_, (hl g (by simp)).2.2⟩
        rw [join_cons _ _ _ (List.cons_ne_nil g' gs)]
        simp

theorem ipv6Zone_small (t : Text) (h : IPv6Zone t) : IPv6Zone (small t) := by
  obtain ⟨a, z, rfl, ha, hz⟩ := h
  rw [small_append a z (ipv6_no_percent a ha) (by
    rcases hz with rfl | ⟨i, _, _, rfl | rfl⟩
    · exact .inl rfl
    · exact .inr ⟨_, rfl⟩
    · exact .inr ⟨_, rfl⟩)]
  exact ⟨_, z, rfl, ipv6_lower a ha, hz⟩

theorem encoded_chars (p : Char → Bool) (hp : ∀ c, p c = true → 32 < c.toNat ∧ c.toNat < 128) (t : Text)
    (h : Encoded p t) (c : Char) (hc : c ∈ t) : 32 < c.toNat ∧ c.toNat < 128 := by
  obtain ⟨us, rfl, hu⟩ := h
  obtain ⟨u, hu1, hcu⟩ := List.mem_flatten.1 hc
  rcases hu u hu1 with ⟨a, b, rfl, ha, hb⟩ | ⟨x, rfl, hx⟩
  · simp only [List.mem_cons, List.not_mem_nil, or_false] at hcu
    rcases hcu with rfl | rfl | rfl
    · decide
    · exact class_ascii _ (.inl ha)
    · exact class_ascii _ (.inl hb)
  · rw [List.mem_singleton.1 hcu]; exact hp x hx

theorem regName_chars (t : Text) (h : RegName t) (c : Char) (hc : c ∈ t) : 32 < c.toNat ∧ c.toNat < 128 :=
  encoded_chars _ (fun c h => class_ascii c (.inr (by rw [Bool.or_eq_true] at h; exact h.symm))) t h c hc

theorem part_chars (p : Part) (h : p.Ok) (c : Char) (hc : c ∈ p.text) : 32 < c.toNat ∧ c.toNat < 128 := by
  rcases mem_join _ _ _ hc with rfl | ⟨g, hg, hcg⟩
  · decide
  · rcases List.mem_append.1 hg with hg | hg
    · exact class_ascii c (.inl ((h.1 g hg).2.2 c hcg))
    · cases hd : p.dotted with
      | none => rw [hd] at hg; simp at hg
      | some d =>
        rw [hd] at hg
        simp at hg
        subst hg
        obtain ⟨ps, _, hps, hp⟩ := h.2 g hd
        rw [hps] at hcg
        rcases mem_join _ _ _ hcg with rfl | ⟨q, hq, hcq⟩
        · decide
        · exact class_ascii c (.inl (by simp [isHex, (hp q hq).2.2 c hcq]))

theorem ipv6Zone_chars (t : Text) (h : IPv6Zone t) (c : Char) (hc : c ∈ t) : 32 < c.toNat ∧ c.toNat < 128 := by
  obtain ⟨a, z, rfl, ha, hz⟩ := h
  rcases List.mem_append.1 hc with hc | hc
  · rcases ha with ⟨p, hp, _, rfl⟩ | ⟨l, p, hl, hp, _, rfl⟩
    · exact part_chars p hp c hc
    · simp only [List.mem_append] at hc
      rcases hc with (hc | hc) | hc
      · rcases mem_join _ _ _ hc with rfl | ⟨g, hg, hcg⟩
        · decide
        · exact class_ascii c (.inl ((hl g hg).2.2 c hcg))
      · have : c = ':' := by simpa using hc
        subst this; decide
      · exact part_chars p hp c hc
  · rcases hz with rfl | ⟨i, _, hi, hz⟩
    · cases hc
    · have key := encoded_chars _ (fun c h => class_ascii c (.inr (.inl h))) i hi
      rcases hz with rfl | rfl
      · rcases List.mem_append.1 hc with hc | hc
        · have : c = '%' ∨ c = '2' ∨ c = '5' := by simpa using hc
          rcases this with rfl | rfl | rfl <;> decide
        · exact key c hc
      · rcases List.mem_cons.1 hc with rfl | hc
        · decide
        · exact key c hc

/-- What is between `//` and the path. -/
def authority (w : Written) (host : Text) : Text :=
  (match w.userinfo with | none => [] | some i => i ++ ['@']) ++ host ++ opt [':'] (w.port.map natText)

theorem port_digits (w : Written) (c : Char) (hc : c ∈ opt [':'] (w.port.map natText)) :
    c = ':' ∨ isDigit c = true := by
  cases hp : w.port with
  | none => rw [hp] at hc; cases hc
  | some p =>
    rw [hp] at hc
    rcases List.mem_cons.1 hc with rfl | hc
    · exact .inl rfl
    · right
      have := Nat.isDigit_of_mem_toDigits (b := 10) (by decide) (by decide) hc
      simp only [Char.isDigit, Bool.and_eq_true, decide_eq_true_eq] at this
      simp only [isDigit, between, Bool.and_eq_true, decide_eq_true_eq]
      exact this

theorem host_chars (e : Env) (host written : Text) (h : HostText e host written) (c : Char) (hc : c ∈ written) :
    (32 < c.toNat ∧ c.toNat < 128) ∧ c ≠ '/' ∧ c ≠ '?' ∧ c ≠ '#' ∧ c ≠ '@' := by
  have fin : ∀ t : Text, ¬ Delimiter c → c ≠ '/' ∧ c ≠ '?' ∧ c ≠ '#' ∧ c ≠ '@' := by
    intro _ h
    unfold Delimiter at h
    tauto
  rcases h with ⟨hr, rfl⟩ | ⟨h6, _, rfl⟩
  · exact ⟨regName_chars _ hr c hc, fin written (valid_delimiter _ (.inl hr) c hc)⟩
  · have : c = '[' ∨ c ∈ host ∨ c = ']' := by simpa using hc
    rcases this with rfl | hc | rfl
    · decide
    · exact ⟨ipv6Zone_chars _ h6 c hc, fin host (ipv6_delimiter _ h6 c hc)⟩
    · decide

theorem digit_ascii (c : Char) (h : isDigit c = true) : 32 < c.toNat ∧ c.toNat < 128 :=
  class_ascii c (.inl (by simp [isHex, h]))

theorem authority_chars (e : Env) (w : Written) (host : Text) (hw : w.Ok) (hh : HostText e w.host host)
    (c : Char) (hc : c ∈ authority w host) :
    c.toNat < 128 ∧ (c ≠ '\t' ∧ c ≠ '\r' ∧ c ≠ '\n') ∧ c ≠ '/' ∧ c ≠ '?' ∧ c ≠ '#' := by
  have big : 32 < c.toNat → c ≠ '\t' ∧ c ≠ '\r' ∧ c ≠ '\n' := by
    intro h
    refine ⟨?_, ?_, ?_⟩ <;> · rintro rfl; revert h; decide
  unfold authority at hc
  rw [List.mem_append, List.mem_append] at hc
  rcases hc with (hc | hc) | hc
  · cases hu : w.userinfo with
    | none => rw [hu] at hc; cases hc
    | some i =>
      rw [hu] at hc
      obtain ⟨h1, h2⟩ := hw.userinfo i hu
      rcases List.mem_append.1 hc with hc | hc
      · have g1 := h1 c hc
        have g2 := h2 c hc
        tauto
      · rw [List.mem_singleton.1 hc]; decide
  · have := host_chars e _ _ hh c hc
    exact ⟨this.1.2, big this.1.1, by tauto⟩
  · rcases port_digits w c hc with rfl | hd
    · decide
    · have := digit_ascii c hd
      refine ⟨this.2, big this.1, ?_⟩
      refine ⟨?_, ?_, ?_⟩ <;> · rintro rfl; revert hd; decide

theorem hostinfo_eq (e : Env) (w : Written) (host : Text) (hh : HostText e w.host host) :
    hostinfo (authority w host) = (w.host, w.port.map natText) := by
  have hat : '@' ∉ host ++ opt [':'] (w.port.map natText) := by
    rw [List.mem_append]
    rintro (h | h)
    · have := host_chars e _ _ hh _ h; tauto
    · rcases port_digits w _ h with h | h
      · revert h; decide
      · revert h; decide
  have hlast : afterLast '@' (authority w host) = host ++ opt [':'] (w.port.map natText) := by
    unfold authority
    cases w.userinfo with
    | none => rw [List.nil_append]; exact afterLast_not_mem _ _ hat
    | some i =>
      have : (i ++ ['@'] ++ host ++ opt [':'] (w.port.map natText)) =
          i ++ '@' :: (host ++ opt [':'] (w.port.map natText)) := by simp
      rw [this]
      exact afterLast_append _ _ _ hat
  have hport : ∀ x : Text, (x = match w.port.map natText with | none => [] | some t => t) →
      (if x = [] then none else some x) = w.port.map natText := by
    rintro x rfl
    cases w.port with
    | none => rfl
    | some p => exact if_neg (Verif.Numerals.natText_ne_nil p)
  have key : hostAndPort (host ++ opt [':'] (w.port.map natText)) =
      (w.host, match w.port.map natText with | none => [] | some t => t) := by
    unfold hostAndPort
    rcases hh with ⟨hr, rfl⟩ | ⟨h6, _, rfl⟩
    · have nb : '[' ∉ w.host ++ opt [':'] (w.port.map natText) := by
        rw [List.mem_append]
        rintro (h | h)
        · exact Build.encoded_not_mem _ '[' (by decide) (by decide) (by decide) _ hr h
        · rcases port_digits w _ h with h | h
          · revert h; decide
          · revert h; decide
      have nc : ':' ∉ w.host := Build.encoded_not_mem _ ':' (by decide) (by decide) (by decide) _ hr
      simp only [cut_of_not_mem _ _ nb]
      cases hp : w.port with
      | none => simp [opt, cut_of_not_mem _ _ nc]
      | some p =>
        simp only [Option.map_some, opt]
        rw [List.singleton_append, cut_append _ _ _ nc]
        rfl
    · have nb := Build.ipv6_no_bracket _ h6
      have e1 : '[' :: w.host ++ [']'] ++ opt [':'] (w.port.map natText) =
          [] ++ '[' :: (w.host ++ ']' :: opt [':'] (w.port.map natText)) := by simp
      rw [e1, cut_append _ _ _ (by simp)]
      simp only [cut_append _ _ _ nb, Option.getD_some]
      cases hp : w.port with
      | none => simp [opt, cut]
      | some p => simp [opt, cut]
  unfold hostinfo
  simp only [hlast, key]
  rw [hport _ rfl]

theorem bracket_count (e : Env) (w : Written) (host : Text) (hw : w.Ok) (hh : HostText e w.host host) :
    netlocOk e (authority w host) = true := by
  have hasc : ascii (authority w host) = true := by
    unfold ascii
    rw [List.all_eq_true]
    intro c hc
    simpa using (authority_chars e w host hw hh c hc).1
  have huser : ∀ b, (b = '[' ∨ b = ']') →
      b ∉ (match w.userinfo with | none => [] | some i => i ++ ['@']) := by
    intro b hb hm
    cases hu : w.userinfo with
    | none => rw [hu] at hm; cases hm
    | some i =>
      rw [hu] at hm
      rcases List.mem_append.1 hm with hm | hm
      · have := (hw.userinfo i hu).2 b hm
        rcases hb with rfl | rfl <;> tauto
      · have := List.mem_singleton.1 hm
        rcases hb with rfl | rfl <;> · revert this; decide
  have hportn : ∀ b, (b = '[' ∨ b = ']') → b ∉ opt [':'] (w.port.map natText) := by
    intro b hb hm
    rcases hb with rfl | rfl
    · rcases port_digits w _ hm with h | h <;> · revert h; decide
    · rcases port_digits w _ hm with h | h <;> · revert h; decide
  unfold netlocOk
  rcases hh with ⟨hr, rfl⟩ | ⟨h6, hb, rfl⟩
  · have no : ∀ b, (b = '[' ∨ b = ']') → b ∉ authority w w.host := by
      intro b hb
      unfold authority
      rw [List.mem_append, List.mem_append]
      rintro ((h | h) | h)
      · exact huser b hb h
      · rcases hb with rfl | rfl
        · exact Build.encoded_not_mem _ '[' (by decide) (by decide) (by decide) _ hr h
        · exact Build.encoded_not_mem _ ']' (by decide) (by decide) (by decide) _ hr h
      · exact hportn b hb h
    have h1 : (authority w w.host).contains '[' = false := by simpa using no _ (.inl rfl)
    have h2 : (authority w w.host).contains ']' = false := by simpa using no _ (.inr rfl)
    rw [h1, h2, hasc]
    simp [inBrackets, cut_of_not_mem _ _ (no _ (.inl rfl))]
  · have nb := Build.ipv6_no_bracket _ h6
    have e1 : authority w ('[' :: w.host ++ [']']) =
        (match w.userinfo with | none => [] | some i => i ++ ['@']) ++
          '[' :: (w.host ++ ']' :: opt [':'] (w.port.map natText)) := by
      unfold authority; simp
    have h1 : (authority w ('[' :: w.host ++ [']'])).contains '[' = true := by rw [e1]; simp
    have h2 : (authority w ('[' :: w.host ++ [']'])).contains ']' = true := by rw [e1]; simp
    rw [h1, h2, hasc]
    have : inBrackets (authority w ('[' :: w.host ++ [']'])) = some w.host := by
      unfold inBrackets
      rw [e1, cut_append _ _ _ (huser _ (.inl rfl))]
      simp [cut_append _ _ _ nb]
    rw [this]
    simp [hb]

theorem hostname_eq (e : Env) (he : Lowers e) (w : Written) (host : Text) (hw : w.Ok)
    (hh : HostText e w.host host) : hostname e (authority w host) = some (small w.host) := by
  unfold hostname
  simp only [hostinfo_eq e w host hh, if_neg hw.host]
  have hasc : ∀ c ∈ w.host, c.toNat < 128 := by
    intro c hc
    rcases hh with ⟨hr, _⟩ | ⟨h6, _, _⟩
    · exact (regName_chars _ hr c hc).2
    · exact (ipv6Zone_chars _ h6 c hc).2
  obtain ⟨h1, h2⟩ := cut_takeWhile '%' w.host
  rw [h1, he _ (fun c hc => hasc c ((List.takeWhile_prefix _).subset hc))]
  unfold small
  rw [← h2]

theorem portOf_eq (e : Env) (w : Written) (host : Text) (hw : w.Ok) (hh : HostText e w.host host) :
    portOf (authority w host) = .ok w.port := by
  unfold portOf
  simp only [hostinfo_eq e w host hh]
  cases hp : w.port with
  | none => rfl
  | some p =>
    have hd : (natText p).all isDigit = true := by
      rw [List.all_eq_true]
      intro c hc
      have := Nat.isDigit_of_mem_toDigits (b := 10) (by decide) (by decide) hc
      simp only [Char.isDigit, Bool.and_eq_true, decide_eq_true_eq] at this
      simp only [isDigit, between, Bool.and_eq_true, decide_eq_true_eq]
      exact this
    simp only [Option.map_some, hd, Verif.Numerals.natValue_natText, hw.port p hp, decide_true, Bool.and_self, if_true]

theorem cut_opt (sep : Char) (a : Text) (h : sep ∉ a) (b : Option Text) :
    cut sep (a ++ opt [sep] b) = (a, b) := by
  cases b with
  | none => simp [opt, cut_of_not_mem _ _ h]
  | some b => exact cut_append _ _ _ h

theorem rest_head (w : Written) (hw : w.Ok) :
    (w.path ++ opt ['?'] w.query ++ opt ['#'] w.fragment) = [] ∨
      ∃ c r, (w.path ++ opt ['?'] w.query ++ opt ['#'] w.fragment) = c :: r ∧
        (c ≠ '/' && c ≠ '?' && c ≠ '#') = false := by
  rcases hw.path.1 with h | ⟨r, h⟩
  · rw [h]
    cases w.query with
    | some q => exact .inr ⟨'?', _, rfl, by decide⟩
    | none =>
      cases w.fragment with
      | some f => exact .inr ⟨'#', _, rfl, by decide⟩
      | none => exact .inl rfl
  · rw [h]; exact .inr ⟨'/', _, rfl, by decide⟩

theorem urlsplit_eq (e : Env) (he : Lowers e) (w : Written) (host : Text) (hw : w.Ok)
    (hh : HostText e w.host host) :
    urlsplit e (w.text host) = .ok ⟨w.scheme.map Char.toLower, authority w host, w.path,
      w.query.getD [], w.fragment.getD []⟩ := by
  have htext : w.text host = w.scheme ++ ':' :: ('/' :: '/' :: (authority w host ++
      (w.path ++ opt ['?'] w.query ++ opt ['#'] w.fragment))) := by
    unfold Written.text authority
    have : "://".toList = [':', '/', '/'] := by decide
    rw [this]
    simp
  have hsc : ∀ c ∈ w.scheme, schemeChar c = true := by
    intro c hc
    unfold schemeChar
    rcases hw.scheme.2 c hc with h | h | rfl | rfl | rfl
    · simp [h]
    · simp [h]
    · decide
    · decide
    · decide
  have hscn : ∀ d, schemeChar d = false → ∀ c ∈ w.scheme, c ≠ d := by
    rintro d hd c hc rfl
    rw [hsc c hc] at hd; cases hd
  have hline : Line (w.text host) := by
    rw [htext]
    refine line_append _ _ ?_ (line_append [':', '/', '/'] _ ?_ (line_append _ _ ?_
      (line_append _ _ (line_append _ _ hw.path.2.1 ?_) ?_)))
    · exact line_of _ schemeChar hsc (by decide) (by decide) (by decide)
    · unfold Line; decide
    · exact fun c hc => (authority_chars e w host hw hh c hc).2.1
    · exact line_opt _ (by unfold Line; decide) _ fun q hq => (hw.query q hq).1
    · exact line_opt _ (by unfold Line; decide) _ hw.fragment
  obtain ⟨⟨c0, r0, hc0, hl0⟩, _⟩ := hw.scheme
  have hdrop : ((w.text host).dropWhile fun c => decide (c.toNat ≤ 32)) = w.text host := by
    rw [htext, hc0, List.cons_append, List.dropWhile_cons_of_neg]
    have := letter_class c0 hl0
    simp; omega
  have hcut : cut ':' (w.text host) = (w.scheme, some ('/' :: '/' :: (authority w host ++
      (w.path ++ opt ['?'] w.query ++ opt ['#'] w.fragment)))) := by
    rw [htext]
    exact cut_append _ _ _ fun hm => hscn ':' (by decide) _ hm rfl
  have hsasc : ∀ c ∈ w.scheme, c.toNat < 128 := by
    intro c hc
    rcases hw.scheme.2 c hc with h | h | rfl | rfl | rfl
    · have := letter_class c h; omega
    · exact (digit_ascii c h).2
    · decide
    · decide
    · decide
  have hscheme : schemeOf e (w.text host) = (w.scheme.map Char.toLower, '/' :: '/' :: (authority w host ++
      (w.path ++ opt ['?'] w.query ++ opt ['#'] w.fragment))) := by
    have hall : (c0 :: r0).all schemeChar = true := by
      rw [← hc0, List.all_eq_true]; exact hsc
    unfold schemeOf
    rw [hcut]
    simp only [hc0]
    rw [hl0, hall, ← hc0, he _ hsasc]
    rfl
  obtain ⟨t1, t2⟩ := takeWhile_stop (fun c => c ≠ '/' && c ≠ '?' && c ≠ '#') (authority w host)
    (w.path ++ opt ['?'] w.query ++ opt ['#'] w.fragment)
    (fun c hc => by
      have := (authority_chars e w host hw hh c hc).2.2
      simp [this.1, this.2.1, this.2.2]) (rest_head w hw)
  have hq : '#' ∉ w.path ++ opt ['?'] w.query := by
    rw [List.mem_append]
    rintro (h | h)
    · exact (hw.path.2.2 _ h).2 rfl
    · cases hq : w.query with
      | none => rw [hq] at h; cases h
      | some q =>
        rw [hq] at h
        rcases List.mem_cons.1 h with h | h
        · revert h; decide
        · exact (hw.query q hq).2 h
  unfold urlsplit
  simp only [hdrop, filter_line _ hline, hscheme]
  have hn : netlocOf ('/' :: '/' :: (authority w host ++
      (w.path ++ opt ['?'] w.query ++ opt ['#'] w.fragment))) = (authority w host,
      w.path ++ opt ['?'] w.query ++ opt ['#'] w.fragment) := by
    simp only [netlocOf]
    rw [t1, t2]
  simp only [hn, cut_opt _ _ hq, cut_opt '?' w.path (fun h => (hw.path.2.2 _ h).1 rfl), bracket_count e w host hw hh,
    if_true]

/-! ## Theorems -/

/-- **C91**: a text of the form `scheme://userinfo@host:port/path?query#fragment` that is configured as
the endpoint gives the scheme and host that are written (in small letters), the port, the path and the
query.  What is missing: user information and fragment are dropped (`C91_dropped_fails`), and so are
parameters of the last segment of the path (`C91_params_fails`). -/
theorem C91_static_partial (e : Env) (he : Lowers e) (w : Written) (host : Text) (hw : w.Ok)
    (hh : HostText e w.host host) (hp : ∀ a b, w.path = a ++ ';' :: b → '/' ∈ b) (region : Option Text)
    (pre : Text) :
    let u : Uri := { scheme := w.scheme.map Char.toLower, host := small w.host, port := w.port,
                     path := some w.path, query := some (w.query.getD []) }
    staticResolver e (some ⟨some (.text (w.text host)), region⟩) = .ok u ∧
      regionalResolver e pre (some ⟨some (.text (w.text host)), region⟩) = .ok u := by
  have hacc : accepted (small w.host) = true := by
    rw [C71_accepted_iff]
    rcases hh with ⟨hr, _⟩ | ⟨h6, _, _⟩
    · exact .inl (.inl (regName_small _ hr))
    · exact .inr (.inl (ipv6Zone_small _ h6))
  have hparse : parseEndpoint e (w.text host) = .ok
      { scheme := w.scheme.map Char.toLower, host := small w.host, port := w.port,
        path := some w.path, query := some (w.query.getD []) } := by
    unfold parseEndpoint urlparse
    simp only [urlsplit_eq e he w host hw hh, hostname_eq e he w host hw hh, portOf_eq e w host hw hh,
      withoutParams_eq _ hp, ite_self, mkUri, hacc, if_true]
  intro u
  constructor
  · unfold staticResolver resolveStatic
    simp only [Option.bind_some, hparse]
    rfl
  · unfold regionalResolver resolveStatic
    simp only [Option.bind_some, hparse]
    rfl

/-- What urlparse is assumed to be given in the examples: texts of ASCII characters. -/
def plain : Env := ⟨fun t => t.map Char.toLower, fun _ => true, fun _ => true⟩

theorem plain_lowers : Lowers plain := fun _ _ => rfl

/-- **C91** is false: user name, password and fragment that are configured are not in the endpoint. -/
theorem C91_dropped_fails (e : Env) (he : Lowers e) (w : Written) (host : Text) (hw : w.Ok)
    (hh : HostText e w.host host) (u : Uri) (region : Option Text)
    (h : staticResolver e (some ⟨some (.text (w.text host)), region⟩) = .ok u) :
    u.username = none ∧ u.password = none ∧ u.fragment = none := by
  unfold staticResolver resolveStatic parseEndpoint urlparse at h
  simp only [Option.bind_some, urlsplit_eq e he w host hw hh, hostname_eq e he w host hw hh,
    portOf_eq e w host hw hh, mkUri] at h
  by_cases ha : accepted (small w.host) = true
  · simp only [ha, if_true, Except.ok.injEq] at h
    rw [← h]
    exact ⟨rfl, rfl, rfl⟩
  · simp only [ha, Bool.false_eq_true, if_false] at h
    cases h

/-- **C91** is false: parameters of the last segment of the path are dropped. -/
theorem C91_params_fails :
    staticResolver plain (some ⟨some (.text "https://example.com/a;v=1/b;v=2".toList), none⟩) =
      .ok { host := "example.com".toList, path := some "/a;v=1/b".toList, query := some [] } := by
  decide +kernel

/-- **C91**: a text without slashes, such as `localhost:8080`, is refused. -/
theorem C91_no_slashes (e : Env) (t : Text) (h : '/' ∉ t) (region : Option Text) (pre : Text) :
    staticResolver e (some ⟨some (.text t), region⟩) = .error .resolution ∧
      regionalResolver e pre (some ⟨some (.text t), region⟩) = .error .resolution := by
  have hurl : '/' ∉ (t.dropWhile fun c => decide (c.toNat ≤ 32)).filter fun c => !removed c :=
    fun hm => h ((List.dropWhile_suffix _).subset (List.mem_of_mem_filter hm))
  generalize hu : ((t.dropWhile fun c => decide (c.toNat ≤ 32)).filter fun c => !removed c) = url at hurl
  have hs : '/' ∉ (schemeOf e url).2 := by
    have hcut := cut_fst_snd ':' url
    unfold schemeOf
    simp only
    split
    · next c r rest h1 h2 =>
      split
      · intro hm
        rw [h2] at hcut
        simp only at hm
        exact hurl (by rw [hcut]; exact List.mem_append_right _ (List.mem_cons_of_mem _ hm))
      · exact hurl
    · exact hurl
  have hn : (netlocOf (schemeOf e url).2).1 = [] := by
    unfold netlocOf
    split
    · next r hr => rw [hr] at hs; simp at hs
    · rfl
  have hok : netlocOk e [] = true := rfl
  have hname : hostname e [] = none := rfl
  have hparse : parseEndpoint e t = .error .resolution := by
    unfold parseEndpoint urlparse urlsplit
    simp only [hu, hn, hok, if_true, hname]
  constructor
  · unfold staticResolver resolveStatic
    simp only [Option.bind_some, hparse]
  · unfold regionalResolver resolveStatic
    simp only [Option.bind_some, hparse]

/-- **C91**: whatever text is configured, the host of the endpoint leads nowhere else (it has none of
the characters that end a host), and the port is one that exists. -/
theorem C91_any_text (e : Env) (t : Text) (u : Uri) (region : Option Text)
    (h : staticResolver e (some ⟨some (.text t), region⟩) = .ok u) :
    (∀ c ∈ u.host, c ≠ '/' ∧ c ≠ '?' ∧ c ≠ '#' ∧ c ≠ '@' ∧ c ≠ ' ') ∧
      (∀ p, u.port = some p → p ≤ 65535) := by
  unfold staticResolver resolveStatic at h
  simp only [Option.bind_some] at h
  cases hp : parseEndpoint e t with
  | error x => rw [hp] at h; cases h
  | ok v =>
    rw [hp] at h
    simp only [Except.ok.injEq] at h
    subst h
    unfold parseEndpoint at hp
    cases h1 : urlparse e t with
    | error x => rw [h1] at hp; cases hp
    | ok s =>
      rw [h1] at hp
      simp only at hp
      cases h2 : hostname e s.netloc with
      | none => rw [h2] at hp; cases hp
      | some host =>
        rw [h2] at hp
        simp only at hp
        cases h3 : portOf s.netloc with
        | error x => rw [h3] at hp; cases hp
        | ok p =>
          rw [h3] at hp
          simp only [mkUri] at hp
          split at hp
          · next ha =>
            simp only [Except.ok.injEq] at hp
            subst hp
            refine ⟨fun c hc => ?_, fun q hq => ?_⟩
            · have := C71_no_delimiters _ ha c hc
              unfold Delimiter at this
              tauto
            · simp only at hq
              subst hq
              unfold portOf at h3
              split at h3
              · cases h3
              · split at h3
                · next hv =>
                  simp only [Except.ok.injEq, Option.some.injEq] at h3
                  subst h3
                  simp only [Bool.and_eq_true, decide_eq_true_eq] at hv
                  exact hv.2
                · cases h3
          · cases hp

/-- **C91**: an endpoint with an address that is not closed by its bracket, or not opened, is refused. -/
theorem C91_brackets (e : Env) (n rest : Text) (region : Option Text)
    (hn : ∀ c ∈ n, c ≠ '/' ∧ c ≠ '?' ∧ c ≠ '#') (hrest : rest = [] ∨ ∃ r, rest = '/' :: r) (hl : Line (n ++ rest))
    (hb : '[' ∈ n ∧ ']' ∉ n ∨ '[' ∉ n ∧ ']' ∈ n) :
    staticResolver e (some ⟨some (.text ("https://".toList ++ n ++ rest)), region⟩) = .error .value := by
  have htext : "https://".toList ++ n ++ rest = 'h' :: 't' :: 't' :: 'p' :: 's' :: ':' :: '/' :: '/' :: (n ++ rest) := by
    have : "https://".toList = ['h', 't', 't', 'p', 's', ':', '/', '/'] := by decide
    rw [this]
    simp
  have hline : Line ('h' :: 't' :: 't' :: 'p' :: 's' :: ':' :: '/' :: '/' :: (n ++ rest)) :=
    line_append ['h', 't', 't', 'p', 's', ':', '/', '/'] _ (by unfold Line; decide) hl
  have hcut : cut ':' ('h' :: 't' :: 't' :: 'p' :: 's' :: ':' :: '/' :: '/' :: (n ++ rest)) =
      (['h', 't', 't', 'p', 's'], some ('/' :: '/' :: (n ++ rest))) :=
    cut_append ':' ['h', 't', 't', 'p', 's'] _ (by decide)
  have hscheme : (schemeOf e ('h' :: 't' :: 't' :: 'p' :: 's' :: ':' :: '/' :: '/' :: (n ++ rest))).2 =
      '/' :: '/' :: (n ++ rest) := by
    unfold schemeOf
    rw [hcut]
    rfl
  obtain ⟨t1, t2⟩ := takeWhile_stop (fun c => c ≠ '/' && c ≠ '?' && c ≠ '#') n rest
    (fun c hc => by simp [hn c hc]) (by
      rcases hrest with h | ⟨r, h⟩
      · exact .inl h
      · exact .inr ⟨'/', r, h, by decide⟩)
  have hnet : netlocOf ('/' :: '/' :: (n ++ rest)) = (n, rest) := by
    simp only [netlocOf]
    rw [t1, t2]
  have hok : netlocOk e n = false := by
    unfold netlocOk
    rcases hb with ⟨h1, h2⟩ | ⟨h1, h2⟩
    · rw [if_pos (by simp [h1, h2])]
    · rw [if_pos (by simp [h1, h2])]
  unfold staticResolver resolveStatic
  simp only [Option.bind_some, parseEndpoint, urlparse, urlsplit, htext]
  rw [List.dropWhile_cons_of_neg (by decide), filter_line _ hline, hscheme, hnet]
  simp only [hok, Bool.false_eq_true, if_false]

example : staticResolver plain (some ⟨some (.text "https://[::1:443/x".toList), none⟩) = .error .value :=
  C91_brackets plain "[::1:443".toList "/x".toList none (by decide +kernel) (.inr ⟨['x'], rfl⟩)
    (by unfold Line; decide +kernel) (.inl (by decide +kernel))

/-- **C91** is false: a port that does not exist is reported as `ValueError`, not as an endpoint that
cannot be resolved. -/
theorem C91_port_fails :
    staticResolver plain (some ⟨some (.text "https://example.com:99999".toList), none⟩) = .error .value ∧
      staticResolver plain (some ⟨some (.text "https://example.com:http".toList), none⟩) = .error .value := by
  decide +kernel

/-- **C91**: a URI that is configured is used as it is, whatever the region. -/
theorem C91_uri (e : Env) (u : Uri) (region : Option Text) (pre : Text) :
    staticResolver e (some ⟨some (.uri u), region⟩) = .ok u ∧
      regionalResolver e pre (some ⟨some (.uri u), region⟩) = .ok u := ⟨rfl, rfl⟩

/-- **C91**: without a configured endpoint, a service with regional endpoints is called over HTTPS at
`prefix.region.amazonaws.com`, or not at all if that is not a valid name. -/
theorem C91_regional (e : Env) (pre region : Text) (hpre : ':' ∉ pre) :
    (RegName (pre ++ '.' :: region) →
      regionalResolver e pre (some ⟨none, some region⟩) =
        .ok { scheme := "https".toList, host := pre ++ '.' :: region ++ ".amazonaws.com".toList }) ∧
    (∀ u, regionalResolver e pre (some ⟨none, some region⟩) = .ok u →
      u = { scheme := "https".toList, host := pre ++ '.' :: region ++ ".amazonaws.com".toList } ∧
      RegName u.host) := by
  have hsuf : '.' :: "amazonaws.com".toList = ".amazonaws.com".toList := by decide
  have hun : regionalResolver e pre (some ⟨none, some region⟩) =
      mkUri { host := pre ++ '.' :: region ++ ".amazonaws.com".toList } := by
    rw [← hsuf]; rfl
  have hval : accepted (pre ++ '.' :: region ++ ".amazonaws.com".toList) = true →
      RegName (pre ++ '.' :: region ++ ".amazonaws.com".toList) := by
    intro h
    have hlast : (pre ++ '.' :: region ++ ".amazonaws.com".toList).getLast? = some 'm' := by
      rw [List.getLast?_append]; rfl
    have dotted : ¬ Dotted (pre ++ '.' :: region ++ ".amazonaws.com".toList) := fun hd =>
      Build.dotted_not_mem 'm' (by decide) (by decide) _ hd (List.mem_of_getLast? hlast)
    have six : ¬ IPv6Zone (pre ++ '.' :: region ++ ".amazonaws.com".toList) := by
      rintro ⟨a, z, hz, h6, _⟩
      obtain ⟨g, r, rfl, hg⟩ := ipv6_first a h6
      have hz' : g ++ ':' :: (r ++ z) = pre ++ '.' :: (region ++ ".amazonaws.com".toList) := by
        rw [List.append_assoc, List.append_assoc] at hz
        exact hz.symm
      rcases List.append_eq_append_iff.1 hz' with ⟨x, hx, hy⟩ | ⟨x, hx, hy⟩
      · cases x with
        | nil => simp at hy
        | cons c x =>
          have : c = ':' := by simpa using (congrArg List.head? hy).symm
          exact hpre (by rw [hx, this]; simp)
      · cases x with
        | nil => simp at hy
        | cons c x =>
          have : c = '.' := by simpa using (congrArg List.head? hy).symm
          have := hg '.' (by rw [hx, this]; simp)
          revert this; unfold Hex; decide
    rcases (C71_accepted_iff _).1 h with (h | h | ⟨a, ha, _⟩) | h | ⟨s, hs, _⟩
    · exact h
    · exact absurd h dotted
    · rw [ha, List.getLast?_append] at hlast; simp at hlast
    · exact absurd h six
    · rw [hs] at hlast; simp at hlast
  rw [hun]
  unfold mkUri
  constructor
  · intro h
    have : accepted (pre ++ '.' :: region ++ ".amazonaws.com".toList) = true := by
      rw [C71_accepted_iff]
      refine .inl (.inl ?_)
      obtain ⟨us, hu, hu2⟩ := h
      refine ⟨us ++ ".amazonaws.com".toList.map fun c => [c], ?_, ?_⟩
      · rw [List.flatten_append, map_single_flatten, ← hu]
      · intro x hx
        rcases List.mem_append.1 hx with hx | hx
        · exact hu2 x hx
        · obtain ⟨c, hc, rfl⟩ := List.mem_map.1 hx
          right
          refine ⟨c, rfl, ?_⟩
          have : ∀ c ∈ ".amazonaws.com".toList, (isSubDelimiter c || isUnreserved c) = true := by decide
          exact this c hc
    simp only [this, if_true]
  · intro u hu
    split at hu
    · next ha =>
      simp only [Except.ok.injEq] at hu
      subst hu
      exact ⟨rfl, hval ha⟩
    · cases hu

/-- **C91**: a region cannot lead a request to another host: the name of every endpoint that is made
from it ends with `.amazonaws.com`, and no character of it ends the name. -/
theorem C91_region_host (e : Env) (pre region : Text) (u : Uri)
    (h : regionalResolver e pre (some ⟨none, some region⟩) = .ok u) :
    (∃ t, u.host = t ++ ".amazonaws.com".toList) ∧
      (∀ c ∈ u.host, c ≠ '/' ∧ c ≠ '?' ∧ c ≠ '#' ∧ c ≠ '@' ∧ c ≠ ' ') ∧ u.port = none ∧
      u.username = none := by
  have hsuf : '.' :: "amazonaws.com".toList = ".amazonaws.com".toList := by decide
  have hun : regionalResolver e pre (some ⟨none, some region⟩) =
      mkUri { host := pre ++ '.' :: region ++ ".amazonaws.com".toList } := by
    rw [← hsuf]; rfl
  rw [hun] at h
  unfold mkUri at h
  split at h
  · next ha =>
    simp only [Except.ok.injEq] at h
    subst h
    refine ⟨⟨_, rfl⟩, fun c hc => ?_, rfl, rfl⟩
    have := C71_no_delimiters _ ha c hc
    unfold Delimiter at this
    tauto
  · cases h

/-- **C91**: with neither an endpoint nor a region, or without any configuration, the call fails before
anything is sent. -/
theorem C91_nothing (e : Env) (pre : Text) (region : Option Text) :
    regionalResolver e pre (some ⟨none, none⟩) = .error .resolution ∧
      regionalResolver e pre none = .error .resolution ∧
      staticResolver e (some ⟨none, region⟩) = .error .resolution ∧
      staticResolver e none = .error .resolution := ⟨rfl, rfl, rfl, rfl⟩

/-- **C91** is false: for an endpoint that is written without a query, a request without a query gets an
empty one, so that the connection of the CRT is asked for a path that ends with a question mark.  (A URI
object without a query does not have this effect.) -/
theorem C91_question_mark_fails (e : Env) (he : Lowers e) (w : Written) (host : Text) (hw : w.Ok)
    (hh : HostText e w.host host) (hp : ∀ a b, w.path = a ++ ';' :: b → '/' ∈ b) (hq : w.query = none)
    (previous : Uri) (hprev : previous.query = none) (u : Uri) (region : Option Text)
    (h : staticResolver e (some ⟨some (.text (w.text host)), region⟩) = .ok u) :
    (Verif.Transport.Crt.renderPath (setEndpoint u previous)).getLast? = some '?' ∧
      (Verif.Transport.Crt.renderPath (setEndpoint { u with query := none } previous)) =
        ((Verif.Transport.Crt.renderPath (setEndpoint u previous)).dropLast) := by
  rw [(C91_static_partial e he w host hw hh hp region []).1] at h
  simp only [Except.ok.injEq] at h
  subst h
  unfold Verif.Transport.Crt.renderPath setEndpoint
  simp only [hq, hprev, Option.getD_none, Verif.Http.Destination.orText]
  constructor
  · rw [List.getLast?_append]; rfl
  · cases previous.path <;> simp

/-! ## The hypotheses are met -/

def sample : Written :=
  ⟨"HTTPS".toList, some "user:pa@ss".toList, "Service.Example.com".toList, some 8443,
    "/base;v=1/path".toList, some "a=b".toList, some "top".toList⟩

example : sample.Ok :=
  ⟨⟨⟨'H', _, rfl, by decide⟩, by decide⟩,
    fun i hi => by
      have : i = "user:pa@ss".toList := (Option.some.inj hi).symm
      subst this
      unfold Line
      decide,
    by decide,
    fun p hp => by
      have : p = 8443 := (Option.some.inj hp).symm
      omega,
    ⟨.inr ⟨_, rfl⟩, by unfold Line; decide, by decide⟩,
    fun q hq => by
      have : q = "a=b".toList := (Option.some.inj hq).symm
      subst this
      unfold Line
      decide,
    fun q hq => by
      have : q = "top".toList := (Option.some.inj hq).symm
      subst this
      unfold Line
      decide⟩

example : staticResolver plain (some ⟨some (.text (sample.text sample.host)), none⟩) =
    .ok { scheme := "https".toList, host := "service.example.com".toList, port := some 8443,
          path := some "/base;v=1/path".toList, query := some "a=b".toList } := by decide +kernel

example : HostText plain "FE80::1%25Eth0".toList "[FE80::1%25Eth0]".toList := by
  refine .inr ⟨?_, rfl, rfl⟩
  rw [← ipv6Zone_iff, ← fullmatch_iff]
  decide +kernel

example : staticResolver plain (some ⟨some (.text "http://[FE80::1%25Eth0]:80?x".toList), none⟩) =
    .ok { scheme := "http".toList, host := "fe80::1%25Eth0".toList, port := some 80, path := some [],
          query := some "x".toList } := by decide +kernel

example : HostText plain sample.host sample.host := by
  refine .inl ⟨?_, rfl⟩
  rw [← regName_iff, ← fullmatch_iff]
  decide +kernel

example : regionalResolver plain "bedrock-runtime".toList (some ⟨none, some "us-west-2".toList⟩) =
    .ok { host := "bedrock-runtime.us-west-2.amazonaws.com".toList } := by decide +kernel

example : regionalResolver plain "bedrock-runtime".toList (some ⟨none, some "x@evil.com/".toList⟩) =
    .error .host := by decide +kernel

end Verif.Uri.Endpoint
