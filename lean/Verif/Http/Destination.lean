import Verif.Fields.Props
import Verif.Text
import Mathlib.Tactic.Common

/-!
# Where a request is sent: service endpoints and API keys (C31, C57, C70)

Models `HttpClientProtocol.set_service_endpoint` (smithy_http/aio/protocols.py:37-68) and
`APIKeySigner.sign` (smithy_http/aio/auth/apikey.py:50-79).
-/

set_option autoImplicit false

namespace Verif.Http.Destination

open Verif.Text

abbrev Text := List Char

/-! ## Model -/

/-- `URI` (smithy_core/__init__.py:30-56).  The check of the host in `__post_init__` is outside this
model (see `Verif.Uri.Host`). -/
structure Uri where
  scheme : Text := "https".toList
  username : Option Text := none
  password : Option Text := none
  host : Text
  port : Option Nat := none
  path : Option Text := none
  query : Option Text := none
  fragment : Option Text := none
  deriving DecidableEq, Repr

/-- `a or b` for strings: the first one that is neither `None` nor empty, else `b`. -/
def orText (a b : Option Text) : Option Text :=
  match a with
  | none => b
  | some t => if t = [] then b else some t

/-- `a or b` for ports. -/
def orPort (a b : Option Nat) : Option Nat :=
  match a with
  | none => b
  | some n => if n = 0 then b else some n

/-- `t.lstrip("/")`. -/
def stripSlashes (t : Text) : Text := t.dropWhile fun c => c = '/'

/-- `os.path.join(a, b)` of POSIX for two parts. -/
def pathJoin (a b : Text) : Text :=
  if b.head? = some '/' then b
  else if a = [] ∨ a.getLast? = some '/' then a ++ b
  else a ++ '/' :: b

/-- `set_service_endpoint` (protocols.py:37-68): the new destination, from the endpoint's and the
previous one. -/
def setEndpoint (uri previous : Uri) : Uri :=
  let path := match uri.path, previous.path with
    | some e, some p => some (pathJoin e (stripSlashes p))
    | _, _ => orText previous.path uri.path
  let path := match path with
    | some p => if p.head? = some '/' then some p else some ('/' :: p)
    | none => none
  let query := match uri.query, previous.query with
    | some e, some p => if e ≠ [] ∧ p ≠ [] then some (e ++ '&' :: p) else orText (some p) (some e)
    | e, p => orText p e
  { scheme := uri.scheme
    username := orText uri.username previous.username
    password := orText uri.password previous.password
    host := uri.host
    port := orPort uri.port previous.port
    path := path
    query := query
    fragment := orText uri.fragment previous.fragment }

/-- A request: everything else is in `rest` (`HTTPRequest`, smithy_http/aio/__init__.py:14-20). -/
structure Request (R : Type) where
  destination : Uri
  fields : Fields.St Text
  rest : R

/-- `APIKeyLocation` -/
inductive Location where
  | query
  | header

/-- `APIKeySigner` (apikey.py:43-48). -/
structure Signer where
  name : Text
  location : Location
  scheme : Option Text

/-- `APIKeySigner.sign` (apikey.py:50-79).  In line 69 the path is set to the password. -/
def sign {R : Type} (lower : Text → Text) (s : Signer) (key : Text) (r : Request R) : Request R :=
  match s.location with
  | .query =>
    let query := r.destination.query.getD []
    let query := if query ≠ [] then query ++ ['&'] else query
    let query := query ++ s.name ++ '=' :: key
    { r with destination :=
      { scheme := r.destination.scheme
        username := r.destination.username
        password := r.destination.password
        host := r.destination.host
        port := r.destination.port
        path := r.destination.password
        query := some query
        fragment := r.destination.fragment } }
  | .header =>
    let value := match s.scheme with
      | some scheme => scheme ++ ' ' :: key
      | none => key
    { r with fields := (r.fields.step lower (.setField ⟨s.name, [value], .header⟩)).1 }

/-! ## Specification -/

/-- The parameters of a query. -/
def params (q : Option Text) : List Text :=
  match q with
  | none => []
  | some q => if q = [] then [] else split '&' q

/-- A path without one slash at its end. -/
def dropSlash (t : Text) : Text := if t.getLast? = some '/' then t.dropLast else t

/-- A path starting with a slash, or empty. -/
def rooted (t : Text) : Text :=
  match t with
  | [] => []
  | c :: r => if c = '/' then c :: r else '/' :: c :: r

/-- What the serializer makes of an operation: no scheme, port, credentials or fragment of its own
(smithy_http/serializers.py:191-198). -/
def Serialized (u : Uri) : Prop :=
  u.username = none ∧ u.password = none ∧ u.port = none ∧ u.fragment = none

/-- An endpoint whose optional parts are absent or not empty. -/
def NonEmpty (u : Uri) : Prop :=
  u.username ≠ some [] ∧ u.password ≠ some [] ∧ u.port ≠ some 0 ∧ u.fragment ≠ some []

/-! ## Theorems -/

theorem orText_none (a : Option Text) (h : a ≠ some []) : orText a none = a := by
  cases a with
  | none => rfl
  | some t =>
    have : t ≠ [] := fun e => h (by rw [e])
    simp [orText, this]

/-- **C57**: for a request made by the serializer, scheme, host, port, credentials and fragment of the
destination are the endpoint's. -/
theorem C57_authority (uri previous : Uri) (hp : Serialized previous) (hu : NonEmpty uri) :
    let d := setEndpoint uri previous
    d.scheme = uri.scheme ∧ d.host = uri.host ∧ d.port = uri.port ∧ d.username = uri.username ∧
      d.password = uri.password ∧ d.fragment = uri.fragment := by
  obtain ⟨p1, p2, p3, p4⟩ := hp
  obtain ⟨u1, u2, u3, u4⟩ := hu
  simp only [setEndpoint]
  rw [p1, p2, p3, p4]
  refine ⟨trivial, trivial, ?_, orText_none _ u1, orText_none _ u2, orText_none _ u4⟩
  cases h : uri.port with
  | none => rfl
  | some n =>
    have : n ≠ 0 := fun e => u3 (by rw [h, e])
    simp [orPort, this]

/-- **C57**: whatever the request, scheme and host are the endpoint's, and so are the port, credentials
and fragment the endpoint has. -/
theorem C57_authority_wins (uri previous : Uri) :
    let d := setEndpoint uri previous
    d.scheme = uri.scheme ∧ d.host = uri.host ∧
      (∀ n, uri.port = some n → n ≠ 0 → d.port = some n) ∧
      (∀ t, uri.username = some t → t ≠ [] → d.username = some t) ∧
      (∀ t, uri.password = some t → t ≠ [] → d.password = some t) ∧
      (∀ t, uri.fragment = some t → t ≠ [] → d.fragment = some t) := by
  have key : ∀ (a b : Option Text) (t : Text), a = some t → t ≠ [] → orText a b = some t := by
    rintro a b t rfl ht; simp [orText, ht]
  refine ⟨rfl, rfl, ?_, fun t => key _ _ t, fun t => key _ _ t, fun t => key _ _ t⟩
  intro n h hn
  simp only [setEndpoint]
  rw [h]; simp [orPort, hn]

/-- **C57** for other requests is false: with an endpoint that has no port or credentials, those of the
request are used with the endpoint's host. -/
theorem C57_authority_fails :
    let d := setEndpoint { host := "service".toList }
      { host := "elsewhere".toList, port := some 8080, username := some "me".toList }
    d.host = "service".toList ∧ d.port = some 8080 ∧ d.username = some "me".toList := by
  decide +kernel

theorem rooted_or (t : Text) (ht : t ≠ []) :
    (if t.head? = some '/' then some t else some ('/' :: t)) = some (rooted t) := by
  cases t with
  | nil => exact absurd rfl ht
  | cons c r =>
    simp only [List.head?_cons, Option.some.injEq, rooted]
    split <;> rfl

theorem stripSlashes_head (t : Text) : (stripSlashes t).head? ≠ some '/' := by
  unfold stripSlashes
  induction t with
  | nil => simp
  | cons c t ih =>
    rw [List.dropWhile_cons]
    split
    · exact ih
    · next h => simpa using h

/-- **C57**: when endpoint and request both have a path, the new path is the endpoint's, a single slash
and the request's without its leading slashes. -/
theorem C57_path (uri previous : Uri) (e p : Text) (he : uri.path = some e)
    (hp : previous.path = some p) :
    (setEndpoint uri previous).path = some (rooted (dropSlash e) ++ '/' :: stripSlashes p) := by
  have hs := stripSlashes_head p
  have key : ∀ t : Text, t ≠ [] → pathJoin e (stripSlashes p) = t →
      (setEndpoint uri previous).path = some (rooted t) := by
    intro t ht h
    simp only [setEndpoint, he, hp, h]
    exact rooted_or t ht
  generalize hq : stripSlashes p = q at hs key ⊢
  by_cases h0 : e = []
  · subst h0
    simp only [setEndpoint, he, hp, hq]
    have hj : pathJoin [] q = q := by
      unfold pathJoin; rw [if_neg hs]; simp
    rw [hj, if_neg hs]
    rfl
  · by_cases hl : e.getLast? = some '/'
    · have hj : pathJoin e q = e ++ q := by
        unfold pathJoin; rw [if_neg hs, if_pos (.inr hl)]
      rw [key _ (by simp [h0]) hj]
      obtain ⟨e', rfl⟩ : ∃ e', e = e' ++ ['/'] := by
        refine ⟨e.dropLast, ?_⟩
        have h2 := List.dropLast_append_getLast h0
        rw [List.getLast?_eq_some_getLast h0] at hl
        rw [Option.some.inj hl] at h2
        exact h2.symm
      have hd : dropSlash (e' ++ ['/']) = e' := by
        simp [dropSlash]
      rw [hd]
      cases e' with
      | nil => simp [rooted]
      | cons c e' =>
        simp only [List.cons_append, rooted]
        split <;> simp
    · have hj : pathJoin e q = e ++ '/' :: q := by
        unfold pathJoin; rw [if_neg hs, if_neg (by rintro (h | h); exacts [h0 h, hl h])]
      rw [key _ (by simp [h0]) hj]
      have hd : dropSlash e = e := by simp [dropSlash, hl]
      rw [hd]
      cases e with
      | nil => exact absurd rfl h0
      | cons c e =>
        simp only [List.cons_append, rooted]
        split <;> simp

/-- **C57**: when only one of them has a path, that path is used, starting with a slash. -/
theorem C57_single_path (uri previous : Uri) (p : Text) (hne : p ≠ [])
    (h : (uri.path = none ∧ previous.path = some p) ∨ (uri.path = some p ∧ previous.path = none)) :
    (setEndpoint uri previous).path = some (rooted p) := by
  rcases h with ⟨h1, h2⟩ | ⟨h1, h2⟩
  · simp only [setEndpoint, h1, h2, orText, if_neg hne]
    exact rooted_or p hne
  · simp only [setEndpoint, h1, h2, orText]
    exact rooted_or p hne

/-- What is lost: leading empty segments of the request's path (the label of a key that starts with a
slash) disappear when the endpoint has a path, even the path `/`. -/
theorem C57_leading_slashes_fails :
    (setEndpoint { host := "h".toList, path := some "/".toList }
        { host := [], path := some "//key".toList }).path = some "/key".toList ∧
      (setEndpoint { host := "h".toList } { host := [], path := some "//key".toList }).path =
        some "//key".toList := by
  decide +kernel

theorem params_append (q p : Text) (hq : q ≠ []) (hp : p ≠ []) :
    params (some (q ++ '&' :: p)) = params (some q) ++ params (some p) := by
  simp only [params]
  rw [if_neg (by simp), if_neg hq, if_neg hp]
  clear hq
  induction hn : q.length using Nat.strongRecOn generalizing q with
  | _ n ih =>
    by_cases hm : '&' ∈ q
    · obtain ⟨a, b, rfl, ha⟩ := List.eq_append_cons_of_mem hm
      have := ih b.length (by simp at hn; omega) b rfl
      rw [List.append_assoc, List.cons_append, split_append _ _ _ ha, split_append _ _ _ ha, this,
        List.cons_append]
    · rw [split_append _ _ _ hm, split_of_not_mem _ _ hm]; rfl

/-- **C57**: the parameters of the new query are those of the endpoint's query followed by those of the
request's. -/
theorem C57_query (uri previous : Uri) :
    params (setEndpoint uri previous).query = params uri.query ++ params previous.query := by
  simp only [setEndpoint]
  cases he : uri.query with
  | none =>
    cases hp : previous.query with
    | none => rfl
    | some p =>
      simp only [orText]
      by_cases h : p = []
      · simp [h, params]
      · simp [h, params]
  | some e =>
    cases hp : previous.query with
    | none => simp [orText, params]
    | some p =>
      simp only
      by_cases h : e ≠ [] ∧ p ≠ []
      · rw [if_pos h]; exact params_append e p h.1 h.2
      · rw [if_neg h]
        by_cases hpe : p = []
        · subst hpe; simp [orText, params]
        · have : e = [] := by by_contra hc; exact h ⟨hc, hpe⟩
          subst this; simp [orText, hpe, params]

/-- **C70** is false: the serializer puts the modeled host prefix (with its labels) into the host of the
destination, and setting the endpoint drops it: whatever the prefix, the destination is the same. -/
theorem C70_host_prefix_fails (uri previous : Uri) (pre : Text) :
    setEndpoint uri { previous with host := pre } = setEndpoint uri previous := rfl

/-- What is left of **C70**: the request goes to the prefix followed by the host of the endpoint exactly if the
prefix, which the serializer made the host of the request, is empty. -/
theorem C70_host_prefix_partial (uri previous : Uri) :
    (setEndpoint uri previous).host = previous.host ++ uri.host ↔ previous.host = [] := by
  constructor
  · intro h
    have h' := congrArg List.length h
    simp only [setEndpoint, List.length_append] at h'
    exact List.length_eq_zero_iff.1 (by omega)
  · intro h
    rw [h]
    rfl

/-- A request with the prefix `data.` that is sent without it. -/
example : (setEndpoint { host := "example.com".toList } { host := "data.".toList }).host = "example.com".toList := by
  decide +kernel

theorem put_filter (lower : Text → Text) (c : List (Fields.Field Text)) (f : Fields.Field Text)
    (hdist : Fields.Distinct lower c) :
    ((Fields.put lower c f).filter fun g => !decide (lower g.name = lower f.name)) =
      (c.filter fun g => !decide (lower g.name = lower f.name)) ∧
    ((Fields.put lower c f).filter fun g => lower g.name = lower f.name) = [f] := by
  unfold Fields.put
  by_cases hm : (Fields.lookup lower c f.name).isSome = true
  · rw [if_pos hm]
    unfold Fields.lookup at hm
    unfold Fields.Distinct at hdist
    unfold Fields.same at hm ⊢
    induction c with
    | nil => simp at hm
    | cons g c ih =>
      rw [List.pairwise_cons] at hdist
      by_cases hg : lower g.name = lower f.name
      · have hrest : ∀ x ∈ c, ¬ lower x.name = lower f.name := fun x hx h =>
          hdist.1 x hx (hg.trans h.symm)
        have hmap : (c.map fun x => if decide (lower x.name = lower f.name) = true then f else x) =
            c := by
          conv_rhs => rw [← List.map_id c]
          apply List.map_congr_left
          intro x hx
          simp [hrest x hx]
        have hno : (c.filter fun x => decide (lower x.name = lower f.name)) = [] := by
          rw [List.filter_eq_nil_iff]
          intro x hx
          simp [hrest x hx]
        simp only [List.map_cons, hmap]
        simp [hg, hno]
      · have hm' : (c.find? fun x => decide (lower x.name = lower f.name)).isSome = true := by
          simpa [hg] using hm
        obtain ⟨i1, i2⟩ := ih hdist.2 hm'
        simp only [List.map_cons]
        simp only [hg, decide_false, Bool.false_eq_true, if_false]
        simp only [List.filter_cons, hg, decide_false, Bool.not_false, if_true, Bool.false_eq_true,
          if_false]
        exact ⟨by rw [i1], i2⟩
  · rw [if_neg hm]
    have hno : (c.filter fun x => decide (lower x.name = lower f.name)) = [] := by
      rw [List.filter_eq_nil_iff]
      intro x hx h
      apply hm
      unfold Fields.lookup
      rw [List.find?_isSome]
      exact ⟨x, hx, h⟩
    constructor
    · simp
    · rw [List.filter_append, hno]; simp

/-- **C31** for a key in a header: the destination and everything else stay, all other fields stay in
their order, and exactly one field has the name: the one with the key. -/
theorem C31_header {R : Type} (lower : Text → Text) (s : Signer) (key : Text) (r : Request R)
    (ops : List (Fields.Op Text)) (hr : r.fields = (Fields.St.run lower ⟨[], []⟩ ops).1)
    (hs : s.location = .header) :
    let fs := Fields.fields r.fields.heap r.fields.entries
    let r' := sign lower s key r
    let fs' := Fields.fields r'.fields.heap r'.fields.entries
    r'.destination = r.destination ∧ r'.rest = r.rest ∧
    (fs'.filter fun f => !decide (lower f.name = lower s.name)) =
      (fs.filter fun f => !decide (lower f.name = lower s.name)) ∧
    (fs'.filter fun f => lower f.name = lower s.name) =
      [⟨s.name, [match s.scheme with | some sch => sch ++ ' ' :: key | none => key], .header⟩] := by
  simp only
  obtain ⟨-, hrep⟩ := Fields.run_spec (lower := lower) ops ⟨[], []⟩ []
    ⟨.nil, by simp, by simp⟩
  rw [← hr] at hrep
  simp only [sign, hs]
  generalize hv : (match s.scheme with | some sch => sch ++ ' ' :: key | none => key) = value
  refine ⟨trivial, trivial, ?_⟩
  generalize (Fields.specRun lower [] ops).1 = c at hrep
  have hdist := hrep.distinct
  have hstep : Fields.Rep lower
      (r.fields.step lower (.setField ⟨s.name, [value], .header⟩)).1.heap
      (r.fields.step lower (.setField ⟨s.name, [value], .header⟩)).1.entries
      (Fields.put lower c ⟨s.name, [value], .header⟩) := by
    have hget : (r.fields.heap ++ [(⟨s.name, [value], .header⟩ : Fields.Field Text)])[
        r.fields.heap.length]? = some ⟨s.name, [value], .header⟩ := by simp
    simp only [Fields.St.step, Fields.setField, hget, Fields.setItem, if_true]
    refine Fields.rep_put (Fields.rep_append hrep _) _ _ hget ?_
    intro hm
    exact absurd (Fields.rep_lt hrep _ hm) (by omega)
  rw [Fields.forall2_fields hstep.all, Fields.forall2_fields hrep.all]
  exact put_filter lower c ⟨s.name, [value], .header⟩ hdist

/-- **C31** for a key in the query, what does hold: the fields and everything else stay, and so do all
parts of the destination but path and query; the query gets one more parameter. -/
theorem C31_query_partial {R : Type} (lower : Text → Text) (s : Signer) (key : Text) (r : Request R)
    (hs : s.location = .query) (hn : '&' ∉ s.name) (hk : '&' ∉ key) :
    let r' := sign lower s key r
    let d := r.destination
    r'.fields = r.fields ∧ r'.rest = r.rest ∧
    params r'.destination.query = params d.query ++ [s.name ++ '=' :: key] ∧
    { r'.destination with path := d.path, query := d.query } = d := by
  simp only [sign, hs]
  refine ⟨trivial, trivial, ?_, trivial⟩
  have hkey : ∀ t : Text, t = s.name ++ '=' :: key → params (some t) = [t] := by
    rintro t rfl
    simp only [params]
    rw [if_neg (by simp), split_of_not_mem _ _ (by simp [hn, hk])]
  cases hq : r.destination.query with
  | none =>
    simp only [Option.getD_none, ne_eq, not_true_eq_false, if_false, List.nil_append]
    rw [hkey _ rfl]; rfl
  | some q =>
    by_cases he : q = []
    · subst he
      simp only [Option.getD_some, ne_eq, not_true_eq_false, if_false, List.nil_append]
      rw [hkey _ rfl]; rfl
    · simp only [Option.getD_some, ne_eq, he, not_false_eq_true, if_true]
      have := params_append q (s.name ++ '=' :: key) he (by simp)
      rw [hkey _ rfl] at this
      rw [← this]
      simp

/-- **C31** is false for the query: the path is replaced by the password, which is usually absent. -/
theorem C31_query_path_fails :
    (sign id ⟨"k".toList, .query, none⟩ "secret".toList
      ⟨{ host := "h".toList, path := some "/a/b".toList }, ⟨[], []⟩, ()⟩).destination.path = none := by
  decide +kernel

/-- The key is put into the query as it is: a `&` in it starts another parameter. -/
theorem C31_query_key_fails :
    params (sign id ⟨"k".toList, .query, none⟩ "a&b=c".toList
      ⟨{ host := "h".toList }, ⟨[], []⟩, ()⟩).destination.query = ["k=a".toList, "b=c".toList] := by
  decide +kernel

/-! ## The hypotheses are met -/

def exampleEndpoint : Uri :=
  { host := "h".toList, port := some 8080, path := some "/v1/".toList, query := some "a=1".toList }

def exampleRequest : Uri :=
  { host := [], path := some "/x/y".toList, query := some "b=2".toList }

example : setEndpoint exampleEndpoint exampleRequest =
    { exampleEndpoint with path := some "/v1/x/y".toList, query := some "a=1&b=2".toList } := by
  decide +kernel

example : Serialized exampleRequest ∧ NonEmpty exampleEndpoint := by
  refine ⟨⟨?_, ?_, ?_, ?_⟩, ⟨?_, ?_, ?_, ?_⟩⟩ <;> decide

def exampleFields : Fields.St Text :=
  (Fields.St.run Fields.ascii ⟨[], []⟩
    [.setField ⟨"x-key".toList, ["old".toList], .header⟩,
     .setField ⟨"Accept".toList, ["b".toList], .header⟩]).1

def exampleSigned : Request Unit :=
  sign Fields.ascii ⟨"X-Key".toList, .header, some "ApiKey".toList⟩ "k".toList
    ⟨exampleEndpoint, exampleFields, ()⟩

example : Fields.fields exampleSigned.fields.heap exampleSigned.fields.entries =
    [⟨"X-Key".toList, ["ApiKey k".toList], .header⟩, ⟨"Accept".toList, ["b".toList], .header⟩] := by
  decide +kernel

end Verif.Http.Destination
