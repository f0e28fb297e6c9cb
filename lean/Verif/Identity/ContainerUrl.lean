import Verif.Identity.Container
import Verif.Uri.Endpoint

/-!
# The full URI of container credentials (C53)

`Verif.Identity.Container` leaves open how `urlparse` reads a text.  Here it is the `urlparse` of `Verif.Uri.Endpoint`, so
that the destination is known from the text of `AWS_CONTAINER_CREDENTIALS_FULL_URI`.
-/

set_option autoImplicit false

namespace Verif.Identity.ContainerUrl

open Verif.Identity.Container
open Verif.Http.Destination (Uri)
open Verif.Uri.Endpoint (Written HostText Lowers small plain plain_lowers)

variable {J : Type}

/-! ## Model -/

/-- `urlparse(...)` with `hostname` and `port` (container.py:134-140). -/
def parsed (e : Verif.Uri.Endpoint.Env) (t : Text) : Option Parsed :=
  match Verif.Uri.Endpoint.urlparse e t with
  | .error _ => none
  | .ok s =>
    match Verif.Uri.Endpoint.portOf s.netloc with
    | .error _ => none
    | .ok p => some ⟨s.scheme, Verif.Uri.Endpoint.hostname e s.netloc, p, s.path, s.query, s.fragment⟩

/-! ## Theorems -/

theorem parsed_written (e : Verif.Uri.Endpoint.Env) (he : Lowers e) (w : Written) (host : Text) (hw : w.Ok)
    (hh : HostText e w.host host) (hp : ∀ a b, w.path = a ++ ';' :: b → '/' ∈ b) :
    parsed e (w.text host) =
      some ⟨w.scheme.map Char.toLower, some (small w.host), w.port, w.path, w.query.getD [], w.fragment.getD []⟩ := by
  unfold parsed Verif.Uri.Endpoint.urlparse
  simp only [Verif.Uri.Endpoint.urlsplit_eq e he w host hw hh, Verif.Uri.Endpoint.hostname_eq e he w host hw hh,
    Verif.Uri.Endpoint.portOf_eq e w host hw hh, Verif.Uri.Endpoint.withoutParams_eq _ hp, ite_self]

theorem accepted_small (e : Verif.Uri.Endpoint.Env) (w : Written) (host : Text) (hh : HostText e w.host host) :
    Verif.Uri.Host.accepted (small w.host) = true := by
  rw [Verif.Uri.Host.C71_accepted_iff]
  rcases hh with ⟨hr, _⟩ | ⟨h6, _, _⟩
  · exact .inl (.inl (Verif.Uri.Endpoint.regName_small _ hr))
  · exact .inr (.inl (Verif.Uri.Endpoint.ipv6Zone_small _ h6))

/-- The token that is to be sent can be read. -/
def Readable (env : Env) : Prop := ∀ file, env.tokenFile = some file → (env.readFile file).isSome = true

theorem fields_ok (env : Env) (h : Readable env) : ∃ fields, resolveFields env = .ok fields := by
  unfold resolveFields
  cases hf : env.tokenFile with
  | none => cases env.token <;> exact ⟨_, rfl⟩
  | some file =>
    have := h file hf
    simp only
    cases hr : env.readFile file with
    | none => rw [hr] at this; cases this
    | some t => exact ⟨_, rfl⟩

/-- **C53**: a full URI `scheme://userinfo@host:port/path?query#fragment`.  If its host is trusted, the credentials are asked
for at that scheme, host, port and path, at least once if there are attempts; if it is not, nothing is sent to anyone, whatever
the scheme, the user information and the rest of the text are.  (The query and the fragment are dropped, see
`C53_query_fails`, as are parameters of the last segment.) -/
theorem C53_full_uri (e : Verif.Uri.Endpoint.Env) (he : Lowers e) (w : Written) (host : Text) (hw : w.Ok)
    (hh : HostText e w.host host) (hp : ∀ a b, w.path = a ++ ';' :: b → '/' ∈ b)
    (lower : Text → Text) (retries : Int) (env : Env) (world : Nat → Outcome J) (hrel : env.relativeUri = none)
    (hfull : env.fullUri = some (w.text host)) (hread : Readable env) :
    let r := fetch lower (parsed e) retries env world
    (Trusted (small w.host) → (0 < retries → sent r.1 ≠ []) ∧
      ∀ q ∈ sent r.1, q.destination =
        { scheme := w.scheme.map Char.toLower, host := small w.host, port := w.port, path := some w.path }) ∧
    (¬ Trusted (small w.host) → r = ([], .error .unsupportedHost)) := by
  obtain ⟨fields, hf⟩ := fields_ok env hread
  have hu : resolveUri (parsed e) env = .ok
      { scheme := w.scheme.map Char.toLower, host := small w.host, port := w.port, path := some w.path } := by
    unfold resolveUri
    simp only [hrel, hfull, parsed_written e he w host hw hh hp, Option.getD_some, makeUri,
      accepted_small e w host hh, if_true]
  have hr : fetch lower (parsed e) retries env world = getCredentials lower retries world
      { scheme := w.scheme.map Char.toLower, host := small w.host, port := w.port, path := some w.path } fields := by
    unfold fetch
    simp only [hu, hf]
  intro r
  refine ⟨fun ht => ⟨?_, ?_⟩, fun ht => ?_⟩
  · intro hpos
    have h1 := (C53_allowed_iff _).2 ht
    obtain ⟨n, hn⟩ : ∃ n, retries.toNat = n + 1 := ⟨retries.toNat - 1, by omega⟩
    change sent (fetch lower (parsed e) retries env world).1 ≠ []
    rw [hr]
    unfold getCredentials
    rw [h1]
    simp only [Bool.not_true, Bool.false_eq_true, if_false, hn, attempt]
    split
    · exact List.cons_ne_nil _ _
    · exact List.cons_ne_nil _ _
    · split <;> exact List.cons_ne_nil _ _
  · intro q hq
    change q ∈ sent (fetch lower (parsed e) retries env world).1 at hq
    rw [hr] at hq
    exact (C53_only_trusted _ _ _ _ _ q hq).2.2.1
  · change fetch lower (parsed e) retries env world = _
    rw [hr]
    exact C53_refused _ _ _ _ _ ht

/-- **C53**: whatever the text of the full URI is, nothing is sent unless a trusted host is read from it, and then requests go
to that host. -/
theorem C53_any_full_uri (e : Verif.Uri.Endpoint.Env) (lower : Text → Text) (retries : Int) (env : Env)
    (world : Nat → Outcome J) (hrel : env.relativeUri = none) (q : Request)
    (hq : q ∈ sent (fetch lower (parsed e) retries env world).1) :
    Trusted q.destination.host ∧ ∃ url s, env.fullUri = some url ∧ Verif.Uri.Endpoint.urlparse e url = .ok s ∧
      Verif.Uri.Endpoint.hostname e s.netloc = some q.destination.host ∧ q.destination.scheme = s.scheme ∧
      Verif.Uri.Endpoint.portOf s.netloc = .ok q.destination.port ∧ q.destination.path = some s.path := by
  unfold fetch at hq
  cases hu : resolveUri (parsed e) env with
  | error x => rw [hu] at hq; cases hq
  | ok uri =>
    rw [hu] at hq
    cases hf : resolveFields env with
    | error x => rw [hf] at hq; cases hq
    | ok fields =>
      rw [hf] at hq
      obtain ⟨ht, _, hd, _⟩ := C53_only_trusted _ _ _ _ _ q hq
      refine ⟨ht, ?_⟩
      unfold resolveUri at hu
      rw [hrel] at hu
      cases hurl : env.fullUri with
      | none => rw [hurl] at hu; cases hu
      | some url =>
        simp only [hurl, parsed] at hu
        cases hs : Verif.Uri.Endpoint.urlparse e url with
        | error x => rw [hs] at hu; cases hu
        | ok s =>
          rw [hs] at hu
          cases hport : Verif.Uri.Endpoint.portOf s.netloc with
          | error x => simp only [hport] at hu; cases hu
          | ok port =>
            simp only [hport] at hu
            have hv := makeUri_ok _ _ hu
            refine ⟨url, s, rfl, hs, ?_, by rw [hd, hv], by rw [hd, hv]; exact hport, by rw [hd, hv]⟩
            have hh : q.destination.host = (Verif.Uri.Endpoint.hostname e s.netloc).getD [] := by rw [hd, hv]
            cases hn : Verif.Uri.Endpoint.hostname e s.netloc with
            | some n => rw [hn] at hh; rw [hh]; rfl
            | none =>
              rw [hn] at hh
              rw [hh, Option.getD_none, ← C53_allowed_iff] at ht
              exact absurd ht (by decide)

/-- An encrypted URI is refused like any other unless its host is trusted, although the guide for container credentials of the
AWS SDKs allows every host with `https`. -/
theorem C53_https_fails :
    fetch (J := Nat) id (parsed plain) 3
      ⟨none, some "https://creds.example.com/c".toList, none, none, fun _ => none⟩ (fun _ => .response 200 (some 7)) =
    ([], .error .unsupportedHost) := by
  decide +kernel

/-! ## The hypotheses are met -/

/-- A full URI with user information that looks like a trusted host. -/
example : (fetch (J := Nat) id (parsed plain) 3
      ⟨none, some "http://localhost:80@creds.example.com#@localhost".toList, none, none, fun _ => none⟩
      (fun _ => .response 200 (some 7))) = ([], .error .unsupportedHost) := by
  decide +kernel

example : (sent (fetch (J := Nat) id (parsed plain) 3
      ⟨none, some "HTTP://u@LOCALHOST:8080/c?x=1".toList, none, none, fun _ => none⟩
      (fun _ => .response 200 (some 7))).1).map Request.destination =
    [{ scheme := "http".toList, host := "localhost".toList, port := some 8080, path := some "/c".toList }] := by
  decide +kernel

end Verif.Identity.ContainerUrl
