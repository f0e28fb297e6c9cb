import Verif.Uri.Host
import Verif.Http.Destination

/-!
# The text of a URI (C72)

Models `URI.netloc` and `URI.build` (smithy_core/__init__.py:65-126), with `urllib.parse.urlunparse`
for URIs without parameters.
-/

set_option autoImplicit false

namespace Verif.Uri.Build

open Verif.Text Verif.Uri.Host
open Verif.Http.Destination (Uri rooted)

abbrev Text := List Char

/-! ## Model -/

/-- `URI.netloc` (smithy_core/__init__.py:78-95).  `natText` is `str` of a number. -/
def netloc (natText : Nat → Text) (u : Uri) : Text :=
  let userinfo := match u.username with
    | some user => user ++ (match u.password with | none => [] | some p => ':' :: p) ++ ['@']
    | none => []
  let port := match u.port with
    | some p => ':' :: natText p
    | none => []
  let host := if hostType u.host = .ipv6 then '[' :: u.host ++ [']'] else u.host
  userinfo ++ host ++ port

/-- `urlunsplit` of Python's `urllib.parse`.  `usesNetloc` tells whether a scheme is in the module's list
`uses_netloc`. -/
def unsplit (usesNetloc : Text → Bool) (scheme netloc url : Text) (query fragment : Option Text) :
    Text :=
  let url :=
    if netloc ≠ [] then
      let url := if url ≠ [] ∧ url.head? ≠ some '/' then '/' :: url else url
      "//".toList ++ netloc ++ url
    else if url.take 2 = "//".toList then "//".toList ++ url
    else if scheme ≠ [] ∧ usesNetloc scheme ∧ (url = [] ∨ url.head? = some '/') then
      "//".toList ++ url
    else url
  let url := if scheme ≠ [] then scheme ++ ':' :: url else url
  let url := match query with
    | some q => if q ≠ [] then url ++ '?' :: q else url
    | none => url
  match fragment with
  | some f => if f ≠ [] then url ++ '#' :: f else url
  | none => url

/-- `URI.build` (smithy_core/__init__.py:112-126). -/
def build (natText : Nat → Text) (usesNetloc : Text → Bool) (u : Uri) : Text :=
  unsplit usesNetloc u.scheme (netloc natText u) (u.path.getD []) u.query u.fragment

/-! ## Specification

Reading a URI, as RFC 3986 (section 3 and appendix B) takes it apart. -/

structure Parts where
  scheme : Text
  authority : Option Text
  path : Text
  query : Option Text
  fragment : Option Text
  deriving DecidableEq, Repr

/-- The components of an absolute URI: the fragment starts at the first `#`, the query at the first `?`
before it, the scheme ends at the first `:`, the authority starts with `//` and ends before the next
`/`. -/
def read (t : Text) : Parts :=
  let f := cut '#' t
  let q := cut '?' f.1
  let s := cut ':' q.1
  match s.2 with
  | some ('/' :: '/' :: r) =>
    ⟨s.1, some (r.takeWhile fun c => c ≠ '/'), r.dropWhile fun c => c ≠ '/', q.2, f.2⟩
  | r => ⟨s.1, none, r.getD [], q.2, f.2⟩

structure Authority where
  username : Option Text
  password : Option Text
  host : Text
  port : Option Text
  deriving DecidableEq, Repr

/-- Host and port: a host in brackets ends with the bracket, any other at the first colon. -/
def readHost (t : Text) : Text × Option Text :=
  match t with
  | '[' :: r =>
    let b := cut ']' r
    ('[' :: b.1 ++ [']'], (cut ':' (b.2.getD [])).2)
  | t => cut ':' t

/-- The parts of an authority: user information ends at the first `@`, the password starts after the
first colon in it. -/
def readAuthority (t : Text) : Authority :=
  match cut '@' t with
  | (h, none) => ⟨none, none, (readHost h).1, (readHost h).2⟩
  | (info, some h) =>
    ⟨some (cut ':' info).1, (cut ':' info).2, (readHost h).1, (readHost h).2⟩

/-- The components that need no encoding: none has a character that ends it.  (The code encodes
nothing here; it expects encoded components.) -/
structure Clean (u : Uri) : Prop where
  scheme : u.scheme ≠ [] ∧ ∀ c ∈ u.scheme, c ≠ ':' ∧ c ≠ '/' ∧ c ≠ '?' ∧ c ≠ '#'
  username : ∀ t, u.username = some t → ∀ c ∈ t, c ≠ ':' ∧ c ≠ '@' ∧ c ≠ '/' ∧ c ≠ '?' ∧ c ≠ '#'
  password : ∀ t, u.password = some t → ∀ c ∈ t, c ≠ '@' ∧ c ≠ '/' ∧ c ≠ '?' ∧ c ≠ '#'
  host : u.host ≠ [] ∧ (Valid u.host ∨ IPv6Zone u.host)
  path : ∀ t, u.path = some t → ∀ c ∈ t, c ≠ '?' ∧ c ≠ '#'
  query : ∀ t, u.query = some t → '#' ∉ t

/-- The host as it is written: addresses of version 6 in brackets. -/
def Written (host written : Text) : Prop :=
  (IPv6Zone host ∧ written = '[' :: host ++ [']']) ∨ (¬ IPv6Zone host ∧ written = host)

/-- An absent or empty component is left out. -/
def some? (t : Option Text) : Option Text := if t = some [] then none else t

/-! ## Theorems -/

def Ends (c : Char) : Prop := c = '/' ∨ c = '?' ∨ c = '#' ∨ c = '@'

theorem host_clean (u : Uri) (h : Clean u) (c : Char) (hc : c ∈ u.host) : ¬ Ends c := by
  intro he
  have hd : Delimiter c := by unfold Ends at he; unfold Delimiter; tauto
  rcases h.host.2 with hv | hv
  · exact valid_delimiter _ hv c hc hd
  · exact ipv6_delimiter _ hv c hc hd

theorem cut_append_none (sep : Char) (a : Text) (h : sep ∉ a) (b : Option Text) (t : Text)
    (ht : t = match b with | none => a | some b => a ++ sep :: b) : cut sep t = (a, b) := by
  cases b with
  | none => simp only at ht; rw [ht, cut_of_not_mem _ _ h]
  | some b => simp only at ht; rw [ht, cut_append _ _ _ h]

/-- What is written for the host. -/
def hostText (u : Uri) : Text := if hostType u.host = .ipv6 then '[' :: u.host ++ [']'] else u.host

theorem hostText_clean (u : Uri) (h : Clean u) (c : Char) (hc : c ∈ hostText u) : ¬ Ends c := by
  unfold hostText at hc
  split at hc
  · intro he
    have : c = '[' ∨ c ∈ u.host ∨ c = ']' := by simpa using hc
    rcases this with rfl | hc | rfl
    · revert he; unfold Ends; decide
    · exact host_clean u h c hc he
    · revert he; unfold Ends; decide
  · exact host_clean u h c hc

theorem hostText_ne (u : Uri) (h : Clean u) : hostText u ≠ [] := by
  unfold hostText
  split
  · simp
  · exact h.host.1

def userText (u : Uri) : Text :=
  match u.username with
  | some user => user ++ (match u.password with | none => [] | some p => ':' :: p) ++ ['@']
  | none => []

def portText (natText : Nat → Text) (u : Uri) : Text :=
  match u.port with
  | some p => ':' :: natText p
  | none => []

theorem netloc_eq (natText : Nat → Text) (u : Uri) :
    netloc natText u = userText u ++ hostText u ++ portText natText u := rfl

variable {natText : Nat → Text}

theorem netloc_chars (hn : ∀ n, ∀ c ∈ natText n, isDigit c = true) (u : Uri) (h : Clean u) (c : Char)
    (hc : c ∈ netloc natText u) : c ≠ '/' ∧ c ≠ '?' ∧ c ≠ '#' := by
  rw [netloc_eq, List.mem_append, List.mem_append] at hc
  rcases hc with (hc | hc) | hc
  · unfold userText at hc
    cases hu : u.username with
    | none => rw [hu] at hc; cases hc
    | some user =>
      rw [hu] at hc
      simp only [List.mem_append, List.mem_singleton] at hc
      rcases hc with (hc | hc) | rfl
      · have := h.username user hu c hc; tauto
      · cases hp : u.password with
        | none => rw [hp] at hc; cases hc
        | some p =>
          rw [hp] at hc
          rcases List.mem_cons.1 hc with rfl | hc
          · decide
          · have := h.password p hp c hc; tauto
      · decide
  · have := hostText_clean u h c hc
    unfold Ends at this; tauto
  · unfold portText at hc
    cases hp : u.port with
    | none => rw [hp] at hc; cases hc
    | some p =>
      rw [hp] at hc
      rcases List.mem_cons.1 hc with rfl | hc
      · decide
      · have := hn p c hc
        refine ⟨?_, ?_, ?_⟩ <;> · rintro rfl; revert this; decide

theorem netloc_ne (u : Uri) (h : Clean u) : netloc natText u ≠ [] := by
  rw [netloc_eq]
  simp [hostText_ne u h]

theorem rooted_head (p : Text) : (rooted p = [] ∧ p = []) ∨ ∃ r, rooted p = '/' :: r := by
  cases p with
  | nil => exact .inl ⟨rfl, rfl⟩
  | cons c p =>
    right
    by_cases h : c = '/'
    · exact ⟨p, by simp [rooted, h]⟩
    · exact ⟨c :: p, by simp [rooted, h]⟩

theorem path_rooted (p : Text) :
    (if p ≠ [] ∧ p.head? ≠ some '/' then '/' :: p else p) = rooted p := by
  cases p with
  | nil => rfl
  | cons c p =>
    by_cases h : c = '/'
    · simp [h, rooted]
    · simp [h, rooted]

theorem mem_rooted (p : Text) (c : Char) (hc : c ∈ rooted p) : c = '/' ∨ c ∈ p := by
  cases p with
  | nil => cases hc
  | cons d p =>
    by_cases h : d = '/'
    · simp only [rooted, if_pos h] at hc; exact .inr hc
    · simp only [rooted, if_neg h] at hc; exact List.mem_cons.1 hc

theorem takeWhile_append_stop (a b : Text) (ha : ∀ c ∈ a, c ≠ '/')
    (hb : b = [] ∨ ∃ r, b = '/' :: r) :
    ((a ++ b).takeWhile fun c => decide (c ≠ '/')) = a ∧
      ((a ++ b).dropWhile fun c => decide (c ≠ '/')) = b := by
  induction a with
  | nil =>
    rcases hb with rfl | ⟨r, rfl⟩ <;> simp
  | cons x a ih =>
    obtain ⟨h1, h2⟩ := ih fun c hc => ha c (by simp [hc])
    have hx : x ≠ '/' := ha x (by simp)
    constructor
    · rw [List.cons_append, List.takeWhile_cons_of_pos (by simpa using hx), h1]
    · rw [List.cons_append, List.dropWhile_cons_of_pos (by simpa using hx), h2]

theorem tail_eq (base : Text) (query fragment : Option Text) :
    (match fragment with
      | some f =>
        if f ≠ [] then
          (match query with
            | some q => if q ≠ [] then base ++ '?' :: q else base
            | none => base) ++ '#' :: f
        else
          match query with
          | some q => if q ≠ [] then base ++ '?' :: q else base
          | none => base
      | none =>
        match query with
        | some q => if q ≠ [] then base ++ '?' :: q else base
        | none => base) =
      match some? fragment with
      | none => (match some? query with | none => base | some q => base ++ '?' :: q)
      | some f => (match some? query with | none => base | some q => base ++ '?' :: q) ++ '#' :: f := by
  have hq : (match query with
      | some q => if q ≠ [] then base ++ '?' :: q else base
      | none => base) = (match some? query with | none => base | some q => base ++ '?' :: q) := by
    cases query with
    | none => rfl
    | some q =>
      by_cases hqe : q = []
      · subst hqe; rfl
      · simp [some?, hqe]
  cases fragment with
  | none => exact hq
  | some f =>
    by_cases hfe : f = []
    · subst hfe; exact hq
    · simp only [hq, some?, hfe, ne_eq, not_false_eq_true, if_true, Option.some.injEq, if_false]

/-- **C72**: the text of a URI is taken apart into the components it was built from: its scheme, its
authority, its path (starting with a slash if there is one), query and fragment. -/
theorem C72_components (usesNetloc : Text → Bool) (hn : ∀ n, ∀ c ∈ natText n, isDigit c = true)
    (u : Uri) (h : Clean u) :
    read (build natText usesNetloc u) =
      ⟨u.scheme, some (netloc natText u), rooted (u.path.getD []), some? u.query,
        some? u.fragment⟩ := by
  have hnet := netloc_ne (natText := natText) u h
  have hpath : ∀ c ∈ rooted (u.path.getD []), c ≠ '?' ∧ c ≠ '#' := by
    intro c hc
    rcases mem_rooted _ _ hc with rfl | hc
    · decide
    · cases hp : u.path with
      | none => rw [hp] at hc; cases hc
      | some p => rw [hp] at hc; exact h.path p hp c hc
  let base := u.scheme ++ ':' :: ("//".toList ++ netloc natText u ++ rooted (u.path.getD []))
  have hbase : ∀ c ∈ base, c ≠ '?' ∧ c ≠ '#' := by
    intro c hc
    simp only [base, List.mem_append, List.mem_cons] at hc
    rcases hc with hc | rfl | (hc | hc) | hc
    · have := h.scheme.2 c hc; tauto
    · decide
    · have : c = '/' := by simpa using hc
      subst this; decide
    · have := netloc_chars hn u h c hc; tauto
    · exact hpath c hc
  let withQuery := match some? u.query with | none => base | some q => base ++ '?' :: q
  have hwq : '#' ∉ withQuery := by
    intro hc
    simp only [withQuery] at hc
    cases hq : some? u.query with
    | none => rw [hq] at hc; exact (hbase _ hc).2 rfl
    | some q =>
      have hq' : u.query = some q := by
        unfold some? at hq
        split at hq
        · cases hq
        · exact hq
      rw [hq] at hc
      simp only [List.mem_append, List.mem_cons] at hc
      rcases hc with hc | hc | hc
      · exact (hbase _ hc).2 rfl
      · revert hc; decide
      · exact h.query q hq' hc
  have htext : build natText usesNetloc u =
      match some? u.fragment with | none => withQuery | some f => withQuery ++ '#' :: f := by
    unfold build unsplit
    simp only [if_pos hnet, path_rooted, if_pos h.scheme.1]
    exact tail_eq base u.query u.fragment
  have c1 := cut_append_none '#' withQuery hwq (some? u.fragment) _ htext
  have c2 := cut_append_none '?' base (fun hc => (hbase _ hc).1 rfl) (some? u.query) withQuery rfl
  have c3 : cut ':' base = (u.scheme, some ("//".toList ++ netloc natText u ++
      rooted (u.path.getD []))) :=
    cut_append _ _ _ fun hc => (h.scheme.2 _ hc).1 rfl
  obtain ⟨t1, t2⟩ := takeWhile_append_stop (netloc natText u) (rooted (u.path.getD []))
    (fun c hc => (netloc_chars hn u h c hc).1)
    ((rooted_head _).imp (fun h => h.1) id)
  unfold read
  simp only [c1, c2, c3]
  have hlit : "//".toList ++ netloc natText u ++ rooted (u.path.getD []) =
      '/' :: '/' :: (netloc natText u ++ rooted (u.path.getD [])) := rfl
  rw [hlit]
  simp only [t1, t2]

theorem colon_class : isUnreserved ':' = false ∧ isSubDelimiter ':' = false ∧ isDigit ':' = false ∧
    isUnreserved '[' = false ∧ isSubDelimiter '[' = false ∧ isDigit '[' = false := by decide

theorem encoded_not_mem (p : Char → Bool) (c : Char) (hp : p c = false) (hx : isHex c = false)
    (hc : c ≠ '%') (t : Text) (h : Encoded p t) : c ∉ t := by
  obtain ⟨us, rfl, hu⟩ := h
  intro hm
  obtain ⟨u, hu1, hcu⟩ := List.mem_flatten.1 hm
  rcases hu u hu1 with ⟨a, b, rfl, ha, hb⟩ | ⟨x, rfl, hx'⟩
  · simp only [List.mem_cons, List.not_mem_nil, or_false] at hcu
    rcases hcu with rfl | rfl | rfl
    · exact hc rfl
    · unfold Hex at ha; rw [hx] at ha; cases ha
    · unfold Hex at hb; rw [hx] at hb; cases hb
  · rw [List.mem_singleton.1 hcu] at hp
    rw [hp] at hx'; cases hx'

theorem group_not_mem (c : Char) (hx : isHex c = false) (g : Text) (h : Group g) : c ∉ g := fun hm => by
  have := h.2.2 c hm
  unfold Hex at this
  rw [hx] at this; cases this

theorem dotted_not_mem (c : Char) (hx : isDigit c = false) (hd : c ≠ '.') (t : Text) (h : Dotted t) :
    c ∉ t := by
  obtain ⟨ps, _, rfl, hp⟩ := h
  intro hm
  rcases mem_join _ _ _ hm with rfl | ⟨p, hp1, hcp⟩
  · exact hd rfl
  · have := (hp p hp1).2.2 c hcp
    rw [hx] at this; cases this

theorem part_not_mem (c : Char) (hx : isHex c = false) (hd : isDigit c = false) (h1 : c ≠ '.')
    (h2 : c ≠ ':') (p : Part) (h : p.Ok) : c ∉ p.text := by
  intro hm
  rcases mem_join _ _ _ hm with rfl | ⟨g, hg, hcg⟩
  · exact h2 rfl
  · rcases List.mem_append.1 hg with hg | hg
    · exact group_not_mem c hx g (h.1 g hg) hcg
    · cases hdot : p.dotted with
      | none => rw [hdot] at hg; simp at hg
      | some d =>
        rw [hdot] at hg
        simp at hg
        subst hg
        exact dotted_not_mem c hd h1 g (h.2 g hdot) hcg

theorem ipv6_no_bracket (t : Text) (h : IPv6Zone t) : ']' ∉ t := by
  obtain ⟨a, z, rfl, ha, hz⟩ := h
  rw [List.mem_append]
  rintro (hm | hm)
  · rcases ha with ⟨p, hp, _, rfl⟩ | ⟨l, p, hl, hp, _, rfl⟩
    · exact part_not_mem ']' (by decide) (by decide) (by decide) (by decide) p hp hm
    · simp only [List.mem_append] at hm
      rcases hm with (hm | hm) | hm
      · rcases mem_join _ _ _ hm with h | ⟨g, hg, hcg⟩
        · revert h; decide
        · exact group_not_mem ']' (by decide) g (hl g hg) hcg
      · revert hm; decide
      · exact part_not_mem ']' (by decide) (by decide) (by decide) (by decide) p hp hm
  · rcases hz with rfl | ⟨i, _, hi, hz⟩
    · cases hm
    · have := encoded_not_mem isUnreserved ']' (by decide) (by decide) (by decide) i hi
      rcases hz with rfl | rfl
      · rcases List.mem_append.1 hm with hm | hm
        · revert hm; decide
        · exact this hm
      · rcases List.mem_cons.1 hm with hm | hm
        · revert hm; decide
        · exact this hm

/-- Every host is in brackets without another closing bracket, or has no colon and does not start with
a bracket. -/
theorem host_cases (u : Uri) (h : Clean u) :
    (∃ a, hostText u = '[' :: a ++ [']'] ∧ ']' ∉ a) ∨
      (':' ∉ hostText u ∧ ∀ r, hostText u ≠ '[' :: r) := by
  by_cases h6 : IPv6Zone u.host
  · left
    have : hostType u.host = .ipv6 := (C71_host_type _).1.2 h6
    exact ⟨u.host, by unfold hostText; rw [if_pos this], ipv6_no_bracket _ h6⟩
  · have hne : ¬ hostType u.host = .ipv6 := fun h => h6 ((C71_host_type _).1.1 h)
    have ht : hostText u = u.host := by unfold hostText; rw [if_neg hne]
    rw [ht]
    rcases h.host.2 with (hv | hv | ⟨a, ha, hv⟩) | hv
    · right
      refine ⟨encoded_not_mem _ ':' (by decide) (by decide) (by decide) _ hv, fun r hr => ?_⟩
      exact encoded_not_mem _ '[' (by decide) (by decide) (by decide) _ hv (by rw [hr]; simp)
    · right
      refine ⟨dotted_not_mem ':' (by decide) (by decide) _ hv, fun r hr => ?_⟩
      exact dotted_not_mem '[' (by decide) (by decide) _ hv (by rw [hr]; simp)
    · left
      refine ⟨a, ha, ?_⟩
      rcases hv with hv | ⟨v, b, rfl, _, _, hv1, hb⟩
      · exact ipv6_no_bracket a hv
      · intro hm
        simp only [List.cons_append, List.mem_cons, List.mem_append] at hm
        rcases hm with hm | hm | hm | hm
        · revert hm; decide
        · have := hv1 _ hm; revert this; unfold Hex; decide
        · revert hm; decide
        · have := hb _ hm; revert this; decide
    · exact absurd hv h6

theorem readHost_eq (hostText port : Text) (p : Option Text)
    (hport : port = match p with | none => [] | some p => ':' :: p)
    (h : (∃ a, hostText = '[' :: a ++ [']'] ∧ ']' ∉ a) ∨
      (':' ∉ hostText ∧ ∀ r, hostText ≠ '[' :: r)) (hne : hostText ≠ []) :
    readHost (hostText ++ port) = (hostText, p) := by
  rcases h with ⟨a, rfl, ha⟩ | ⟨h1, h2⟩
  · rw [List.cons_append, List.cons_append, List.append_assoc, List.singleton_append]
    simp only [readHost]
    rw [cut_append _ _ _ ha]
    simp only [Option.getD_some]
    cases p with
    | none => rw [hport]; rfl
    | some p => rw [hport]; rfl
  · obtain ⟨c, r, rfl⟩ := List.exists_cons_of_ne_nil hne
    have hc : c ≠ '[' := fun e => h2 r (by rw [e])
    have : readHost (c :: r ++ port) = cut ':' (c :: r ++ port) := by
      unfold readHost
      split
      · next h => rw [List.cons_append, List.cons.injEq] at h; exact absurd h.1 hc
      · rfl
    rw [this]
    cases p with
    | none => rw [hport]; simp only [List.append_nil]; rw [cut_of_not_mem _ _ h1]
    | some p => rw [hport]; simp only; rw [cut_append _ _ _ h1]

/-- **C72**: the authority is taken apart into user name, password, host and port. -/
theorem C72_authority (hn : ∀ n, ∀ c ∈ natText n, isDigit c = true) (u : Uri) (h : Clean u) :
    ∃ host, Written u.host host ∧
      readAuthority (netloc natText u) =
        ⟨u.username, if u.username.isSome then u.password else none, host, u.port.map natText⟩ := by
  refine ⟨hostText u, ?_, ?_⟩
  · unfold Written hostText
    by_cases h6 : IPv6Zone u.host
    · rw [if_pos ((C71_host_type _).1.2 h6)]; exact .inl ⟨h6, rfl⟩
    · rw [if_neg fun h => h6 ((C71_host_type _).1.1 h)]; exact .inr ⟨h6, rfl⟩
  · have hport : portText natText u =
        match u.port.map natText with | none => [] | some p => ':' :: p := by
      unfold portText; cases u.port <;> rfl
    have hh := readHost_eq (hostText u) (portText natText u) (u.port.map natText) hport
      (host_cases u h) (hostText_ne u h)
    have hat : '@' ∉ hostText u ++ portText natText u := by
      rw [List.mem_append]
      rintro (hm | hm)
      · exact hostText_clean u h '@' hm (by unfold Ends; decide)
      · unfold portText at hm
        cases hp : u.port with
        | none => rw [hp] at hm; cases hm
        | some p =>
          rw [hp] at hm
          rcases List.mem_cons.1 hm with hm | hm
          · revert hm; decide
          · have := hn p _ hm; revert this; decide
    rw [netloc_eq, List.append_assoc]
    cases hu : u.username with
    | none =>
      have : userText u = [] := by unfold userText; rw [hu]
      rw [this, List.nil_append]
      unfold readAuthority
      rw [cut_of_not_mem _ _ hat]
      simp only [hh]
      rfl
    | some user =>
      have hc := h.username user hu
      have hinfo : '@' ∉ user ++ (match u.password with | none => [] | some p => ':' :: p) := by
        rw [List.mem_append]
        rintro (hm | hm)
        · exact (hc _ hm).2.1 rfl
        · cases hp : u.password with
          | none => rw [hp] at hm; cases hm
          | some p =>
            rw [hp] at hm
            rcases List.mem_cons.1 hm with hm | hm
            · revert hm; decide
            · exact (h.password p hp _ hm).1 rfl
      have : userText u ++ (hostText u ++ portText natText u) =
          (user ++ (match u.password with | none => [] | some p => ':' :: p)) ++
            '@' :: (hostText u ++ portText natText u) := by
        unfold userText; rw [hu]; simp
      rw [this]
      unfold readAuthority
      rw [cut_append _ _ _ hinfo]
      simp only [hh]
      have hcol : ':' ∉ user := fun hm => (hc _ hm).1 rfl
      cases hp : u.password with
      | none => simp only [List.append_nil]; rw [cut_of_not_mem _ _ hcol]; rfl
      | some p => simp only; rw [cut_append _ _ _ hcol]; rfl

/-- **C72** is false for components that are not encoded already: a user name with `@` or a path with
`?` ends up elsewhere. -/
theorem C72_unencoded_fails :
    (readAuthority (netloc (fun _ => []) { host := "h".toList, username := some "a@evil".toList })).host
      = "evil@h".toList ∧
    (read (build (fun _ => []) (fun _ => true) { host := "h".toList, path := some "/a?b".toList })).path
      = "/a".toList := by
  decide +kernel

/-! ### The authority and the rest -/

theorem cut_append_fst (sep : Char) (a b : Text) (h : sep ∉ a) : (cut sep (a ++ b)).1 = a ++ (cut sep b).1 := by
  induction a with
  | nil => rfl
  | cons c a ih =>
    simp only [List.mem_cons, not_or] at h
    simp [cut, Ne.symm h.1, ih h.2]

theorem cut_fst_head (sep : Char) (b : Text) :
    (cut sep b).1 = [] ∨ ∃ c r r', c ≠ sep ∧ b = c :: r ∧ (cut sep b).1 = c :: r' := by
  cases b with
  | nil => exact .inl rfl
  | cons c b =>
    by_cases h : c = sep
    · left; simp [cut, h]
    · right; exact ⟨c, b, (cut sep b).1, h, rfl, by simp [cut, h]⟩

theorem read_authority (scheme net rest : Text) (hs : ∀ c ∈ scheme, c ≠ ':' ∧ c ≠ '?' ∧ c ≠ '#')
    (hn : ∀ c ∈ net, c ≠ '/' ∧ c ≠ '?' ∧ c ≠ '#')
    (hr : rest = [] ∨ ∃ c r, rest = c :: r ∧ (c = '/' ∨ c = '?' ∨ c = '#')) :
    (read (scheme ++ ':' :: '/' :: '/' :: (net ++ rest))).scheme = scheme ∧
    (read (scheme ++ ':' :: '/' :: '/' :: (net ++ rest))).authority = some net := by
  have hpre : ∀ c ∈ scheme ++ ':' :: '/' :: '/' :: net, c ≠ '?' ∧ c ≠ '#' := by
    intro c hc
    simp only [List.mem_append, List.mem_cons] at hc
    rcases hc with hc | rfl | rfl | rfl | hc
    · exact (hs c hc).2
    · decide
    · decide
    · decide
    · exact (hn c hc).2
  have e : scheme ++ ':' :: '/' :: '/' :: (net ++ rest) = (scheme ++ ':' :: '/' :: '/' :: net) ++ rest := by simp
  have c1 := cut_append_fst '#' _ rest (fun h => (hpre _ h).2 rfl)
  have c2 := cut_append_fst '?' _ (cut '#' rest).1 (fun h => (hpre _ h).1 rfl)
  obtain ⟨rest', hrest', hr'⟩ : ∃ rest', (cut '?' (cut '#' rest).1).1 = rest' ∧
      (rest' = [] ∨ ∃ r, rest' = '/' :: r) := by
    refine ⟨_, rfl, ?_⟩
    rcases cut_fst_head '#' rest with h | ⟨c, r, r', h1, h2, h3⟩
    · rw [h]; exact .inl rfl
    · rw [h3]
      rcases cut_fst_head '?' (c :: r') with h | ⟨d, t, t', g1, g2, g3⟩
      · rw [h]; exact .inl rfl
      · rw [g3]
        right
        obtain ⟨rfl, rfl⟩ := List.cons.inj g2
        rcases hr with hr | ⟨c', r'', hr, hc⟩
        · rw [hr] at h2; cases h2
        · rw [hr] at h2
          obtain ⟨rfl, rfl⟩ := List.cons.inj h2
          rcases hc with rfl | rfl | rfl
          · exact ⟨t', rfl⟩
          · exact absurd rfl g1
          · exact absurd rfl h1
  have c3 : cut ':' ((scheme ++ ':' :: '/' :: '/' :: net) ++ rest') =
      (scheme, some ('/' :: '/' :: (net ++ rest'))) := by
    rw [show (scheme ++ ':' :: '/' :: '/' :: net) ++ rest' = scheme ++ ':' :: ('/' :: '/' :: (net ++ rest')) by simp]
    exact cut_append _ _ _ fun hc => (hs _ hc).1 rfl
  obtain ⟨t1, -⟩ := takeWhile_append_stop net rest' (fun c hc => (hn c hc).1) hr'
  unfold read
  simp only [e, c1, c2, hrest', c3]
  exact ⟨trivial, by rw [t1]⟩

/-- **C72**: whatever the path, the query and the fragment of a URI are, its text is read as a URI with
the same scheme and authority: they cannot turn the request to another host. -/
theorem C72_authority_isolated (usesNetloc : Text → Bool) (hn : ∀ n, ∀ c ∈ natText n, isDigit c = true)
    (u : Uri) (h : Clean { u with path := none, query := none }) :
    (read (build natText usesNetloc u)).scheme = u.scheme ∧
    (read (build natText usesNetloc u)).authority = some (netloc natText u) := by
  have hnet : netloc natText u ≠ [] := netloc_ne (natText := natText) { u with path := none, query := none } h
  have hch := netloc_chars hn { u with path := none, query := none } h
  have htext : ∃ rest, build natText usesNetloc u =
      u.scheme ++ ':' :: '/' :: '/' :: (netloc natText u ++ rest) ∧
      (rest = [] ∨ ∃ c r, rest = c :: r ∧ (c = '/' ∨ c = '?' ∨ c = '#')) := by
    have h0 := tail_eq (u.scheme ++ ':' :: ("//".toList ++ netloc natText u ++ rooted (u.path.getD [])))
      u.query u.fragment
    let base := u.scheme ++ ':' :: ("//".toList ++ netloc natText u ++ rooted (u.path.getD []))
    have h1 : build natText usesNetloc u =
        match some? u.fragment with
        | none => (match some? u.query with | none => base | some q => base ++ '?' :: q)
        | some f => (match some? u.query with | none => base | some q => base ++ '?' :: q) ++ '#' :: f := by
      unfold build unsplit
      simp only [if_pos hnet, path_rooted, if_pos h.scheme.1]
      exact h0
    have hr : rooted (u.path.getD []) = [] ∨ ∃ c r, rooted (u.path.getD []) = c :: r ∧ (c = '/' ∨ c = '?' ∨ c = '#') := by
      rcases rooted_head (u.path.getD []) with ⟨hr, -⟩ | ⟨r, hr⟩
      · exact .inl hr
      · exact .inr ⟨_, r, hr, .inl rfl⟩
    have stop : ∀ (a b : Text) (c : Char), (a = [] ∨ ∃ c r, a = c :: r ∧ (c = '/' ∨ c = '?' ∨ c = '#')) →
        (c = '/' ∨ c = '?' ∨ c = '#') →
        (a ++ c :: b = [] ∨ ∃ d r, a ++ c :: b = d :: r ∧ (d = '/' ∨ d = '?' ∨ d = '#')) := by
      rintro a b c (rfl | ⟨d, r, rfl, hd⟩) hc
      · exact .inr ⟨c, b, rfl, hc⟩
      · exact .inr ⟨d, r ++ c :: b, rfl, hd⟩
    have hl : "//".toList = ['/', '/'] := rfl
    rw [h1]
    cases hf : some? u.fragment with
    | none =>
      cases hq : some? u.query with
      | none => exact ⟨rooted (u.path.getD []), by simp [base, hl], hr⟩
      | some q => exact ⟨rooted (u.path.getD []) ++ '?' :: q, by simp [base, hl], stop _ _ _ hr (by simp)⟩
    | some f =>
      cases hq : some? u.query with
      | none => exact ⟨rooted (u.path.getD []) ++ '#' :: f, by simp [base, hl], stop _ _ _ hr (by simp)⟩
      | some q =>
        exact ⟨(rooted (u.path.getD []) ++ '?' :: q) ++ '#' :: f, by simp [base, hl],
          stop _ _ _ (stop _ _ _ hr (by simp)) (by simp)⟩
  obtain ⟨rest, h1, h2⟩ := htext
  rw [h1]
  exact read_authority _ _ _ (fun c hc => by have := h.scheme.2 c hc; tauto) hch h2

/-! ## The hypotheses are met -/

def sample : Uri :=
  { host := "2001:db8::1".toList, port := some 8443, username := some "u".toList,
    password := some "p:w".toList, path := some "a/b".toList, query := some "x=1?".toList,
    fragment := some "f#g".toList }

example : build (fun n => (Nat.repr n).toList) (fun _ => true) sample =
    "https://u:p:w@[2001:db8::1]:8443/a/b?x=1?#f#g".toList := by decide +kernel

example : Clean sample where
  scheme := by decide
  username := by rintro t ⟨⟩; decide
  password := by rintro t ⟨⟩; decide
  host := by
    refine ⟨by decide, .inr ?_⟩
    rw [← ipv6Zone_iff, ← Verif.Regex.fullmatch_iff]
    decide +kernel
  path := by rintro t ⟨⟩; decide
  query := by rintro t ⟨⟩; decide

end Verif.Uri.Build
