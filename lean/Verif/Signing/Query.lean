import Verif.Signing.Order

/-!
# The canonical query string (C34)

Models `_format_canonical_query` (aws_sdk_signers/signers.py:314-324, and 694-704 of the asynchronous
signer) with `urllib.parse.parse_qsl` (Python 3.11, urllib/parse.py:790-800), `unquote_plus` and
`quote`.  Text is its UTF-8 bytes; `decode` stands for `bytes.decode("utf-8", errors="replace")`
followed by encoding again: the identity on valid UTF-8.  It is arbitrary.
-/

set_option autoImplicit false

namespace Verif.Signing

open Verif.Uri Verif.Text

/-! ## Model -/

section
variable (decode : Bytes → Bytes)

/-- `unquote_plus` (urllib/parse.py:802-810). -/
def unquotePlus (t : Bytes) : Bytes :=
  decode (unquote (t.map fun b => if b = ch '+' then ch ' ' else b))

/-- `parse_qsl(query, keep_blank_values=True)` (urllib/parse.py:790-800). -/
def parseQsl (query : Bytes) : List (Bytes × Bytes) :=
  (split (ch '&') query).filterMap fun part =>
    if part = [] then none
    else
      let nv := cut (ch '=') part
      some (unquotePlus decode nv.1, unquotePlus decode (nv.2.getD []))

/-- `_format_canonical_query` (signers.py:314-324). -/
def canonicalQuery : Option Bytes → Bytes
  | none => []
  | some query =>
    let parts := (parseQsl decode query).map fun p => (quote noneSafe p.1, quote noneSafe p.2)
    join (ch '&') ((sortPairs parts).map fun p => p.1 ++ [ch '='] ++ p.2)

/-! ## Specification -/

/-- The name and value of a parameter written `name=value` or `name`. -/
def IsParam (part name value : Bytes) : Prop :=
  (ch '=' ∉ part ∧ name = part ∧ value = []) ∨ (ch '=' ∉ name ∧ part = name ++ [ch '='] ++ value)

/-- Decoded: `+` is a space, `%XX` a byte, and the bytes are read as UTF-8. -/
def decoded (t : Bytes) : Bytes :=
  decode (unquote (t.map fun b => if b = ch '+' then ch ' ' else b))

/-- `params` are the decoded parameters of the query, in order: its non-empty parts between `&`. -/
def Params (query : Option Bytes) (params : List (Bytes × Bytes)) : Prop :=
  ∃ raw : List (Bytes × Bytes),
    List.Forall₂ (fun part r => IsParam part r.1 r.2)
      ((split (ch '&') (query.getD [])).filter (· ≠ [])) raw ∧
    params = raw.map fun r => (decoded decode r.1, decoded decode r.2)

end

/-! ## Theorems -/

section
variable {decode : Bytes → Bytes}

theorem cut_isParam (part name value : Bytes) :
    IsParam part name value ↔ cut (ch '=') part = (name, if ch '=' ∈ part then some value else none) ∧
      (ch '=' ∉ part → value = []) := by
  constructor
  · rintro (⟨h1, rfl, rfl⟩ | ⟨h1, rfl⟩)
    · rw [cut_of_not_mem _ _ h1, if_neg h1]; exact ⟨rfl, fun _ => rfl⟩
    · rw [List.append_assoc, List.singleton_append, cut_append _ _ _ h1, if_pos (by simp)]
      exact ⟨rfl, fun h => absurd (by simp) h⟩
  · rintro ⟨h1, h2⟩
    by_cases he : ch '=' ∈ part
    · rw [if_pos he] at h1
      obtain ⟨s, t, rfl, hs⟩ := List.eq_append_cons_of_mem he
      rw [cut_append _ _ _ hs] at h1
      obtain ⟨rfl, h3⟩ := Prod.mk.inj h1
      cases h3
      exact Or.inr ⟨hs, by simp⟩
    · rw [if_neg he, cut_of_not_mem _ _ he] at h1
      obtain ⟨rfl, _⟩ := Prod.mk.inj h1
      exact Or.inl ⟨he, rfl, h2 he⟩

theorem parts_params (parts : List Bytes) (raw : List (Bytes × Bytes))
    (h : List.Forall₂ (fun part r => IsParam part r.1 r.2) (parts.filter (· ≠ [])) raw) :
    (parts.filterMap fun part =>
      if part = [] then none
      else some (unquotePlus decode (cut (ch '=') part).1,
        unquotePlus decode ((cut (ch '=') part).2.getD []))) =
      raw.map fun r => (decoded decode r.1, decoded decode r.2) := by
  induction parts generalizing raw with
  | nil =>
    simp only [List.filter_nil] at h
    cases h; rfl
  | cons p ps ih =>
    by_cases hp : p = []
    · subst hp
      rw [List.filter_cons_of_neg (by simp)] at h
      rw [List.filterMap_cons_none (by simp)]
      exact ih raw h
    · rw [List.filter_cons_of_pos (by simpa using hp)] at h
      cases h with
      | @cons _ r _ raw h1 h2 =>
        rw [List.filterMap_cons_some (by rw [if_neg hp]), List.map_cons, ih raw h2]
        congr 1
        obtain ⟨h3, h4⟩ := (cut_isParam _ _ _).1 h1
        rw [h3]
        by_cases he : ch '=' ∈ p
        · simp only [if_pos he]; rfl
        · simp only [if_neg he, h4 he]; rfl

/-- What the signer parses is the parameters. -/
theorem parseQsl_params (query : Bytes) (params : List (Bytes × Bytes))
    (h : Params decode (some query) params) : parseQsl decode query = params := by
  obtain ⟨raw, h1, rfl⟩ := h
  exact parts_params _ raw h1

theorem params_exist (parts : List Bytes) :
    ∃ raw : List (Bytes × Bytes), List.Forall₂ (fun part r => IsParam part r.1 r.2) parts raw := by
  induction parts with
  | nil => exact ⟨[], .nil⟩
  | cons p ps ih =>
    obtain ⟨raw, h⟩ := ih
    refine ⟨((cut (ch '=') p).1, (cut (ch '=') p).2.getD []) :: raw, .cons ?_ h⟩
    rw [cut_isParam]
    by_cases he : ch '=' ∈ p
    · obtain ⟨s, t, rfl, hs⟩ := List.eq_append_cons_of_mem he
      rw [cut_append _ _ _ hs, if_pos he]
      exact ⟨rfl, fun h => absurd he h⟩
    · rw [cut_of_not_mem _ _ he, if_neg he]
      exact ⟨rfl, fun _ => rfl⟩

/-- Every query has parameters, and only one list of them. -/
theorem params_unique (query : Option Bytes) : ∃ params, Params decode query params ∧
    ∀ params', Params decode query params' → params' = params := by
  obtain ⟨raw, h⟩ := params_exist ((split (ch '&') (query.getD [])).filter (· ≠ []))
  refine ⟨_, ⟨raw, h, rfl⟩, ?_⟩
  rintro params' ⟨raw', h', rfl⟩
  rw [← parts_params (decode := decode) _ raw h, ← parts_params (decode := decode) _ raw' h']

theorem eq_not_mem_quote (t : Bytes) : ch '=' ∉ quote noneSafe t :=
  not_mem_quote _ _ _ (by decide) (by decide) (by decide)

theorem amp_not_mem_quote (t : Bytes) : ch '&' ∉ quote noneSafe t :=
  not_mem_quote _ _ _ (by decide) (by decide) (by decide)

theorem plus_not_mem_quote (t : Bytes) : ch '+' ∉ quote noneSafe t :=
  not_mem_quote _ _ _ (by decide) (by decide) (by decide)

theorem quote_injective {t u : Bytes} (h : quote noneSafe t = quote noneSafe u) : t = u := by
  have := congrArg unquote h
  rwa [unquote_quote noneSafe rfl, unquote_quote noneSafe rfl] at this

/-- A pair of quoted texts as written. -/
def written (p : Bytes × Bytes) : Bytes := p.1 ++ [ch '='] ++ p.2

def quoted (p : Bytes × Bytes) : Bytes × Bytes := (quote noneSafe p.1, quote noneSafe p.2)

theorem quoted_injective : Function.Injective quoted := by
  rintro ⟨a, b⟩ ⟨c, d⟩ h
  obtain ⟨h1, h2⟩ := Prod.mk.inj h
  exact Prod.ext (quote_injective h1) (quote_injective h2)

theorem canonical_eq (query : Option Bytes) (params : List (Bytes × Bytes))
    (h : Params decode query params) :
    canonicalQuery decode query = join (ch '&') ((sortPairs (params.map quoted)).map written) := by
  cases query with
  | none =>
    obtain ⟨raw, h1, rfl⟩ := h
    simp only [Option.getD_none, split, List.filter_cons, ne_eq, not_true_eq_false, decide_false,
      List.filter_nil] at h1
    cases h1
    rfl
  | some q =>
    simp only [canonicalQuery, parseQsl_params q params h]
    rfl

theorem written_ne_nil (p : Bytes × Bytes) : written p ≠ [] := by simp [written]

/-- The written pairs can be read back. -/
theorem join_written (l : List (Bytes × Bytes)) :
    (split (ch '&') (join (ch '&') ((l.map quoted).map written))).filter (· ≠ []) =
      (l.map quoted).map written := by
  cases l with
  | nil => rfl
  | cons p l =>
    rw [split_join _ _ (by simp) ?_, List.filter_eq_self]
    · intro x hx
      obtain ⟨y, _, rfl⟩ := List.mem_map.1 hx
      simpa using written_ne_nil y
    · intro x hx
      obtain ⟨y, hy, rfl⟩ := List.mem_map.1 hx
      obtain ⟨z, _, rfl⟩ := List.mem_map.1 hy
      simp only [written, quoted, List.mem_append, List.mem_singleton, not_or]
      exact ⟨⟨amp_not_mem_quote _, by decide⟩, amp_not_mem_quote _⟩

theorem written_injective (p q : Bytes × Bytes) (h : written (quoted p) = written (quoted q)) :
    p = q := by
  have h1 := congrArg (cut (ch '=')) h
  simp only [written, quoted, List.append_assoc, List.singleton_append,
    cut_append _ _ _ (eq_not_mem_quote _)] at h1
  obtain ⟨h2, h3⟩ := Prod.mk.inj h1
  exact quoted_injective (Prod.ext h2 (Option.some.inj h3))

theorem sort_quoted (l : List (Bytes × Bytes)) :
    ∃ m : List (Bytes × Bytes), m.Perm l ∧ sortPairs (l.map quoted) = m.map quoted := by
  have h := sortPairs_perm (l.map quoted)
  let unq : Bytes × Bytes → Bytes × Bytes := fun p => (unquote p.1, unquote p.2)
  have hid : ∀ p, unq (quoted p) = p := fun p => by
    simp only [unq, quoted, unquote_quote noneSafe rfl]
  refine ⟨(sortPairs (l.map quoted)).map unq, ?_, ?_⟩
  · have h2 := h.map unq
    rwa [List.map_map, List.map_congr_left (f := unq ∘ quoted) (g := id) (fun p _ => hid p),
      List.map_id] at h2
  · rw [List.map_map]
    symm
    conv_rhs => rw [← List.map_id (sortPairs (l.map quoted))]
    apply List.map_congr_left
    intro p hp
    obtain ⟨q, _, rfl⟩ := List.mem_map.1 (h.mem_iff.1 hp)
    simp only [Function.comp, hid, id]

/-- The canonical query is the parameters percent-encoded and written `name=value`, separated by
`&`, in the order of their encoded forms. -/
theorem C34_canonical (query : Option Bytes) (params : List (Bytes × Bytes))
    (h : Params decode query params) :
    ∃ ordered : List (Bytes × Bytes), ordered.Perm params ∧
      (ordered.map fun p => (quote noneSafe p.1, quote noneSafe p.2)).Pairwise
        (fun p q => leP p q = true) ∧
      canonicalQuery decode query = join (ch '&')
        (ordered.map fun p => quote noneSafe p.1 ++ [ch '='] ++ quote noneSafe p.2) := by
  obtain ⟨m, hm, hs⟩ := sort_quoted params
  refine ⟨m, hm, ?_, ?_⟩
  · have := sortPairs_sorted (params.map quoted)
    rwa [hs] at this
  · rw [canonical_eq query params h, hs, List.map_map]
    rfl

/-- Two queries have the same canonical form exactly if they have the same decoded parameters, each
as often, in whatever order and encoding. -/
theorem C34_multiset (query query' : Option Bytes) (params params' : List (Bytes × Bytes))
    (h : Params decode query params) (h' : Params decode query' params') :
    canonicalQuery decode query = canonicalQuery decode query' ↔ params.Perm params' := by
  rw [canonical_eq query params h, canonical_eq query' params' h']
  constructor
  · intro e
    obtain ⟨m, hm, hs⟩ := sort_quoted params
    obtain ⟨m', hm', hs'⟩ := sort_quoted params'
    rw [hs, hs'] at e
    have e2 : (m.map quoted).map written = (m'.map quoted).map written := by
      rw [← join_written, ← join_written m', e]
    rw [List.map_map, List.map_map] at e2
    have : m = m' := List.map_injective_iff.2 (fun p q hpq => written_injective p q hpq) e2
    exact hm.symm.trans (this ▸ hm')
  · intro hp
    rw [(sortPairs_eq_iff _ _).2 (hp.map quoted)]

/-- The canonical query is itself a query with the same parameters, if decoding leaves decoded text
alone. -/
theorem C34_same_parameters (hdec : ∀ t, decode (decode t) = decode t) (query : Option Bytes)
    (params : List (Bytes × Bytes)) (h : Params decode query params) :
    ∃ params', Params decode (some (canonicalQuery decode query)) params' ∧ params'.Perm params := by
  obtain ⟨m, hm, hs⟩ := sort_quoted params
  refine ⟨m, ⟨m.map quoted, ?_, ?_⟩, hm⟩
  · rw [canonical_eq query params h, hs, Option.getD_some, join_written, List.forall₂_map_left_iff,
      List.forall₂_same]
    intro p hp
    obtain ⟨q, _, rfl⟩ := List.mem_map.1 hp
    exact Or.inr ⟨eq_not_mem_quote _, rfl⟩
  · rw [List.map_map]
    conv_lhs => rw [← List.map_id m]
    apply List.map_congr_left
    intro p hp
    obtain ⟨raw, _, rfl⟩ := h
    obtain ⟨r, _, rfl⟩ := List.mem_map.1 (hm.mem_iff.1 hp)
    have hq : ∀ t, (quote noneSafe t).map (fun b => if b = ch '+' then ch ' ' else b) =
        quote noneSafe t := by
      intro t
      conv_rhs => rw [← List.map_id (quote noneSafe t)]
      apply List.map_congr_left
      intro b hb
      have hne : b ≠ ch '+' := fun e => plus_not_mem_quote t (e ▸ hb)
      rw [if_neg hne]
      rfl
    simp only [id, Function.comp, quoted, decoded, hq, unquote_quote noneSafe rfl, hdec]

/-- The order is the usual one: a prefix comes first, otherwise the first difference decides. -/
theorem C34_order (a b : Bytes) : leB a b = true ↔
    (∃ t, b = a ++ t) ∨ ∃ p x y s t, a = p ++ x :: s ∧ b = p ++ y :: t ∧ x.toNat < y.toNat := by
  induction a generalizing b with
  | nil => simp [leB]
  | cons x a ih =>
    cases b with
    | nil => simp [leB]
    | cons y b =>
      simp only [leB, Bool.or_eq_true, Bool.and_eq_true, decide_eq_true_eq, ih]
      constructor
      · rintro (h | ⟨rfl, ⟨t, rfl⟩ | ⟨p, x', y', s, t, rfl, rfl, h⟩⟩)
        · exact Or.inr ⟨[], x, y, a, b, rfl, rfl, h⟩
        · exact Or.inl ⟨t, rfl⟩
        · exact Or.inr ⟨x :: p, x', y', s, t, rfl, rfl, h⟩
      · rintro (⟨t, h⟩ | ⟨p, x', y', s, t, h1, h2, h⟩)
        · obtain ⟨rfl, rfl⟩ := List.cons.inj h
          exact Or.inr ⟨rfl, Or.inl ⟨t, rfl⟩⟩
        · cases p with
          | nil =>
            obtain ⟨rfl, rfl⟩ := List.cons.inj h1
            obtain ⟨rfl, rfl⟩ := List.cons.inj h2
            exact Or.inl h
          | cons z p =>
            obtain ⟨rfl, rfl⟩ := List.cons.inj h1
            obtain ⟨rfl, rfl⟩ := List.cons.inj h2
            exact Or.inr ⟨rfl, Or.inr ⟨p, x', y', s, t, rfl, rfl, h⟩⟩

end

/-! ## The hypotheses are met -/

/-- `b=%20&a=1&&a` and `a&a=%31&b=+` have the same parameters in different orders and encodings. -/
example : Params id (some (asc "b=%20&a=1&&a"))
      [(asc "b", asc " "), (asc "a", asc "1"), (asc "a", [])] ∧
    Params id (some (asc "a&a=%31&b=+"))
      [(asc "a", []), (asc "a", asc "1"), (asc "b", asc " ")] ∧
    canonicalQuery id (some (asc "b=%20&a=1&&a")) = asc "a=&a=1&b=%20" ∧
    canonicalQuery id (some (asc "a&a=%31&b=+")) = asc "a=&a=1&b=%20" := by
  refine ⟨⟨[(asc "b", asc "%20"), (asc "a", asc "1"), (asc "a", [])], ?_, by decide +kernel⟩,
    ⟨[(asc "a", []), (asc "a", asc "%31"), (asc "b", asc "+")], ?_, by decide +kernel⟩,
    by decide +kernel, by decide +kernel⟩
  · have : (split (ch '&') ((some (asc "b=%20&a=1&&a")).getD [])).filter (· ≠ []) =
        [asc "b=%20", asc "a=1", asc "a"] := by decide +kernel
    rw [this]
    exact .cons (Or.inr (by decide +kernel)) (.cons (Or.inr (by decide +kernel))
      (.cons (Or.inl (by decide +kernel)) .nil))
  · have : (split (ch '&') ((some (asc "a&a=%31&b=+")).getD [])).filter (· ≠ []) =
        [asc "a", asc "a=%31", asc "b=+"] := by decide +kernel
    rw [this]
    exact .cons (Or.inl (by decide +kernel)) (.cons (Or.inr (by decide +kernel))
      (.cons (Or.inr (by decide +kernel)) .nil))

end Verif.Signing
