import Verif.Uri.Percent

/-!
# Query strings (C28)

Models `join_query_params` (smithy_http/utils.py:109-125).
-/

set_option autoImplicit false

namespace Verif.Uri

open Verif.Text

/-! ## Model -/

/-- One parameter as text (utils.py:121-124). -/
def paramText : Bytes × Option Bytes → Bytes
  | (name, none) => quote noneSafe name
  | (name, some value) => quote noneSafe name ++ [ch '='] ++ quote noneSafe value

/-- `join_query_params` (utils.py:109-125). -/
def joinQuery (params : List (Bytes × Option Bytes)) (pre : Bytes) : Bytes :=
  params.foldl (fun query p => (if query ≠ [] then query ++ [ch '&'] else query) ++ paramText p) pre

/-! ## Specification -/

/-- A parameter: name and, after the first `=`, value. -/
def parseParam (t : Bytes) : Bytes × Option Bytes :=
  let r := cut (ch '=') t
  (unquote r.1, r.2.map unquote)

/-- The parameters of a query string: separated by `&`, none in the empty string. -/
def parseQuery (t : Bytes) : List (Bytes × Option Bytes) :=
  if t = [] then [] else (split (ch '&') t).map parseParam

/-! ## Theorems -/

theorem parseParam_paramText (p : Bytes × Option Bytes) : parseParam (paramText p) = p := by
  obtain ⟨name, value⟩ := p
  have he : ch '=' ∉ quote noneSafe name :=
    not_mem_quote _ _ _ (by decide) (by decide) (by decide)
  cases value with
  | none =>
    simp only [paramText, parseParam, cut_of_not_mem _ _ he, unquote_quote noneSafe rfl,
      Option.map_none]
  | some v =>
    simp only [paramText, parseParam, List.append_assoc, List.singleton_append,
      cut_append _ _ _ he, unquote_quote noneSafe rfl, Option.map_some]

theorem paramText_no_amp (p : Bytes × Option Bytes) : ch '&' ∉ paramText p := by
  have hq : ∀ t, ch '&' ∉ quote noneSafe t := fun t =>
    not_mem_quote _ _ _ (by decide) (by decide) (by decide)
  obtain ⟨name, value⟩ := p
  cases value with
  | none => exact hq name
  | some v =>
    simp only [paramText, List.mem_append, not_or]
    exact ⟨⟨hq name, by decide⟩, hq v⟩

theorem paramText_eq_nil (p : Bytes × Option Bytes) : paramText p = [] ↔ p = ([], none) := by
  obtain ⟨name, value⟩ := p
  cases value with
  | none => simp [paramText, quote_eq_nil]
  | some v => simp [paramText]

theorem joinQuery_nonempty (params : List (Bytes × Option Bytes)) : ∀ (q : Bytes), q ≠ [] →
    joinQuery params q ≠ [] ∧ parseQuery (joinQuery params q) = parseQuery q ++ params := by
  induction params with
  | nil => intro q h; simp [joinQuery, h]
  | cons p params ih =>
    intro q h
    have h1 : joinQuery (p :: params) q = joinQuery params (q ++ [ch '&'] ++ paramText p) := by
      simp [joinQuery, h]
    have hne : q ++ [ch '&'] ++ paramText p ≠ [] := by simp
    obtain ⟨h2, h3⟩ := ih _ hne
    rw [h1]
    refine ⟨h2, ?_⟩
    rw [h3]
    simp only [parseQuery, if_neg hne, if_neg h]
    rw [List.append_assoc, List.singleton_append, split_append_sep,
      split_of_not_mem _ _ (paramText_no_amp p)]
    simp [parseParam_paramText]

/-- **C28**: parsing the joined query gives the parameters of the query already there followed by
the given ones, names and values with whatever bytes they have. The case left out is a first
parameter with empty name and no value appended to nothing. -/
theorem C28_query_round_trip (params : List (Bytes × Option Bytes)) (pre : Bytes)
    (h : pre ≠ [] ∨ params.head? ≠ some ([], none)) :
    parseQuery (joinQuery params pre) = parseQuery pre ++ params := by
  by_cases hp : pre = []
  · subst hp
    cases params with
    | nil => simp [joinQuery, parseQuery]
    | cons p params =>
      have hne : paramText p ≠ [] := by
        rw [ne_eq, paramText_eq_nil]
        rcases h with h | h
        · exact absurd rfl h
        · simpa using h
      have h1 : joinQuery (p :: params) [] = joinQuery params (paramText p) := by simp [joinQuery]
      rw [h1, (joinQuery_nonempty params _ hne).2]
      simp only [parseQuery, if_neg hne, split_of_not_mem _ _ (paramText_no_amp p)]
      simp [parseParam_paramText]
  · exact (joinQuery_nonempty params pre hp).2

/-- **C28**: the query contains no character that would end it or split it differently: besides the
existing query there are only unreserved characters, `%`, `&` and `=`. -/
theorem C28_only_query_characters (params : List (Bytes × Option Bytes)) (pre : Bytes) :
    ∀ c ∈ joinQuery params pre, c ∈ pre ∨ unreserved c = true ∨ c = ch '%' ∨ c = ch '&' ∨
      c = ch '=' := by
  have hq : ∀ (t : Bytes) (c : UInt8), c ∈ quote noneSafe t → unreserved c = true ∨ c = ch '%' := by
    intro t c hc
    rcases mem_quote _ _ _ hc with h | ⟨h, -⟩ | h
    · exact Or.inl h
    · simp [noneSafe] at h
    · exact Or.inr h
  have ht : ∀ (p : Bytes × Option Bytes) (c : UInt8), c ∈ paramText p →
      unreserved c = true ∨ c = ch '%' ∨ c = ch '=' := by
    rintro ⟨name, value⟩ c hc
    cases value with
    | none => have := hq _ _ hc; tauto
    | some v =>
      simp only [paramText, List.mem_append, List.mem_singleton] at hc
      rcases hc with (hc | hc) | hc
      · have := hq _ _ hc; tauto
      · tauto
      · have := hq _ _ hc; tauto
  induction params generalizing pre with
  | nil => intro c hc; exact Or.inl hc
  | cons p params ih =>
    intro c hc
    have := ih _ c hc
    rcases this with h | h
    · rcases List.mem_append.1 h with h | h
      · split at h
        · simp only [List.mem_append, List.mem_singleton] at h; tauto
        · exact Or.inl h
      · have := ht p c h; tauto
    · exact Or.inr h

/-- What is false of the code: a parameter with empty name and no value at the front vanishes. -/
theorem C28_empty_parameter_fails :
    parseQuery (joinQuery [([], none), (asc "a", some (asc "b"))] []) =
      [(asc "a", some (asc "b"))] := by decide +kernel

example : joinQuery [(asc "a b", some (asc "&=/ü")), (asc "c", none), ([], none)] (asc "x=1") =
    asc "x=1&a%20b=%26%3D%2F%FC&c&" := by decide +kernel

example : parseQuery (asc "x=1&a%20b=%26%3D%2F%FC&c&") =
    [(asc "x", some (asc "1")), (asc "a b", some (asc "&=/ü")), (asc "c", none), ([], none)] := by
  decide +kernel

end Verif.Uri
