import Verif.Uri.Path
import Mathlib.Tactic.Common

/-!
# Patterns as text (C97)

Models `PathPattern` (smithy_core/types.py:185-220) on the text of the pattern, the part of `HTTPTrait` that makes
it (smithy_core/traits.py:242-247), `HTTPPathSerializer` (smithy_http/serializers.py:633-695) for members of every
type and `HostPrefixSerializer` (serializers.py:731-761).

Texts are given by their UTF-8 bytes: the code looks at ASCII characters only, and those are bytes of nothing else.
-/

set_option autoImplicit false

namespace Verif.Uri.Pattern

open Verif.Text

/-! ## Model -/

/-- `HTTPTrait.__init__`: `uri.split("?", 1)` (traits.py:242-247). -/
def splitUri (uri : Bytes) : Bytes × Option Bytes :=
  match uri.dropWhile (· ≠ ch '?') with
  | [] => (uri, none)
  | _ :: query => (uri.takeWhile (· ≠ ch '?'), some query)

/-- `\w`; every character beyond ASCII is taken for one of a word. -/
def isWord (b : UInt8) : Bool :=
  (65 ≤ b.toNat && b.toNat ≤ 90) || (97 ≤ b.toNat && b.toNat ≤ 122) ||
    (48 ≤ b.toNat && b.toNat ≤ 57) || b = ch '_' || 128 ≤ b.toNat

/-- `_GREEDY_LABEL_RE.findall` (types.py:28, 199-203), `\{(\w+)\+\}`.  No brace is in a word, so that no match
begins inside another one, and a word ends where the plus sign is. -/
def greedyNames : Bytes → List Bytes
  | [] => []
  | c :: t =>
    if c = ch '{' ∧ t.takeWhile isWord ≠ [] ∧ (t.dropWhile isWord).take 2 = asc "+}"
    then t.takeWhile isWord :: greedyNames t
    else greedyNames t

/-- `.replace("+}", "}")` (types.py:215). -/
def replacePlus : Bytes → Bytes
  | [] => []
  | c :: t => if c = ch '+' ∧ t.head? = some (ch '}') then replacePlus t else c :: replacePlus t

inductive Err where
  /-- `KeyError` of `str.format` and the two `ValueError`s of `PathPattern.format`. -/
  | path (e : PathErr Bytes)
  /-- `ValueError` of `str.format`. -/
  | template
  /-- `IndexError` of `str.format`. -/
  | positional
  /-- Conversions, format specifications, attributes and subscripts, which are not modelled. -/
  | unsupported
  /-- `TypeError`: "got multiple values for argument 'self'". -/
  | argument
  deriving DecidableEq, Repr

/-- Where `str.format` is in its template. -/
inductive State where
  | literal
  | opened
  | closed
  | field (name : Bytes)

/-- Characters that end the name of a field. -/
def special (b : UInt8) : Bool := b = ch '{' || b = ch ':' || b = ch '!' || b = ch '.' || b = ch '['

def isDigit (b : UInt8) : Bool := 48 ≤ b.toNat && b.toNat ≤ 57

/-- `str.format` with keyword arguments. -/
def fmt (params : Bytes → Option Bytes) : State → Bytes → Except Err Bytes
  | .literal, [] => .ok []
  | .literal, c :: t =>
    if c = ch '{' then fmt params .opened t
    else if c = ch '}' then fmt params .closed t
    else (fmt params .literal t).map (c :: ·)
  | .opened, [] => .error .template
  | .opened, c :: t =>
    if c = ch '{' then (fmt params .literal t).map (c :: ·)
    else if c = ch '}' then .error .positional
    else if special c then .error .unsupported
    else fmt params (.field [c]) t
  | .closed, [] => .error .template
  | .closed, c :: t => if c = ch '}' then (fmt params .literal t).map (c :: ·) else .error .template
  | .field _, [] => .error .template
  | .field name, c :: t =>
    if c = ch '}' then
      if name.all isDigit then .error .positional
      else match params name with
        | none => .error (.path (.missing name))
        | some v => (fmt params .literal t).map (v ++ ·)
    else if special c then .error .unsupported
    else fmt params (.field (name ++ [c])) t

/-- `PathPattern.format` (types.py:205-220), a method whose first argument is `self`; `names` are the keys of
`kwargs`. -/
def formatPath (pattern : Bytes) (names : List Bytes) (params : Bytes → Option Bytes) : Except Err Bytes :=
  if asc "self" ∈ names then .error .argument
  else if names.any fun n => match params n with
      | some v => decide (ch '/' ∈ v) && decide (n ∉ greedyNames pattern)
      | none => false
  then .error (.path .separator)
  else
    match fmt params .literal (replacePlus pattern) with
    | .error e => .error e
    | .ok r => if hasDouble r then .error (.path .emptySegment) else .ok r

/-- What can be written to a label.  Numbers and timestamps are given by their text. -/
inductive LabelValue where
  | text (t : Bytes)
  | boolean (b : Bool)
  | number (t : Bytes)
  | timestamp (t : Bytes)
  deriving DecidableEq, Repr

/-- The parameter stored for a value (serializers.py:654-695). -/
def LabelValue.stored (greedy : Bool) : LabelValue → Bytes
  | .text t => if greedy then quote slashSafe t else quote noneSafe t
  | .boolean b => if b then asc "true" else asc "false"
  | .number t => t
  | .timestamp t => quote slashSafe t

/-- The last value written for a label. -/
def lastWritten (values : List (Bytes × LabelValue)) (n : Bytes) : Option LabelValue :=
  (values.reverse.find? fun x => x.1 = n).map Prod.snd

/-- `HTTPPathSerializer` (serializers.py:633-695): the members `values` are written one after the other, then
`path` is read. -/
def path (pattern : Bytes) (values : List (Bytes × LabelValue)) : Except Err Bytes :=
  formatPath pattern (values.map Prod.fst) fun n =>
    (lastWritten values n).map (LabelValue.stored (decide (n ∈ greedyNames pattern)))

/-- `safe="."` (serializers.py:761). -/
def dotSafe : UInt8 → Bool := fun b => b = ch '.'

/-- `HostPrefixSerializer` (serializers.py:731-761): the texts `values` are written one after the other, then
`host_prefix` is read. -/
def hostPrefix (pattern : Bytes) (values : List (Bytes × Bytes)) : Except Err Bytes :=
  fmt (fun n => (lastValue values n).map (quote dotSafe)) .literal pattern

/-! ## Specification -/

/-- How a pattern is written: literal text, `{name}` and `{name+}`. -/
def render : List (Piece Bytes) → Bytes
  | [] => []
  | .lit t :: ps => t ++ render ps
  | .label n false :: ps => ch '{' :: (n ++ ch '}' :: render ps)
  | .label n true :: ps => ch '{' :: (n ++ ch '+' :: ch '}' :: render ps)

/-- A name: letters, digits and underscores, and no digit in front. -/
def IsName (n : Bytes) : Prop :=
  (∀ b ∈ n, isWord b = true) ∧ ∃ b, n.head? = some b ∧ isDigit b = false

/-- Literal text has no braces, labels are names. -/
def Valid (ps : List (Piece Bytes)) : Prop :=
  (∀ t, Piece.lit t ∈ ps → ch '{' ∉ t ∧ ch '}' ∉ t) ∧ ∀ n g, Piece.label n g ∈ ps → IsName n

/-- The text a value stands for. -/
def LabelValue.plain : LabelValue → Bytes
  | .text t => t
  | .boolean true => asc "true"
  | .boolean false => asc "false"
  | .number t => t
  | .timestamp t => t

/-- Numbers are written with letters, digits, signs and dots; timestamps have no slash. -/
def LabelValue.Proper : LabelValue → Prop
  | .number t => ∀ b ∈ t, unreserved b = true ∨ b = ch '+'
  | .timestamp t => ch '/' ∉ t
  | _ => True

/-- The text that fills a label. -/
def filling (values : List (Bytes × LabelValue)) (n : Bytes) : Bytes :=
  ((lastWritten values n).map LabelValue.plain).getD []

/-- `r` is the pattern with its labels replaced. -/
inductive Filled (value : Bytes → Bytes → Prop) : List (Piece Bytes) → Bytes → Prop
  | nil : Filled value [] []
  | lit {t : Bytes} {ps : List (Piece Bytes)} {r : Bytes} : Filled value ps r → Filled value (.lit t :: ps) (t ++ r)
  | label {n v : Bytes} {g : Bool} {ps : List (Piece Bytes)} {r : Bytes} : value n v → Filled value ps r →
      Filled value (.label n g :: ps) (v ++ r)

/-! ## Lemmas -/

theorem Valid.tail {p : Piece Bytes} {ps : List (Piece Bytes)} (h : Valid (p :: ps)) : Valid ps :=
  ⟨fun t ht => h.1 t (List.mem_cons_of_mem _ ht), fun n g hn => h.2 n g (List.mem_cons_of_mem _ hn)⟩

theorem word_ne {b : UInt8} (h : isWord b = true) :
    b ≠ ch '{' ∧ b ≠ ch '}' ∧ b ≠ ch '+' ∧ special b = false := by
  refine ⟨?_, ?_, ?_, ?_⟩
  · rintro rfl; exact absurd h (by decide)
  · rintro rfl; exact absurd h (by decide)
  · rintro rfl; exact absurd h (by decide)
  · unfold special
    simp only [Bool.or_eq_false_iff, decide_eq_false_iff_not]
    refine ⟨⟨⟨⟨?_, ?_⟩, ?_⟩, ?_⟩, ?_⟩ <;> (rintro rfl; exact absurd h (by decide))

theorem IsName.ne_nil {n : Bytes} (h : IsName n) : n ≠ [] := by
  obtain ⟨b, hb, _⟩ := h.2
  rintro rfl
  cases hb

theorem IsName.not_digits {n : Bytes} (h : IsName n) : n.all isDigit = false := by
  obtain ⟨b, hb, hd⟩ := h.2
  cases n with
  | nil => cases hb
  | cons c n =>
    cases hb
    simp [hd]

theorem greedyNames_skip (t u : Bytes) (h : ch '{' ∉ t) : greedyNames (t ++ u) = greedyNames u := by
  induction t with
  | nil => rfl
  | cons c t ih =>
    simp only [List.mem_cons, not_or] at h
    rw [List.cons_append, greedyNames, if_neg (fun hc => h.1 hc.1.symm), ih h.2]

theorem takeWhile_word (n : Bytes) (h : ∀ b ∈ n, isWord b = true) (c : UInt8) (hc : isWord c = false) (u : Bytes) :
    (n ++ c :: u).takeWhile isWord = n ∧ (n ++ c :: u).dropWhile isWord = c :: u := by
  induction n with
  | nil => simp [hc]
  | cons b n ih =>
    obtain ⟨h1, h2⟩ := ih fun x hx => h x (by simp [hx])
    have hb := h b (by simp)
    simp [hb, h1, h2]

theorem greedyNames_render (ps : List (Piece Bytes)) (h : Valid ps) : greedyNames (render ps) = greedyLabels ps := by
  induction ps with
  | nil => rfl
  | cons p ps ih =>
    have ih := ih h.tail
    rcases p with t | ⟨n, g⟩
    · rw [render, greedyNames_skip _ _ (h.1 t (by simp)).1, ih]
      rfl
    · have hn := h.2 n g (by simp)
      have hno : ch '{' ∉ n := fun hm => (word_ne (hn.1 _ hm)).1 rfl
      cases g with
      | false =>
        obtain ⟨h1, h2⟩ := takeWhile_word n hn.1 (ch '}') (by decide) (render ps)
        rw [render, greedyNames, h1, h2, if_neg, greedyNames_skip _ _ hno]
        · rw [greedyNames, if_neg (by rintro ⟨hc, _⟩; exact absurd hc (by decide)), ih]
          rfl
        · rintro ⟨_, _, hc⟩
          rw [List.take_succ_cons] at hc
          exact absurd (List.cons.inj hc).1 (by decide)
      | true =>
        obtain ⟨h1, h2⟩ := takeWhile_word n hn.1 (ch '+') (by decide) (ch '}' :: render ps)
        rw [render, greedyNames, h1, h2, if_pos ⟨rfl, hn.ne_nil, by simp [asc]⟩, greedyNames_skip _ _ hno]
        rw [greedyNames, if_neg (by rintro ⟨hc, _⟩; exact absurd hc (by decide)), greedyNames,
          if_neg (by rintro ⟨hc, _⟩; exact absurd hc (by decide)), ih]
        rfl

/-- The pattern with all labels plain. -/
def plainLabels : List (Piece Bytes) → List (Piece Bytes)
  | [] => []
  | .lit t :: ps => .lit t :: plainLabels ps
  | .label n _ :: ps => .label n false :: plainLabels ps

theorem render_head (ps : List (Piece Bytes)) (h : Valid ps) : (render ps).head? ≠ some (ch '}') := by
  induction ps with
  | nil => simp [render]
  | cons p ps ih =>
    rcases p with t | ⟨n, g⟩
    · rw [render]
      cases t with
      | nil => exact ih h.tail
      | cons c t =>
        have := (h.1 (c :: t) (by simp)).2
        simp only [List.cons_append, List.head?_cons, ne_eq, Option.some.injEq]
        rintro rfl
        simp at this
    · cases g <;> (rw [render]; simp only [List.head?_cons, ne_eq, Option.some.injEq]; decide)

theorem replacePlus_skip (t u : Bytes) (h : ch '}' ∉ t) (hu : u.head? ≠ some (ch '}')) :
    replacePlus (t ++ u) = t ++ replacePlus u := by
  induction t with
  | nil => rfl
  | cons c t ih =>
    simp only [List.mem_cons, not_or] at h
    rw [List.cons_append, replacePlus, if_neg, ih h.2]
    · rfl
    · rintro ⟨_, hh⟩
      cases t with
      | nil => exact hu hh
      | cons d t =>
        simp only [List.cons_append, List.head?_cons, Option.some.injEq] at hh
        exact h.2 (by simp [hh])

theorem replacePlus_name (n u : Bytes) (h : ch '+' ∉ n) : replacePlus (n ++ u) = n ++ replacePlus u := by
  induction n with
  | nil => rfl
  | cons c t ih =>
    simp only [List.mem_cons, not_or] at h
    rw [List.cons_append, replacePlus, if_neg (fun hc => h.1 hc.1.symm), ih h.2]
    rfl

theorem replacePlus_render (ps : List (Piece Bytes)) (h : Valid ps) :
    replacePlus (render ps) = render (plainLabels ps) := by
  induction ps with
  | nil => rfl
  | cons p ps ih =>
    have ih := ih h.tail
    rcases p with t | ⟨n, g⟩
    · rw [render, replacePlus_skip _ _ (h.1 t (by simp)).2 (render_head ps h.tail), ih]
      rfl
    · have hn := h.2 n g (by simp)
      have hno : ch '+' ∉ n := fun hm => (word_ne (hn.1 _ hm)).2.2.1 rfl
      have hc1 : ∀ u, replacePlus (ch '{' :: u) = ch '{' :: replacePlus u := fun u => by
        rw [replacePlus, if_neg (by rintro ⟨hc, _⟩; exact absurd hc (by decide))]
      have hc2 : ∀ u, replacePlus (ch '}' :: u) = ch '}' :: replacePlus u := fun u => by
        rw [replacePlus, if_neg (by rintro ⟨hc, _⟩; exact absurd hc (by decide))]
      cases g with
      | false => rw [render, hc1, replacePlus_name _ _ hno, hc2, ih]; rfl
      | true =>
        rw [render, hc1, replacePlus_name _ _ hno, replacePlus, if_pos ⟨rfl, rfl⟩, hc2, ih]
        rfl

/-- Errors of the pieces are errors of the text. -/
def lift (r : Except (PathErr Bytes) Bytes) : Except Err Bytes := r.mapError .path

theorem fmt_literal (params : Bytes → Option Bytes) (t u : Bytes) (h1 : ch '{' ∉ t) (h2 : ch '}' ∉ t) :
    fmt params .literal (t ++ u) = (fmt params .literal u).map (t ++ ·) := by
  induction t with
  | nil => rw [List.nil_append]; cases fmt params .literal u <;> rfl
  | cons c t ih =>
    simp only [List.mem_cons, not_or] at h1 h2
    rw [List.cons_append, fmt, if_neg (Ne.symm h1.1), if_neg (Ne.symm h2.1), ih h1.2 h2.2]
    cases fmt params .literal u <;> simp [Except.map]

theorem fmt_field (params : Bytes → Option Bytes) (n u : Bytes) (hn : ∀ b ∈ n, isWord b = true) :
    ∀ acc, fmt params (.field acc) (n ++ u) = fmt params (.field (acc ++ n)) u := by
  induction n with
  | nil => intro acc; simp
  | cons c n ih =>
    intro acc
    obtain ⟨_, h2, _, h4⟩ := word_ne (hn c (by simp))
    rw [List.cons_append, fmt, if_neg h2, if_neg (by simp [h4]), ih fun b hb => hn b (by simp [hb])]
    simp

theorem fmt_label (params : Bytes → Option Bytes) (n u : Bytes) (hn : IsName n) :
    fmt params .literal (ch '{' :: (n ++ ch '}' :: u)) =
      match params n with
      | none => .error (.path (.missing n))
      | some v => (fmt params .literal u).map (v ++ ·) := by
  have hd := hn.not_digits
  rw [fmt, if_pos rfl]
  cases n with
  | nil => exact absurd rfl hn.ne_nil
  | cons c n =>
    obtain ⟨h1, h2, _, h4⟩ := word_ne (hn.1 c (by simp))
    rw [List.cons_append, fmt, if_neg h1, if_neg h2, if_neg (by simp [h4]),
      fmt_field _ _ _ fun b hb => hn.1 b (by simp [hb])]
    rw [fmt, if_pos rfl]
    simp only [List.cons_append, List.nil_append, hd, Bool.false_eq_true, if_false]

/-- `str.format` on a rendered pattern without greedy labels. -/
theorem fmt_render (params : Bytes → Option Bytes) (ps : List (Piece Bytes)) (h : Valid ps)
    (hg : ∀ n, Piece.label n true ∉ ps) : fmt params .literal (render ps) = lift (substitute params ps) := by
  induction ps with
  | nil => rfl
  | cons p ps ih =>
    have ih := ih h.tail fun n hn => hg n (by simp [hn])
    rcases p with t | ⟨n, g⟩
    · rw [render, fmt_literal _ _ _ (h.1 t (by simp)).1 (h.1 t (by simp)).2, ih]
      simp only [substitute, lift]
      cases substitute params ps <;> rfl
    · cases g with
      | true => exact absurd (by simp) (hg n)
      | false =>
        rw [render, fmt_label _ _ _ (h.2 n false (by simp)), ih]
        simp only [substitute, lift]
        cases params n with
        | none => rfl
        | some v => cases substitute params ps <;> rfl

theorem plainLabels_spec (ps : List (Piece Bytes)) (h : Valid ps) :
    Valid (plainLabels ps) ∧ (∀ n, Piece.label n true ∉ plainLabels ps) ∧
      ∀ params, substitute params (plainLabels ps) = substitute params ps := by
  induction ps with
  | nil => exact ⟨h, by simp [plainLabels], fun _ => rfl⟩
  | cons p ps ih =>
    obtain ⟨h1, h2, h3⟩ := ih h.tail
    rcases p with t | ⟨n, g⟩
    · refine ⟨⟨?_, ?_⟩, ?_, fun params => by simp only [plainLabels, substitute, h3]⟩
      · intro s hs
        rcases List.mem_cons.1 hs with e | e
        · cases e; exact h.1 _ (by simp)
        · exact h1.1 s e
      · intro m g hm
        rcases List.mem_cons.1 hm with e | e
        · cases e
        · exact h1.2 m g e
      · intro m hm
        rcases List.mem_cons.1 hm with e | e
        · cases e
        · exact h2 m e
    · refine ⟨⟨?_, ?_⟩, ?_, fun params => by simp only [plainLabels, substitute, h3]⟩
      · intro s hs
        rcases List.mem_cons.1 hs with e | e
        · cases e
        · exact h1.1 s e
      · intro m g' hm
        rcases List.mem_cons.1 hm with e | e
        · cases e; exact h.2 n g (by simp)
        · exact h1.2 m g' e
      · intro m hm
        rcases List.mem_cons.1 hm with e | e
        · cases e
        · exact h2 m e

theorem format_render (params : Bytes → Option Bytes) (ps : List (Piece Bytes)) (h : Valid ps) :
    fmt params .literal (replacePlus (render ps)) = lift (substitute params ps) := by
  obtain ⟨h1, h2, h3⟩ := plainLabels_spec ps h
  rw [replacePlus_render ps h, fmt_render params _ h1 h2, h3]

theorem substitute_filled (params : Bytes → Option Bytes) (ps : List (Piece Bytes)) (r : Bytes) :
    substitute params ps = .ok r ↔ Filled (fun n v => params n = some v) ps r := by
  constructor
  · induction ps generalizing r with
    | nil => intro h; cases h; exact .nil
    | cons p ps ih =>
      intro h
      rcases p with t | ⟨n, g⟩
      · simp only [substitute] at h
        cases hs : substitute params ps with
        | error e => rw [hs] at h; cases h
        | ok u => rw [hs] at h; cases h; exact .lit (ih u hs)
      · simp only [substitute] at h
        cases hn : params n with
        | none => rw [hn] at h; cases h
        | some v =>
          rw [hn] at h
          cases hs : substitute params ps with
          | error e => rw [hs] at h; cases h
          | ok u => rw [hs] at h; cases h; exact .label hn (ih u hs)
  · intro h
    induction h with
    | nil => rfl
    | lit _ ih => simp only [substitute, ih]; rfl
    | label hv _ ih => simp only [substitute, hv, ih]; rfl

theorem Filled.not_mem {value : Bytes → Bytes → Prop} {ps : List (Piece Bytes)} {r : Bytes} (h : Filled value ps r)
    (c : UInt8) (hl : ∀ t, Piece.lit t ∈ ps → c ∉ t) (hv : ∀ n v, value n v → c ∉ v) : c ∉ r := by
  induction h with
  | nil => simp
  | lit _ ih =>
    rw [List.mem_append, not_or]
    exact ⟨hl _ (by simp), ih fun t ht => hl t (by simp [ht])⟩
  | label hn _ ih =>
    rw [List.mem_append, not_or]
    exact ⟨hv _ _ hn, ih fun t ht => hl t (by simp [ht])⟩

theorem Filled.labels {value : Bytes → Bytes → Prop} {ps : List (Piece Bytes)} {r : Bytes} (h : Filled value ps r) :
    ∀ n ∈ Uri.labels ps, ∃ v, value n v := by
  induction h with
  | nil => intro n hn; cases hn
  | lit _ ih => exact ih
  | label hv _ ih =>
    intro m hm
    rcases List.mem_cons.1 hm with e | e
    · exact ⟨_, e ▸ hv⟩
    · exact ih m e

theorem Filled.writes {value : Bytes → Bytes → Prop} {ps : List (Piece Bytes)} {r : Bytes} (h : Filled value ps r)
    (G : Bytes → Prop) [DecidablePred G] (text : Bytes → Bytes) (hlit : ∀ t, Piece.lit t ∈ ps → ch '%' ∉ t)
    (hv : ∀ n v, value n v → Writes (if G n then toks (text n) else content (text n)) v) :
    Writes (intended G text ps) r := by
  induction h with
  | nil => exact .nil
  | lit _ ih => exact (writes_lit _ (hlit _ (by simp))).append (ih fun t ht => hlit t (by simp [ht]))
  | label hn _ ih => exact (hv _ _ hn).append (ih fun t ht => hlit t (by simp [ht]))

theorem toks_of_no_slash {t : Bytes} (h : ch '/' ∉ t) : toks t = content t := by
  unfold toks content
  apply List.map_congr_left
  intro b hb
  rw [if_neg]
  rintro rfl
  exact h hb

theorem number_not_mem {t : Bytes} (h : ∀ b ∈ t, unreserved b = true ∨ b = ch '+') {c : UInt8}
    (h1 : unreserved c = false) (h2 : c ≠ ch '+') : c ∉ t := by
  intro hm
  rcases h c hm with h3 | h3
  · rw [h1] at h3; cases h3
  · exact h2 h3

/-- What is stored for a value writes it: a text with slashes that separate only if the label is greedy. -/
theorem stored_writes (v : LabelValue) (hv : v.Proper) (g : Bool) :
    Writes (if g then toks v.plain else content v.plain) (v.stored g) := by
  have plain : ∀ t : Bytes, ch '/' ∉ t → ch '%' ∉ t → Writes (if g then toks t else content t) t := by
    intro t h1 h2
    have := writes_lit t h2
    rw [toks_of_no_slash h1] at this ⊢
    simpa using this
  cases v with
  | text t =>
    cases g
    · exact writes_content t
    · exact writes_greedy t
  | boolean b =>
    have := plain (LabelValue.plain (.boolean b)) (by cases b <;> decide +kernel) (by cases b <;> decide +kernel)
    cases b <;> exact this
  | number t => exact plain t (number_not_mem hv (by decide) (by decide)) (number_not_mem hv (by decide) (by decide))
  | timestamp t =>
    have := writes_greedy t
    rw [LabelValue.plain, LabelValue.stored]
    rw [toks_of_no_slash hv] at this ⊢
    simpa using this

theorem stored_not_mem (v : LabelValue) (hv : v.Proper) (g : Bool) (c : UInt8) (h1 : unreserved c = false)
    (h2 : c ≠ ch '+') (h3 : c ≠ ch '%') (h4 : c = ch '/' → g = false) : c ∉ v.stored g := by
  cases v with
  | text t =>
    cases g with
    | false => exact not_mem_quote _ _ _ h1 rfl h3
    | true =>
      have : c ≠ ch '/' := fun h => absurd (h4 h) (by simp)
      exact not_mem_quote _ _ _ h1 (by simp [slashSafe, this]) h3
  | boolean b =>
    have : ∀ x ∈ LabelValue.stored g (.boolean b), unreserved x = true := by
      cases b <;> cases g <;> decide +kernel
    intro hm
    rw [this c hm] at h1
    cases h1
  | number t => exact number_not_mem hv h1 h2
  | timestamp t =>
    rw [LabelValue.stored]
    intro hm
    by_cases hs : c = ch '/'
    · subst hs
      obtain hq | hq := Classical.em (ch '/' ∈ t)
      · exact hv hq
      · have : quote slashSafe t = quote noneSafe t := by
          unfold quote
          rw [List.flatMap_def, List.flatMap_def]
          congr 1
          apply List.map_congr_left
          intro b hb
          unfold encodeByte slashSafe noneSafe
          have : b ≠ ch '/' := by rintro rfl; exact hq hb
          simp [this]
        rw [this] at hm
        exact not_mem_quote _ _ _ h1 rfl h3 hm
    · exact not_mem_quote _ _ _ h1 (by simp [slashSafe, hs]) h3 hm

theorem lastWritten_mem {values : List (Bytes × LabelValue)} {n : Bytes} {v : LabelValue}
    (h : lastWritten values n = some v) : (n, v) ∈ values := by
  unfold lastWritten at h
  cases hf : values.reverse.find? (fun x => x.1 = n) with
  | none => rw [hf] at h; cases h
  | some x =>
    rw [hf] at h
    have h1 := List.find?_some hf
    rw [decide_eq_true_iff] at h1
    cases h
    rw [← h1]
    exact List.mem_reverse.1 (List.mem_of_find?_eq_some hf)

theorem lastWritten_some {values : List (Bytes × LabelValue)} {n : Bytes} :
    (lastWritten values n).isSome = true ↔ ∃ v, (n, v) ∈ values := by
  unfold lastWritten
  rw [Option.isSome_map, List.find?_isSome]
  constructor
  · rintro ⟨x, hx, he⟩
    rw [decide_eq_true_iff] at he
    exact ⟨x.2, by rw [← he]; exact List.mem_reverse.1 hx⟩
  · rintro ⟨v, hv⟩
    exact ⟨(n, v), List.mem_reverse.2 hv, by simp⟩

theorem path_cases (ps : List (Piece Bytes)) (h : Valid ps) (values : List (Bytes × LabelValue))
    (hp : ∀ w ∈ values, w.2.Proper) (hself : asc "self" ∉ values.map Prod.fst) :
    path (render ps) values =
      match substitute (fun n => (lastWritten values n).map (LabelValue.stored (decide (IsGreedy ps n)))) ps with
      | .error e => .error (.path e)
      | .ok r => if hasDouble r then .error (.path .emptySegment) else .ok r := by
  have hg : ∀ n, decide (n ∈ greedyNames (render ps)) = decide (IsGreedy ps n) := by
    intro n
    rw [greedyNames_render ps h]
    exact decide_eq_decide.2 (greedyLabels_iff ps n)
  unfold path formatPath
  simp only [hg]
  rw [if_neg hself, if_neg, format_render _ ps h]
  · cases substitute _ ps <;> rfl
  · simp only [List.any_eq_true, not_exists, not_and]
    intro n _
    cases hl : lastWritten values n with
    | none => simp
    | some v =>
      simp only [Option.map_some, Bool.and_eq_true, decide_eq_true_eq, not_and, not_not]
      intro hm
      rw [greedyNames_render ps h, greedyLabels_iff]
      by_contra hng
      exact stored_not_mem v (hp _ (lastWritten_mem hl)) _ _ (by decide) (by decide) (by decide)
        (fun _ => by simpa using hng) hm

theorem filled_writes {ps : List (Piece Bytes)} {values : List (Bytes × LabelValue)}
    (hp : ∀ w ∈ values, w.2.Proper) (hlit : ∀ t, Piece.lit t ∈ ps → PlainLiteral t) {r : Bytes}
    (h : Filled (fun n v => (lastWritten values n).map (LabelValue.stored (decide (IsGreedy ps n))) = some v) ps r) :
    Writes (intended (IsGreedy ps) (filling values) ps) r := by
  refine h.writes _ _ (fun t ht => (hlit t ht).1) ?_
  intro n v hv
  cases hl : lastWritten values n with
  | none => rw [hl] at hv; cases hv
  | some w =>
    rw [hl] at hv
    cases hv
    have := stored_writes w (hp _ (lastWritten_mem hl)) (decide (IsGreedy ps n))
    simpa [filling, hl] using this

/-! ## Theorems -/

/-- **C97**, proved part: for a pattern that is written as `/a/{b}/{c+}`, splitting the path of a request at its
slashes and decoding the pieces gives the segments of the pattern with the texts of the values filled in, whatever
their types; slashes of greedy labels separate, those of others are content.  The path has no `?` or `#`.
Missing: labels named `self`, see `C97_self_fails`. -/
theorem C97_partial (ps : List (Piece Bytes)) (h : Valid ps) (hlit : ∀ t, Piece.lit t ∈ ps → PlainLiteral t)
    (values : List (Bytes × LabelValue)) (hp : ∀ w ∈ values, w.2.Proper)
    (hself : ∀ v, (asc "self", v) ∉ values) (r : Bytes) (hr : path (render ps) values = .ok r) :
    (split (ch '/') r).map unquote = segments (intended (IsGreedy ps) (filling values) ps) ∧
    ch '?' ∉ r ∧ ch '#' ∉ r := by
  have hself' : asc "self" ∉ values.map Prod.fst := by
    intro hm
    obtain ⟨w, hw, he⟩ := List.mem_map.1 hm
    exact hself w.2 (by rw [← he]; exact hw)
  rw [path_cases ps h values hp hself'] at hr
  split at hr
  · cases hr
  · next u hu =>
    split at hr
    · cases hr
    · cases hr
      rw [substitute_filled] at hu
      refine ⟨(filled_writes hp hlit hu).segments.1, ?_, ?_⟩
      · refine hu.not_mem _ (fun t ht => (hlit t ht).2.1) ?_
        intro n v hv
        cases hl : lastWritten values n with
        | none => rw [hl] at hv; cases hv
        | some w =>
          rw [hl] at hv
          cases hv
          exact stored_not_mem w (hp _ (lastWritten_mem hl)) _ _ (by decide) (by decide) (by decide)
            (fun hx => absurd hx (by decide))
      · refine hu.not_mem _ (fun t ht => (hlit t ht).2.2) ?_
        intro n v hv
        cases hl : lastWritten values n with
        | none => rw [hl] at hv; cases hv
        | some w =>
          rw [hl] at hv
          cases hv
          exact stored_not_mem w (hp _ (lastWritten_mem hl)) _ _ (by decide) (by decide) (by decide)
            (fun hx => absurd hx (by decide))

/-- **C97**, proved part: there is a path exactly if every label has a value and no segment in between is empty. -/
theorem C97_succeeds_partial (ps : List (Piece Bytes)) (h : Valid ps)
    (hlit : ∀ t, Piece.lit t ∈ ps → PlainLiteral t) (values : List (Bytes × LabelValue))
    (hp : ∀ w ∈ values, w.2.Proper) (hself : ∀ v, (asc "self", v) ∉ values) :
    (∃ r, path (render ps) values = .ok r) ↔
      (∀ n ∈ labels ps, ∃ v, (n, v) ∈ values) ∧ ¬ EmptySegment (intended (IsGreedy ps) (filling values) ps) := by
  have hself' : asc "self" ∉ values.map Prod.fst := by
    intro hm
    obtain ⟨w, hw, he⟩ := List.mem_map.1 hm
    exact hself w.2 (by rw [← he]; exact hw)
  rw [path_cases ps h values hp hself']
  constructor
  · rintro ⟨r, hr⟩
    split at hr
    · cases hr
    · next u hu =>
      split at hr
      · cases hr
      · next hd =>
        rw [substitute_filled] at hu
        refine ⟨?_, fun he => hd ((filled_writes hp hlit hu).double.1.2 he)⟩
        intro n hn
        rw [← lastWritten_some]
        obtain ⟨v, hv⟩ := hu.labels n hn
        cases hl : lastWritten values n with
        | none => rw [hl] at hv; cases hv
        | some w => rfl
  · rintro ⟨hall, hne⟩
    obtain ⟨r, hr⟩ := substitute_total
      (fun n => (lastWritten values n).map (LabelValue.stored (decide (IsGreedy ps n)))) ps (by
        intro n hn
        rw [Option.isSome_map]
        exact lastWritten_some.2 (hall n hn))
    have hd := (filled_writes hp hlit ((substitute_filled _ _ _).1 hr)).double.1
    refine ⟨r, ?_⟩
    rw [hr]
    simp only
    rw [if_neg fun hx => hne (hd.1 hx)]

/-- **C97**: the URI of an operation is cut at its first question mark. -/
theorem C97_uri (ps : List (Piece Bytes)) (h : Valid ps) (hlit : ∀ t, Piece.lit t ∈ ps → PlainLiteral t) :
    splitUri (render ps) = (render ps, none) ∧
    ∀ query, splitUri (render ps ++ ch '?' :: query) = (render ps, some query) := by
  have hno : ∀ b ∈ render ps, decide (b ≠ ch '?') = true := by
    have word : ∀ n : Bytes, IsName n → ch '?' ∉ n := fun n hn hm => absurd (hn.1 _ hm) (by decide)
    have : ch '?' ∉ render ps := by
      induction ps with
      | nil => simp [render]
      | cons p ps ih =>
        have ih := ih h.tail fun t ht => hlit t (by simp [ht])
        rcases p with t | ⟨n, g⟩
        · rw [render, List.mem_append, not_or]
          exact ⟨(hlit t (by simp)).2.1, ih⟩
        · have := word n (h.2 n g (by simp))
          cases g <;> (rw [render]; simp only [List.mem_cons, List.mem_append, not_or]; refine ⟨by decide, this, ?_⟩)
          · exact ⟨by decide, ih⟩
          · exact ⟨by decide, by decide, ih⟩
    intro b hb
    rw [decide_eq_true_iff]
    rintro rfl
    exact this hb
  refine ⟨?_, fun query => ?_⟩
  · unfold splitUri
    have : (render ps).dropWhile (· ≠ ch '?') = [] := by
      rw [← List.append_nil (render ps), List.dropWhile_append_of_pos hno]
      rfl
    rw [this]
  · unfold splitUri
    rw [List.dropWhile_append_of_pos hno, List.takeWhile_append_of_pos hno]
    simp

/-- **C97**: the host prefix is its pattern with the labels replaced by encoded values, which cannot end the host:
they have letters, digits, `_.-~` and percent signs only. -/
theorem C97_host_prefix (ps : List (Piece Bytes)) (h : Valid ps) (hg : ∀ n, Piece.label n true ∉ ps)
    (values : List (Bytes × Bytes)) :
    (∀ r, hostPrefix (render ps) values = .ok r →
      Filled (fun n v => ∃ t, lastValue values n = some t ∧ unquote v = t ∧
        ∀ b ∈ v, unreserved b = true ∨ b = ch '%') ps r) ∧
    ((∃ r, hostPrefix (render ps) values = .ok r) ↔ ∀ n ∈ labels ps, (lastValue values n).isSome = true) := by
  have e : hostPrefix (render ps) values =
      lift (substitute (fun n => (lastValue values n).map (quote dotSafe)) ps) := fmt_render _ ps h hg
  have mono : ∀ {qs : List (Piece Bytes)} {r : Bytes},
      Filled (fun n v => (lastValue values n).map (quote dotSafe) = some v) qs r →
      Filled (fun n v => ∃ t, lastValue values n = some t ∧ unquote v = t ∧
        ∀ b ∈ v, unreserved b = true ∨ b = ch '%') qs r ∧
      ∀ n ∈ labels qs, (lastValue values n).isSome = true := by
    intro qs r hf
    induction hf with
    | nil => exact ⟨.nil, by simp [labels]⟩
    | lit _ ih => exact ⟨.lit ih.1, ih.2⟩
    | @label n v g qs r hv _ ih =>
      cases hl : lastValue values n with
      | none => rw [hl] at hv; cases hv
      | some t =>
        rw [hl] at hv
        cases hv
        refine ⟨.label ⟨t, hl, unquote_quote _ (by decide) t, ?_⟩ ih.1, ?_⟩
        · intro b hb
          by_cases h1 : unreserved b = true
          · exact .inl h1
          · by_cases h2 : b = ch '%'
            · exact .inr h2
            · refine absurd hb (not_mem_quote _ _ _ (by simpa using h1) ?_ h2)
              have : b ≠ ch '.' := by rintro rfl; exact h1 (by decide)
              simp [dotSafe, this]
        · intro m hm
          rcases List.mem_cons.1 hm with e | e
          · rw [e, hl]; rfl
          · exact ih.2 m e
  rw [e]
  refine ⟨fun r hr => ?_, ?_, ?_⟩
  · cases hs : substitute (fun n => (lastValue values n).map (quote dotSafe)) ps with
    | error e => rw [hs] at hr; cases hr
    | ok u =>
      rw [hs] at hr
      cases hr
      exact (mono ((substitute_filled _ _ _).1 hs)).1
  · rintro ⟨r, hr⟩
    cases hs : substitute (fun n => (lastValue values n).map (quote dotSafe)) ps with
    | error e => rw [hs] at hr; cases hr
    | ok u => exact (mono ((substitute_filled _ _ _).1 hs)).2
  · intro hall
    obtain ⟨r, hr⟩ := substitute_total (fun n => (lastValue values n).map (quote dotSafe)) ps (by
      intro n hn
      rw [Option.isSome_map]
      exact hall n hn)
    exact ⟨r, by rw [hr]; rfl⟩

/-! ## The hypotheses are met -/

def sample : List (Piece Bytes) :=
  [.lit (asc "/things/"), .label (asc "id") false, .lit (asc "/"), .label (asc "key") true, .lit (asc "/x+y/"),
    .label (asc "when") false]

theorem sample_valid : Valid sample ∧ ∀ t, Piece.lit t ∈ sample → PlainLiteral t := by
  refine ⟨⟨?_, ?_⟩, ?_⟩
  · intro t ht
    have : t = asc "/things/" ∨ t = asc "/" ∨ t = asc "/x+y/" := by simpa [sample] using ht
    rcases this with rfl | rfl | rfl <;> decide +kernel
  · intro n g hn
    have : n = asc "id" ∨ n = asc "key" ∨ n = asc "when" := by
      simp only [sample, List.mem_cons, reduceCtorEq, Piece.label.injEq, false_or, List.not_mem_nil, or_false] at hn
      tauto
    rcases this with rfl | rfl | rfl
    · exact ⟨by decide +kernel, ch 'i', by decide +kernel, by decide +kernel⟩
    · exact ⟨by decide +kernel, ch 'k', by decide +kernel, by decide +kernel⟩
    · exact ⟨by decide +kernel, ch 'w', by decide +kernel, by decide +kernel⟩
  · intro t ht
    have : t = asc "/things/" ∨ t = asc "/" ∨ t = asc "/x+y/" := by simpa [sample] using ht
    rcases this with rfl | rfl | rfl <;> (unfold PlainLiteral; decide +kernel)

example : splitUri (asc "/things/{id}/{key+}/x+y/{when}?list") = (render sample, some (asc "list")) ∧
    path (render sample) [(asc "id", .number (asc "-1.5e+20")), (asc "key", .text (asc "a b/{c}")),
      (asc "when", .timestamp (asc "2020-01-01T00:00:00Z"))] =
      .ok (asc "/things/-1.5e+20/a%20b/%7Bc%7D/x+y/2020-01-01T00%3A00%3A00Z") ∧
    LabelValue.Proper (.number (asc "-1.5e+20")) ∧ LabelValue.Proper (.timestamp (asc "2020-01-01T00:00:00Z")) ∧
    path (render sample) [(asc "id", .boolean true), (asc "key", .text (asc "a"))] =
      .error (.path (.missing (asc "when"))) ∧
    hostPrefix (render [.label (asc "b") false, .lit (asc ".data.")]) [(asc "b", asc "a/b@c")] =
      .ok (asc "a%2Fb%40c.data.") := by
  refine ⟨?_, ?_, ?_, ?_, ?_, ?_⟩
  · decide +kernel
  · decide +kernel
  · unfold LabelValue.Proper; decide +kernel
  · unfold LabelValue.Proper; decide +kernel
  · decide +kernel
  · decide +kernel

/-! ## What does not hold -/

/-- What is false of the code: no request can be made with a label named `self`, since the labels are passed as
keyword arguments to a method. -/
theorem C97_self_fails (pattern : Bytes) (v : LabelValue) (values : List (Bytes × LabelValue)) :
    path pattern ((asc "self", v) :: values) = .error .argument := by
  unfold path formatPath
  rw [if_pos (by simp)]

end Verif.Uri.Pattern
