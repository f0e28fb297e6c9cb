import Verif.Uri.Percent

/-!
# Path labels (C27)

Models `HTTPPathSerializer` (smithy_http/serializers.py:633-695) for string members and `PathPattern`
(smithy_core/types.py:185-220).

A pattern is given by its pieces: literal text and labels (`{name}` and `{name+}`).  `str.format` is
modelled for such patterns only: braces do not occur in literal text.  Members of other types are
written without encoding (booleans, numbers) or encoded the same way (timestamps); they contain no
slash.
-/

set_option autoImplicit false

namespace Verif.Uri

open Verif.Text

/-! ## Model -/

inductive Piece (L : Type) where
  | lit (t : Bytes)
  | label (name : L) (greedy : Bool)

section
variable {L : Type} [DecidableEq L]

/-- `greedy_labels` (types.py:199-202): the names matched by the pattern's `{name+}`. -/
def greedyLabels : List (Piece L) → List L
  | [] => []
  | .label n true :: ps => n :: greedyLabels ps
  | _ :: ps => greedyLabels ps

/-- What `write_string` stores for a label (serializers.py:681-687). -/
def encodeLabel (pat : List (Piece L)) (name : L) (value : Bytes) : Bytes :=
  if name ∈ greedyLabels pat then quote slashSafe value else quote noneSafe value

inductive PathErr (L : Type) where
  /-- `KeyError` of `str.format`. -/
  | missing (name : L)
  /-- "Non-greedy labels must not contain path separators" (types.py:209-212). -/
  | separator
  /-- "Path must not contain empty segments" (types.py:216-219). -/
  | emptySegment
  deriving DecidableEq, Repr

/-- `str.format` on the pieces. -/
def substitute (params : L → Option Bytes) : List (Piece L) → Except (PathErr L) Bytes
  | [] => .ok []
  | .lit t :: ps => (substitute params ps).map (t ++ ·)
  | .label n _ :: ps =>
    match params n with
    | none => .error (.missing n)
    | some v => (substitute params ps).map (v ++ ·)

/-- `"//" in text`. -/
def hasDouble : Bytes → Bool
  | a :: b :: t => (a = ch '/' && b = ch '/') || hasDouble (b :: t)
  | _ => false

/-- `PathPattern.format` (types.py:205-220); `names` are the keys of `kwargs`. -/
def format (pat : List (Piece L)) (names : List L) (params : L → Option Bytes) :
    Except (PathErr L) Bytes :=
  if names.any fun n => match params n with
      | some v => decide (ch '/' ∈ v) && decide (n ∉ greedyLabels pat)
      | none => false
  then .error .separator
  else
    match substitute params pat with
    | .error e => .error e
    | .ok r => if hasDouble r then .error .emptySegment else .ok r

/-- `HTTPPathSerializer`: the string members `values` are written one after the other, then `path`
is read. -/
def serializePath (pat : List (Piece L)) (values : List (L × Bytes)) : Except (PathErr L) Bytes :=
  format pat (values.map Prod.fst) fun n =>
    ((values.reverse.find? fun x => x.1 = n).map fun x => encodeLabel pat n x.2)

end

/-! ## Specification

The path a user has in mind is a sequence of bytes and separators: the slashes of the pattern's
literals and of greedy labels separate, all other bytes are content. -/

inductive Tok where
  | sep
  | byte (b : UInt8)
  deriving DecidableEq, Repr

/-- Slashes separate. -/
def toks (t : Bytes) : List Tok := t.map fun b => if b = ch '/' then .sep else .byte b

/-- Everything is content. -/
def content (t : Bytes) : List Tok := t.map .byte

section
variable {L : Type} [DecidableEq L]

def intended (greedy : L → Prop) [DecidablePred greedy] (value : L → Bytes) :
    List (Piece L) → List Tok
  | [] => []
  | .lit t :: ps => toks t ++ intended greedy value ps
  | .label n _ :: ps =>
    (if greedy n then toks (value n) else content (value n)) ++ intended greedy value ps

end

/-- The bytes of a segment. -/
def Tok.bytes : List Tok → Bytes
  | [] => []
  | .sep :: ts => ch '/' :: Tok.bytes ts
  | .byte b :: ts => b :: Tok.bytes ts

/-- The segments: what is between the separators. -/
def segments (ts : List Tok) : List Bytes := (split Tok.sep ts).map Tok.bytes

/-- Two separators with nothing in between. -/
def EmptySegment (ts : List Tok) : Prop := [Tok.sep, Tok.sep] <:+: ts

/-- Literal text as patterns have it: not percent-encoded, no query, no fragment. -/
def PlainLiteral (t : Bytes) : Prop := ch '%' ∉ t ∧ ch '?' ∉ t ∧ ch '#' ∉ t

/-! ## Theorems -/

/-- How tokens are written in the path. -/
def tokText : Tok → Bytes → Prop
  | .sep, t => t = [ch '/']
  | .byte b, t => b ≠ ch '/' ∧ b ≠ ch '%' ∧ t = [b] ∨
      t = [ch '%', hexDigit (b.toNat / 16), hexDigit (b.toNat % 16)]

/-- The text writes the tokens one after the other. -/
inductive Writes : List Tok → Bytes → Prop
  | nil : Writes [] []
  | cons {k : Tok} {ts : List Tok} {t u : Bytes} : tokText k t → Writes ts u →
      Writes (k :: ts) (t ++ u)

theorem Writes.append {ts us : List Tok} {t u : Bytes} (h1 : Writes ts t) (h2 : Writes us u) :
    Writes (ts ++ us) (t ++ u) := by
  induction h1 with
  | nil => exact h2
  | cons hk _ ih => rw [List.append_assoc]; exact .cons hk ih

theorem writes_lit (t : Bytes) (h : ch '%' ∉ t) : Writes (toks t) t := by
  induction t with
  | nil => exact .nil
  | cons b t ih =>
    simp only [List.mem_cons, not_or] at h
    have := ih h.2
    by_cases hb : b = ch '/'
    · simpa [toks, hb] using Writes.cons (k := .sep) (t := [ch '/']) rfl this
    · simpa [toks, hb] using
        Writes.cons (k := .byte b) (t := [b]) (Or.inl ⟨hb, Ne.symm h.1, rfl⟩) this

theorem writes_content (t : Bytes) : Writes (content t) (quote noneSafe t) := by
  induction t with
  | nil => exact .nil
  | cons b t ih =>
    simp only [content, List.map_cons, quote, List.flatMap_cons] at ih ⊢
    refine .cons ?_ ih
    simp only [tokText, encodeByte, noneSafe, Bool.or_false]
    by_cases h : unreserved b = true
    · rw [if_pos h]
      left
      refine ⟨?_, ?_, rfl⟩ <;> (rintro rfl; exact absurd h (by decide))
    · rw [if_neg h]; exact Or.inr rfl

theorem writes_greedy (t : Bytes) : Writes (toks t) (quote slashSafe t) := by
  induction t with
  | nil => exact .nil
  | cons b t ih =>
    simp only [toks, List.map_cons, quote, List.flatMap_cons] at ih ⊢
    by_cases hb : b = ch '/'
    · subst hb
      exact .cons (k := .sep) (t := encodeByte slashSafe (ch '/')) rfl ih
    · rw [if_neg hb]
      refine .cons ?_ ih
      simp only [tokText, encodeByte, slashSafe, hb, decide_false, Bool.or_false]
      by_cases h : unreserved b = true
      · rw [if_pos h]
        left
        refine ⟨hb, ?_, rfl⟩
        rintro rfl; exact absurd h (by decide)
      · rw [if_neg h]; exact Or.inr rfl

/-- Splitting the text at slashes and decoding gives the segments. -/
theorem Writes.segments {ts : List Tok} {t : Bytes} (h : Writes ts t) :
    (split (ch '/') t).map unquote = segments ts ∧
    ∀ p ∈ split (ch '/') t, ∀ u : Bytes, unquote (p ++ u) = unquote p ++ unquote u := by
  induction h with
  | nil => exact ⟨rfl, by simp [split, unquote]⟩
  | @cons k ts t u hk _ ih =>
    obtain ⟨ih1, ih2⟩ := ih
    cases k with
    | sep =>
      simp only [tokText] at hk
      subst hk
      simp only [List.singleton_append, split, if_true, List.map_cons, Verif.Uri.segments]
      refine ⟨by rw [ih1]; rfl, ?_⟩
      intro p hp
      rcases List.mem_cons.1 hp with rfl | hp
      · simp [unquote]
      · exact ih2 p hp
    | byte b =>
      have hseg : ∃ p ps, split (ch '/') u = p :: ps ∧ split (ch '/') (t ++ u) = (t ++ p) :: ps ∧
          (∀ v, unquote (t ++ v) = b :: unquote v) := by
        rcases hk with ⟨h1, h2, rfl⟩ | rfl
        · obtain ⟨p, ps, e1, e2⟩ := split_cons_ne (ch '/') b u h1
          exact ⟨p, ps, e1, e2, fun v => unquote_cons b v h2⟩
        · have hh := hexDigit_unreserved b
          have n1 : hexDigit (b.toNat / 16) ≠ ch '/' := by
            intro e; rw [e] at hh; exact absurd hh.1 (by decide)
          have n2 : hexDigit (b.toNat % 16) ≠ ch '/' := by
            intro e; rw [e] at hh; exact absurd hh.2 (by decide)
          obtain ⟨p, ps, e1, e2⟩ := split_cons_ne (ch '/') (hexDigit (b.toNat % 16)) u n2
          obtain ⟨p', ps', e1', e2'⟩ := split_cons_ne (ch '/') (hexDigit (b.toNat / 16)) _ n1
          obtain ⟨p'', ps'', e1'', e2''⟩ := split_cons_ne (ch '/') (ch '%')
            (hexDigit (b.toNat / 16) :: hexDigit (b.toNat % 16) :: u) (by decide)
          rw [e2] at e1'
          simp only [List.cons.injEq] at e1'
          obtain ⟨rfl, rfl⟩ := e1'
          rw [e2'] at e1''
          simp only [List.cons.injEq] at e1''
          obtain ⟨rfl, rfl⟩ := e1''
          refine ⟨p, ps, e1, e2'', fun v => ?_⟩
          have := hex_round_trip b
          simp only [List.cons_append, List.nil_append, unquote, if_true, this.1, this.2]
          congr 1
          have : 16 * (b.toNat / 16) + b.toNat % 16 = b.toNat := by omega
          rw [this, UInt8.ofNat_toNat]
      obtain ⟨p, ps, e1, e2, e3⟩ := hseg
      obtain ⟨q, qs, f1, f2⟩ := split_cons_ne Tok.sep (.byte b) ts (by simp)
      rw [e1] at ih1 ih2
      simp only [Verif.Uri.segments, f1, List.map_cons, List.cons.injEq] at ih1
      rw [e2]
      refine ⟨?_, ?_⟩
      · simp only [Verif.Uri.segments, f2, List.map_cons, e3, Tok.bytes, ih1.1, ih1.2]
      · intro r hr v
        rcases List.mem_cons.1 hr with rfl | hr
        · rw [List.append_assoc, e3, e3, ih2 p (by simp)]
          rfl
        · exact ih2 r (by simp [hr]) v

theorem Writes.nil_iff {ts : List Tok} {t : Bytes} (h : Writes ts t) (ht : t = []) : ts = [] := by
  cases h with
  | nil => rfl
  | @cons k ts t u hk hw =>
    simp only [List.append_eq_nil_iff] at ht
    obtain ⟨rfl, rfl⟩ := ht
    cases k <;> simp [tokText] at hk

theorem Writes.sep_head {ts us : List Tok} {t u : Bytes} {c : UInt8} (h : Writes ts t)
    (hts : ts = .sep :: us) (ht : t = c :: u) : c = ch '/' := by
  cases h with
  | nil => cases hts
  | @cons k ts t v hk hw =>
    simp only [List.cons.injEq] at hts
    obtain ⟨rfl, -⟩ := hts
    simp only [tokText] at hk
    subst hk
    simp only [List.singleton_append, List.cons.injEq] at ht
    exact ht.1.symm

/-- Two slashes in a row are written exactly for two separators in a row. -/
theorem Writes.double {ts : List Tok} {t : Bytes} (h : Writes ts t) :
    (hasDouble t = true ↔ EmptySegment ts) ∧ (∀ u, t = ch '/' :: u → ∃ us, ts = .sep :: us) := by
  have cons_ne : ∀ (b : UInt8) (u : Bytes), b ≠ ch '/' → hasDouble (b :: u) = hasDouble u := by
    intro b u hb
    cases u with
    | nil => rfl
    | cons c u => simp [hasDouble, hb]
  have infix_cons : ∀ (k : Tok) (ts : List Tok), k ≠ .sep →
      (EmptySegment (k :: ts) ↔ EmptySegment ts) := by
    intro k ts hk
    unfold EmptySegment
    rw [List.infix_cons_iff]
    constructor
    · rintro (h | h)
      · rw [List.cons_prefix_cons] at h
        exact absurd h.1.symm hk
      · exact h
    · exact Or.inr
  induction h with
  | nil =>
    refine ⟨?_, by simp⟩
    simp [hasDouble, EmptySegment]
  | @cons k ts t u hk hw ih =>
    obtain ⟨ih1, ih2⟩ := ih
    cases k with
    | byte b =>
      rw [infix_cons _ _ (by simp)]
      rcases hk with ⟨h1, -, rfl⟩ | rfl
      · refine ⟨?_, ?_⟩
        · rw [List.singleton_append, cons_ne _ _ h1]; exact ih1
        · intro v hv
          simp only [List.singleton_append, List.cons.injEq] at hv
          exact absurd hv.1 h1
      · have hh := hexDigit_unreserved b
        have n1 : hexDigit (b.toNat / 16) ≠ ch '/' := by
          intro e; rw [e] at hh; exact absurd hh.1 (by decide)
        have n2 : hexDigit (b.toNat % 16) ≠ ch '/' := by
          intro e; rw [e] at hh; exact absurd hh.2 (by decide)
        refine ⟨?_, ?_⟩
        · simp only [List.cons_append, List.nil_append]
          rw [cons_ne _ _ (by decide), cons_ne _ _ n1, cons_ne _ _ n2]
          exact ih1
        · intro v hv
          simp only [List.cons_append, List.cons.injEq] at hv
          exact absurd hv.1 (by decide)
    | sep =>
      simp only [tokText] at hk
      subst hk
      refine ⟨?_, fun v _ => ⟨ts, rfl⟩⟩
      simp only [List.singleton_append]
      unfold EmptySegment at ih1 ⊢
      rw [List.infix_cons_iff, ← ih1]
      cases u with
      | nil =>
        have := hw.nil_iff rfl
        subst this
        simp [hasDouble]
      | cons c u =>
        simp only [hasDouble, decide_true, Bool.true_and, Bool.or_eq_true, decide_eq_true_eq]
        constructor
        · rintro (h | h)
          · subst h
            obtain ⟨us, rfl⟩ := ih2 u rfl
            left
            exact ⟨us, rfl⟩
          · exact Or.inr h
        · rintro (h | h)
          · left
            rw [List.cons_prefix_cons] at h
            obtain ⟨v, hv⟩ := h.2
            rw [← hv] at hw
            exact hw.sep_head rfl rfl
          · exact Or.inr h

section
variable {L : Type} [DecidableEq L]

/-- The path written for the given label values. -/
theorem substitute_writes (params : L → Option Bytes) (value : L → Bytes) (g : L → Prop)
    [DecidablePred g]
    (hp : ∀ n v, params n = some v → v = if g n then quote slashSafe (value n)
      else quote noneSafe (value n))
    (pat : List (Piece L)) (hlit : ∀ t, Piece.lit t ∈ pat → ch '%' ∉ t) :
    ∀ r, substitute params pat = .ok r → Writes (intended g value pat) r := by
  induction pat with
  | nil =>
    intro r h
    simp only [substitute, Except.ok.injEq] at h
    subst h; exact .nil
  | cons p ps ih =>
    have ih := ih fun t ht => hlit t (List.mem_cons_of_mem _ ht)
    intro r h
    cases p with
    | lit t =>
      simp only [substitute] at h
      cases hs : substitute params ps with
      | error e => rw [hs] at h; cases h
      | ok u =>
        rw [hs] at h
        simp only [Except.map, Except.ok.injEq] at h
        subst h
        exact (writes_lit t (hlit t (by simp))).append (ih u hs)
    | label n greedy =>
      simp only [substitute] at h
      cases hn : params n with
      | none => rw [hn] at h; cases h
      | some v =>
        rw [hn] at h
        cases hs : substitute params ps with
        | error e => rw [hs] at h; cases h
        | ok u =>
          rw [hs] at h
          simp only [Except.map, Except.ok.injEq] at h
          subst h
          simp only [intended]
          refine Writes.append ?_ (ih u hs)
          rw [hp n v hn]
          split
          · exact writes_greedy _
          · exact writes_content _

/-- All labels of the pattern. -/
def labels : List (Piece L) → List L
  | [] => []
  | .lit _ :: ps => labels ps
  | .label n _ :: ps => n :: labels ps

theorem substitute_total (params : L → Option Bytes) (pat : List (Piece L))
    (h : ∀ n ∈ labels pat, (params n).isSome = true) : ∃ r, substitute params pat = .ok r := by
  induction pat with
  | nil => exact ⟨[], rfl⟩
  | cons p ps ih =>
    cases p with
    | lit t =>
      obtain ⟨r, hr⟩ := ih h
      exact ⟨_, by simp only [substitute, hr]; rfl⟩
    | label n g =>
      obtain ⟨r, hr⟩ := ih fun x hx => h x (by simp [labels, hx])
      have := h n (by simp [labels])
      cases hn : params n with
      | none => rw [hn] at this; cases this
      | some v => exact ⟨_, by simp only [substitute, hn, hr]; rfl⟩

/-- The greedy labels of a pattern: those written `{name+}`. -/
def IsGreedy (pat : List (Piece L)) (n : L) : Prop := Piece.label n true ∈ pat

theorem greedyLabels_iff (pat : List (Piece L)) (n : L) :
    n ∈ greedyLabels pat ↔ IsGreedy pat n := by
  unfold IsGreedy
  induction pat with
  | nil => simp [greedyLabels]
  | cons p ps ih =>
    match p with
    | .label m true => simp [greedyLabels, ih]
    | .label m false => simp [greedyLabels, ih]
    | .lit t => simp [greedyLabels, ih]

instance (pat : List (Piece L)) : DecidablePred (IsGreedy pat) := fun n =>
  decidable_of_iff _ (greedyLabels_iff pat n)

/-- The value last written for a label. -/
def lastValue (values : List (L × Bytes)) (n : L) : Option Bytes :=
  (values.reverse.find? fun x => x.1 = n).map Prod.snd

theorem serializePath_cases (pat : List (Piece L)) (values : List (L × Bytes)) :
    serializePath pat values =
      match substitute (fun n => (lastValue values n).map (encodeLabel pat n)) pat with
      | .error e => .error e
      | .ok r => if hasDouble r then .error .emptySegment else .ok r := by
  have hparams : (fun n => ((values.reverse.find? fun x => x.1 = n).map
      fun x => encodeLabel pat n x.2)) = fun n => (lastValue values n).map (encodeLabel pat n) := by
    funext n
    simp [lastValue, Option.map_map, Function.comp_def]
  unfold serializePath format
  rw [hparams, if_neg]
  simp only [List.any_eq_true, not_exists, not_and]
  intro n _
  cases h : lastValue values n with
  | none => simp
  | some v =>
    simp only [Option.map_some, Bool.and_eq_true, decide_eq_true_eq, not_and, not_not]
    intro hm
    unfold encodeLabel at hm
    by_cases hg : n ∈ greedyLabels pat
    · exact hg
    · rw [if_neg hg] at hm
      exact absurd hm (not_mem_quote _ _ _ (by decide) (by decide) (by decide))

theorem serializePath_writes (pat : List (Piece L)) (values : List (L × Bytes))
    (hlit : ∀ t, Piece.lit t ∈ pat → ch '%' ∉ t) (r : Bytes)
    (h : substitute (fun n => (lastValue values n).map (encodeLabel pat n)) pat = .ok r) :
    Writes (intended (IsGreedy pat) (fun n => (lastValue values n).getD []) pat) r := by
  refine substitute_writes _ _ _ ?_ pat hlit r h
  intro n v hv
  cases hl : lastValue values n with
  | none => rw [hl] at hv; cases hv
  | some w =>
    rw [hl] at hv
    simp only [Option.map_some, Option.some.injEq, encodeLabel] at hv
    simp only [Option.getD_some, ← hv]
    by_cases hg : n ∈ greedyLabels pat
    · rw [if_pos hg, if_pos ((greedyLabels_iff pat n).1 hg)]
    · rw [if_neg hg, if_neg fun h => hg ((greedyLabels_iff pat n).2 h)]

/-- **C27**: splitting the serialized path at its slashes and percent-decoding the pieces gives the
segments of the pattern with the values filled in, where slashes of ordinary labels are content and
slashes of greedy labels separate. -/
theorem C27_segments (pat : List (Piece L)) (values : List (L × Bytes))
    (hlit : ∀ t, Piece.lit t ∈ pat → PlainLiteral t) (path : Bytes)
    (h : serializePath pat values = .ok path) :
    (split (ch '/') path).map unquote =
      segments (intended (IsGreedy pat) (fun n => (lastValue values n).getD []) pat) := by
  rw [serializePath_cases] at h
  split at h
  · cases h
  · next r hr =>
    split at h
    · cases h
    · simp only [Except.ok.injEq] at h
      subst h
      exact (serializePath_writes pat values (fun t ht => (hlit t ht).1) _ hr).segments.1

/-- **C27**: the path has no `?` or `#`, whatever the values. -/
theorem C27_stays_in_path (pat : List (Piece L)) (values : List (L × Bytes))
    (hlit : ∀ t, Piece.lit t ∈ pat → PlainLiteral t) (path : Bytes)
    (h : serializePath pat values = .ok path) : ch '?' ∉ path ∧ ch '#' ∉ path := by
  rw [serializePath_cases] at h
  split at h
  · cases h
  · next r hr =>
    split at h
    · cases h
    · simp only [Except.ok.injEq] at h
      subst h
      have key : ∀ (c : UInt8), unreserved c = false → c ≠ ch '/' → c ≠ ch '%' →
          (∀ t, Piece.lit t ∈ pat → c ∉ t) → c ∉ r := by
        intro c h1 h2 h3 h4
        clear hlit
        have henc : ∀ n v, c ∉ encodeLabel pat n v := by
          intro n v
          unfold encodeLabel
          split
          · exact not_mem_quote _ _ _ h1 (by simp [slashSafe, h2]) h3
          · exact not_mem_quote _ _ _ h1 rfl h3
        generalize hps : pat = ps at hr h4
        have henc' : ∀ n v, c ∉ encodeLabel ps n v := by rw [← hps]; exact henc
        have gen : ∀ (qs : List (Piece L)) (r : Bytes), (∀ t, Piece.lit t ∈ qs → c ∉ t) →
            substitute (fun n => (lastValue values n).map (encodeLabel ps n)) qs = .ok r → c ∉ r := by
          intro qs
          induction qs with
          | nil =>
            intro r _ h
            simp only [substitute, Except.ok.injEq] at h
            subst h; simp
          | cons p qs ih =>
            intro r hl h
            cases p with
            | lit t =>
              simp only [substitute] at h
              cases hs : substitute (fun n => (lastValue values n).map (encodeLabel ps n)) qs with
              | error e => rw [hs] at h; cases h
              | ok u =>
                rw [hs] at h
                simp only [Except.map, Except.ok.injEq] at h
                subst h
                simp only [List.mem_append, not_or]
                exact ⟨hl t (by simp), ih u (fun t ht => hl t (List.mem_cons_of_mem _ ht)) hs⟩
            | label n g =>
              simp only [substitute] at h
              cases hn : lastValue values n with
              | none => rw [hn] at h; cases h
              | some v =>
                rw [hn] at h
                cases hs : substitute (fun n => (lastValue values n).map (encodeLabel ps n)) qs with
                | error e => rw [hs] at h; cases h
                | ok u =>
                  rw [hs] at h
                  simp only [Option.map_some, Except.map, Except.ok.injEq] at h
                  subst h
                  simp only [List.mem_append, not_or]
                  exact ⟨henc' n v, ih u (fun t ht => hl t (List.mem_cons_of_mem _ ht)) hs⟩
        exact gen ps r h4 hr
      exact ⟨key _ (by decide) (by decide) (by decide) fun t ht => (hlit t ht).2.1,
        key _ (by decide) (by decide) (by decide) fun t ht => (hlit t ht).2.2⟩

/-- **C27**: when every label has a value, serialization fails exactly when the filled-in path has
an empty segment between two separators. -/
theorem C27_rejects_empty_segments (pat : List (Piece L)) (values : List (L × Bytes))
    (hlit : ∀ t, Piece.lit t ∈ pat → PlainLiteral t)
    (hall : ∀ n ∈ labels pat, ∃ v, (n, v) ∈ values) :
    serializePath pat values = .error .emptySegment ↔
      EmptySegment (intended (IsGreedy pat) (fun n => (lastValue values n).getD []) pat) := by
  have hsome : ∀ n ∈ labels pat,
      ((fun n => (lastValue values n).map (encodeLabel pat n)) n).isSome = true := by
    intro n hn
    obtain ⟨v, hv⟩ := hall n hn
    have : (values.reverse.find? fun x => x.1 = n).isSome = true := by
      rw [List.find?_isSome]
      exact ⟨(n, v), List.mem_reverse.2 hv, by simp⟩
    simp [lastValue, this]
  obtain ⟨r, hr⟩ := substitute_total _ pat hsome
  have hw := (serializePath_writes pat values (fun t ht => (hlit t ht).1) r hr).double.1
  rw [serializePath_cases, hr]
  rw [← hw]
  by_cases hd : hasDouble r = true
  · simp [hd]
  · simp [hd]

end

/-! ## Dots are not encoded -/

/-- What is false of the code: a label value `..` is written as it is, so that whoever normalizes
the path (as SigV4 canonicalization and most servers do) drops the segment before it. -/
theorem C27_dot_label_fails :
    serializePath [.lit (asc "/bucket/"), .label "Key" false, .lit (asc "/acl")]
      [("Key", asc "..")] = .ok (asc "/bucket/../acl") := by decide +kernel

/-! ## The hypotheses are met -/

example : serializePath [.lit (asc "/a/"), .label "x" false, .lit (asc "/b/"), .label "y" true]
    [("x", asc "1/2 ?"), ("y", asc "p/q#")] = .ok (asc "/a/1%2F2%20%3F/b/p/q%23") := by
  decide +kernel

example : ∀ t, Piece.lit t ∈ ([.lit (asc "/a/"), .label "x" false] : List (Piece String)) →
    PlainLiteral t := by
  intro t ht
  simp only [List.mem_cons, Piece.lit.injEq, List.not_mem_nil, or_false, reduceCtorEq] at ht
  subst ht
  exact ⟨by decide +kernel, by decide +kernel, by decide +kernel⟩

example : serializePath [.lit (asc "/a/"), .label "x" false, .lit (asc "/b")]
    [("x", [])] = .error .emptySegment := by decide +kernel

end Verif.Uri
