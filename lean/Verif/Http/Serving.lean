import Verif.Http.RoundTrip
import Verif.EventStream.Lemmas

/-!
# Requests written and read by a service (C96)

What `HTTPRequestSerializer` (smithy_http/serializers.py:52-201) writes, as modelled by `serializeRequest`,
read by a service that knows the operation: the pattern of its path, its query, and the members of its input.
The service is specification; it is not part of the code.
-/

set_option autoImplicit false

namespace Verif.Http.Serving

open Verif.Http Verif.Http.RoundTrip
open Verif.Fields (Field)
open Verif.Text
open Verif.Uri (Piece ch Tok asc)
open Verif.HeaderText (asString)

/-! ## Specification: a service -/

/-- A segment of the path of an operation. -/
inductive Seg where
  | lit (t : Bytes)
  | label (name : Text)
  | greedy (name : Text)
  deriving DecidableEq

def Seg.piece : Seg → Piece Text
  | .lit t => .lit t
  | .label n => .label n false
  | .greedy n => .label n true

/-- The pattern of a path: a slash and a segment, again and again. -/
def pattern (segs : List Seg) : List (Piece Text) := segs.flatMap fun s => [.lit [ch '/'], s.piece]

/-- The labels of a path. -/
def names : List Seg → List Text
  | [] => []
  | .lit _ :: ss => names ss
  | .label n :: ss => n :: names ss
  | .greedy n :: ss => n :: names ss

/-- Match the decoded segments of a path: a greedy label gets what the segments behind it leave. -/
def route : List Seg → List Bytes → Option (List (Text × Bytes))
  | [], [] => some []
  | .lit t :: ss, s :: rest => if s = t then route ss rest else none
  | .label n :: ss, s :: rest => (route ss rest).map ((n, s) :: ·)
  | .greedy n :: ss, rest =>
    (route ss (rest.drop (rest.length - ss.length))).map
      ((n, join (ch '/') (rest.take (rest.length - ss.length))) :: ·)
  | _, _ => none

/-- The labels in a path. -/
def labelsIn (segs : List Seg) (path : Bytes) : Option (List (Text × Bytes)) :=
  route segs ((split (ch '/') path).tail.map Uri.unquote)

/-- What the service has of its own: texts of bytes, the codec, and which maps have lists as values. -/
structure Service where
  lower : Text → Text
  text : Bytes → Text
  member : Bytes → Member → Option Val
  value : Bytes → Option Val
  multi : Member → Bool

/-- The query parameters that have a value. -/
def parameters (sv : Service) (query : Bytes) : List (Text × Text) :=
  (Uri.parseQuery query).filterMap fun p => p.2.map fun v => (sv.text p.1, sv.text v)

/-- The values under a name. -/
def under (ps : List (Text × Text)) (k : Text) : List Text := (ps.filter fun p => p.1 = k).map Prod.snd

/-- The entries of a map whose values are lists. -/
def grouped (ps : List (Text × Text)) : List (Text × List Text) :=
  (ps.map Prod.fst).eraseDups.map fun k => (k, under ps k)

/-- One value, or the list of all. -/
def oneOrAll (m : Member) : List Text → Option Val
  | [] => none
  | v :: vs => if m.shape = .list then some (.list (v :: vs)) else some (.text v)

/-- The headers under a prefix. -/
def prefixed (lower : Text → Text) (fs : List (Field Text)) (p : Text) : List (Text × Text) :=
  fs.filterMap fun f =>
    if (lower p).isPrefixOf (lower f.name) then some (f.name.drop p.length, asString f.values) else none

/-- The service reads a member from where it is bound; `bound` are the names of query parameters that are
not left for maps. -/
def read (sv : Service) (segs : List Seg) (bound : List Text) (loc : Member → Binding) (r : Request)
    (m : Member) : Option Val :=
  match loc m with
  | .label => ((labelsIn segs r.path).bind (List.lookup m.name)).map fun b => .text (sv.text b)
  | .query => oneOrAll m (under (parameters sv r.query) (m.query.getD []))
  | .queryParams =>
    match (parameters sv r.query).filter fun p => p.1 ∉ bound with
    | [] => none
    | ps => some (if sv.multi m then .multimap (grouped ps) else .map ps)
  | .header => oneOrAll m (fieldValues sv.lower r.fields (m.header.getD []))
  | .prefixHeaders =>
    match prefixed sv.lower r.fields (m.prefixHeaders.getD []) with
    | [] => none
    | kvs => some (.map kvs)
  | .payload =>
    match r.body with
    | .stream s => some (.stream s)
    | .bytes b =>
      if m.shape = .blob then some (.blob b)
      else if m.shape = .string ∨ m.shape = .enum then some (.text (sv.text b))
      else sv.value b
    | .events => none
  | .body | .host =>
    match r.body with
    | .bytes b => sv.member b m
    | _ => none
  | .status => none

/-! ## Specification: operations and inputs -/

/-- The operation is one that can be told from its requests. -/
structure WellBound (lower : Text → Text) (text : Bytes → Text) (loc : Member → Binding) (segs : List Seg)
    (literal : Bytes) (bound : List Text) (ms : List Member) : Prop where
  /-- members have different names -/
  members : ∀ m ∈ ms, ∀ m' ∈ ms, m.name = m'.name → m = m'
  /-- labels are different, at most one of them greedy, and each is a member -/
  labels : (names segs).Nodup
  greedy : ∀ pre n post, segs = pre ++ .greedy n :: post → ∀ n', Seg.greedy n' ∉ post
  labelled : ∀ m ∈ ms, loc m = .label → m.name ∈ names segs
  literals : ∀ t, Seg.lit t ∈ segs → Uri.PlainLiteral t ∧ ch '/' ∉ t
  /-- the names of query parameters are different -/
  query : ∀ m ∈ ms, ∀ m' ∈ ms, loc m = .query → loc m' = .query →
    m.query.getD [] = m'.query.getD [] → m = m'
  /-- `bound` has those of the members and of the operation itself, which are different -/
  boundQuery : ∀ m ∈ ms, loc m = .query → m.query.getD [] ∈ bound
  boundLiteral : ∀ p ∈ Uri.parseQuery literal, text p.1 ∈ bound
  literalQuery : ∀ m ∈ ms, loc m = .query → ∀ p ∈ Uri.parseQuery literal, text p.1 ≠ m.query.getD []
  /-- there is one map of query parameters at most -/
  queryParams : ∀ m ∈ ms, ∀ m' ∈ ms, loc m = .queryParams → loc m' = .queryParams → m = m'
  /-- the names of headers are different, and different from those that every request has -/
  headers : ∀ m ∈ ms, ∀ m' ∈ ms, loc m = .header → loc m' = .header →
    lower (m.header.getD []) = lower (m'.header.getD []) → m = m'
  ownHeaders : ∀ m ∈ ms, loc m = .header → ∀ n ∈ ownNames, lower n ≠ lower (m.header.getD [])
  /-- and none is under a prefix, nor one prefix under another -/
  prefixes : ∀ m ∈ ms, ∀ m' ∈ ms, loc m = .prefixHeaders → loc m' = .header →
    ¬ lower (m.prefixHeaders.getD []) <+: lower (m'.header.getD [])
  onePrefix : ∀ m ∈ ms, ∀ m' ∈ ms, loc m = .prefixHeaders → loc m' = .prefixHeaders → m = m'
  ownPrefixes : ∀ m ∈ ms, loc m = .prefixHeaders → ∀ n ∈ ownNames,
    ¬ lower (m.prefixHeaders.getD []) <+: lower n
  /-- with a payload there is nothing else in the body -/
  payload : ∀ m ∈ ms, loc m = .payload → ∀ m' ∈ ms, loc m' = .payload ∨ loc m' = .body ∨ loc m' = .host →
    m' = m
  noEvents : ∀ m ∈ ms, ¬ (m.streaming = true ∧ m.shape = .union)

/-- The value has the shape of the member, and something in it to be written. -/
def Fits (sv : Service) (env : Env) (loc : Member → Binding) (bound : List Text) (m : Member) (v : Val) : Prop :=
  match loc m with
  | .label => ∃ t, v = .text t
  | .query | .header => (m.shape ≠ .list ∧ ∃ t, v = .text t) ∨ (m.shape = .list ∧ ∃ t ts, v = .list (t :: ts))
  | .queryParams =>
    (sv.multi m = false ∧ ∃ kvs, v = .map kvs ∧ kvs ≠ [] ∧ ∀ kv ∈ kvs, kv.1 ∉ bound) ∨
    (sv.multi m = true ∧ ∃ kvs, v = .multimap kvs ∧ kvs ≠ [] ∧ (kvs.map Prod.fst).Nodup ∧
      ∀ kv ∈ kvs, kv.2 ≠ [] ∧ kv.1 ∉ bound)
  | .prefixHeaders => ∃ kvs, v = .map kvs ∧ kvs ≠ [] ∧ (kvs.map fun kv => sv.lower kv.1).Nodup
  | .payload =>
    (m.shape = .blob ∧ ((∃ b, v = .blob b) ∨ ∃ s, v = .stream s)) ∨
    ((m.shape = .string ∨ m.shape = .enum) ∧ ∃ t, v = .text t) ∨
    (m.shape ≠ .blob ∧ m.shape ≠ .string ∧ m.shape ≠ .enum ∧ sv.value (env.encodeValues [(m, v)]) = some v)
  | _ => True

/-- An input: every member at most once, with a value that fits; the codec reads what it wrote. -/
structure Input (sv : Service) (env : Env) (loc : Member → Binding) (bound : List Text) (ms : List Member)
    (ws : List (Member × Val)) : Prop where
  members : ∀ w ∈ ws, w.1 ∈ ms
  once : (ws.map Prod.fst).Nodup
  fits : ∀ w ∈ ws, Fits sv env loc bound w.1 w.2
  codec : ∀ m, sv.member (env.encodeStruct (ws.filter fun w => loc w.1 = .body ∨ loc w.1 = .host)) m =
    (ws.filter fun w => loc w.1 = .body ∨ loc w.1 = .host).lookup m

/-- The same value; a map is its entries in whatever order. -/
def Same (v v' : Val) : Prop :=
  v = v' ∨ ∃ kvs kvs', v = .map kvs ∧ v' = .map kvs' ∧ ∀ kv, kv ∈ kvs ↔ kv ∈ kvs'

/-! ## Paths -/

/-- The segments that a segment of the pattern makes. -/
def parts (value : Text → Bytes) : Seg → List Bytes
  | .lit t => [t]
  | .label n => [value n]
  | .greedy n => split (ch '/') (value n)

theorem toks_no_sep (t : Bytes) (h : ch '/' ∉ t) : Tok.sep ∉ Uri.toks t := by
  unfold Uri.toks
  intro hm
  rw [List.mem_map] at hm
  obtain ⟨b, hb, he⟩ := hm
  split at he
  · next e => exact h (e ▸ hb)
  · cases he

theorem content_no_sep (t : Bytes) : Tok.sep ∉ Uri.content t := by
  unfold Uri.content
  intro hm
  rw [List.mem_map] at hm
  obtain ⟨b, _, he⟩ := hm
  cases he

theorem bytes_content (t : Bytes) : Tok.bytes (Uri.content t) = t := by
  induction t with
  | nil => rfl
  | cons b t ih => simp only [Uri.content, List.map_cons, Tok.bytes] at ih ⊢; rw [ih]

theorem segments_toks (t : Bytes) : (split Tok.sep (Uri.toks t)).map Tok.bytes = split (ch '/') t := by
  induction t with
  | nil => rfl
  | cons b t ih =>
    have hc : Uri.toks (b :: t) = (if b = ch '/' then Tok.sep else .byte b) :: Uri.toks t := rfl
    rw [hc]
    by_cases hb : b = ch '/'
    · rw [if_pos hb, hb]
      simp only [split, if_true, List.map_cons, ih]
      rfl
    · rw [if_neg hb]
      obtain ⟨p, ps, h1, h2⟩ := split_cons_ne Tok.sep (.byte b) (Uri.toks t) (by simp)
      obtain ⟨q, qs, h3, h4⟩ := split_cons_ne (ch '/') b t hb
      rw [h2, h4]
      rw [h1, h3] at ih
      simp only [List.map_cons, List.cons.injEq] at ih ⊢
      exact ⟨by rw [Tok.bytes, ih.1], ih.2⟩

theorem toks_slash : Uri.toks [ch '/'] = [Tok.sep] := by decide +kernel

theorem segments_pattern (G : Text → Prop) [DecidablePred G] (value : Text → Bytes) (segs : List Seg)
    (hlab : ∀ n, Seg.label n ∈ segs → ¬ G n) (hgr : ∀ n, Seg.greedy n ∈ segs → G n)
    (hlit : ∀ t, Seg.lit t ∈ segs → ch '/' ∉ t) :
    Uri.segments (Uri.intended G value (pattern segs)) = [] :: segs.flatMap (parts value) := by
  -- what the pieces of one segment stand for
  have one : ∀ s ∈ segs, ∃ ts, (split Tok.sep ts).map Tok.bytes = parts value s ∧
      ∀ ps, Uri.intended G value (s.piece :: ps) = ts ++ Uri.intended G value ps := by
    intro s hs
    cases s with
    | lit t =>
      refine ⟨Uri.toks t, ?_, fun ps => rfl⟩
      rw [segments_toks, split_of_not_mem _ _ (hlit t hs), parts]
    | label n =>
      refine ⟨Uri.content (value n), ?_, fun ps => ?_⟩
      · rw [split_of_not_mem _ _ (content_no_sep _), parts, List.map_singleton, bytes_content]
      · rw [Seg.piece, Uri.intended, if_neg (hlab n hs)]
    | greedy n =>
      refine ⟨Uri.toks (value n), ?_, fun ps => ?_⟩
      · rw [segments_toks, parts]
      · rw [Seg.piece, Uri.intended, if_pos (hgr n hs)]
  clear hlab hgr hlit
  -- in front of a pattern there may be anything
  have key : ∀ (l : List Seg), (∀ s ∈ l, s ∈ segs) → ∀ ts,
      (split Tok.sep (ts ++ Uri.intended G value (pattern l))).map Tok.bytes =
        (split Tok.sep ts).map Tok.bytes ++ l.flatMap (parts value) := by
    intro l
    induction l with
    | nil => intro _ ts; simp [pattern, Uri.intended]
    | cons s l ih =>
      intro hl ts
      obtain ⟨us, h1, h2⟩ := one s (hl s (by simp))
      have e : Uri.intended G value (pattern (s :: l)) = Tok.sep :: (us ++ Uri.intended G value (pattern l)) := by
        have : pattern (s :: l) = .lit [ch '/'] :: s.piece :: pattern l := rfl
        rw [this, Uri.intended, toks_slash, h2]
        rfl
      rw [e, split_append_sep, List.map_append, ih (fun x hx => hl x (by simp [hx])), h1, List.flatMap_cons]
  have := key segs (fun _ h => h) []
  simpa [Uri.segments, split, Tok.bytes] using this

theorem route_parts (value : Text → Bytes) (segs : List Seg)
    (hg : ∀ pre n post, segs = pre ++ .greedy n :: post → ∀ n', Seg.greedy n' ∉ post) :
    route segs (segs.flatMap (parts value)) = some ((names segs).map fun n => (n, value n)) := by
  induction segs with
  | nil => rfl
  | cons s segs ih =>
    have hg' : ∀ pre n post, segs = pre ++ .greedy n :: post → ∀ n', Seg.greedy n' ∉ post := by
      intro pre n post h
      exact hg (s :: pre) n post (by rw [h]; rfl)
    have ih := ih hg'
    cases s with
    | lit t => simp [route, parts, names, ih]
    | label n => simp [route, parts, names, ih]
    | greedy n =>
      have hno := hg [] n segs rfl
      have hlen : ∀ l : List Seg, (∀ n, Seg.greedy n ∉ l) → (l.flatMap (parts value)).length = l.length := by
        intro l
        induction l with
        | nil => intro _; rfl
        | cons x l ihl =>
          intro h
          have h1 := ihl fun n hn => h n (by simp [hn])
          cases x with
          | lit t => rw [List.flatMap_cons, List.length_append, h1]; simp [parts]; omega
          | label t => rw [List.flatMap_cons, List.length_append, h1]; simp [parts]; omega
          | greedy t => exact absurd (by simp) (h t)
      have h1 := hlen segs hno
      have h2 : (split (ch '/') (value n) ++ segs.flatMap (parts value)).length - segs.length =
          (split (ch '/') (value n)).length := by
        rw [List.length_append, h1]; omega
      simp only [route, List.flatMap_cons, parts, h2, List.take_left, List.drop_left, ih, Option.map_some,
        names, List.map_cons, join_split]

theorem mem_names {segs : List Seg} {n : Text} : n ∈ names segs ↔ Seg.label n ∈ segs ∨ Seg.greedy n ∈ segs := by
  induction segs with
  | nil => simp [names]
  | cons s segs ih => cases s <;> simp [names, ih] <;> tauto

theorem names_exclusive {segs : List Seg} (h : (names segs).Nodup) {n : Text} (h1 : Seg.label n ∈ segs)
    (h2 : Seg.greedy n ∈ segs) : False := by
  induction segs with
  | nil => cases h1
  | cons s segs ih =>
    cases s with
    | lit t => exact ih h (by simpa using h1) (by simpa using h2)
    | label t =>
      rw [names, List.nodup_cons] at h
      simp only [List.mem_cons, reduceCtorEq, false_or] at h2
      rcases List.mem_cons.1 h1 with h1 | h1
      · cases h1; exact h.1 (mem_names.2 (.inr h2))
      · exact ih h.2 h1 h2
    | greedy t =>
      rw [names, List.nodup_cons] at h
      simp only [List.mem_cons, reduceCtorEq, false_or] at h1
      rcases List.mem_cons.1 h2 with h2 | h2
      · cases h2; exact h.1 (mem_names.2 (.inl h1))
      · exact ih h.2 h1 h2

theorem greedy_iff {segs : List Seg} {n : Text} : Uri.IsGreedy (pattern segs) n ↔ Seg.greedy n ∈ segs := by
  unfold Uri.IsGreedy pattern
  rw [List.mem_flatMap]
  constructor
  · rintro ⟨s, hs, h⟩
    cases s <;> simp_all [Seg.piece]
  · intro h
    exact ⟨_, h, by simp [Seg.piece]⟩

theorem lit_mem {segs : List Seg} {t : Bytes} (h : Piece.lit t ∈ pattern segs) : t = [ch '/'] ∨ Seg.lit t ∈ segs := by
  unfold pattern at h
  rw [List.mem_flatMap] at h
  obtain ⟨s, hs, h⟩ := h
  cases s with
  | lit u =>
    simp only [Seg.piece, List.mem_cons, Piece.lit.injEq, List.not_mem_nil, or_false] at h
    rcases h with h | rfl
    · exact .inl h
    · exact .inr hs
  | label n => simp only [Seg.piece, List.mem_cons, Piece.lit.injEq, reduceCtorEq, List.not_mem_nil, or_false] at h
               exact .inl h
  | greedy n => simp only [Seg.piece, List.mem_cons, Piece.lit.injEq, reduceCtorEq, List.not_mem_nil, or_false] at h
                exact .inl h

/-- The service finds the labels that were written. -/
theorem labels_read (segs : List Seg) (hn : (names segs).Nodup)
    (hg : ∀ pre n post, segs = pre ++ .greedy n :: post → ∀ n', Seg.greedy n' ∉ post)
    (hlit : ∀ t, Seg.lit t ∈ segs → Uri.PlainLiteral t ∧ ch '/' ∉ t)
    (values : List (Text × Bytes)) (path : Bytes) (h : Uri.serializePath (pattern segs) values = .ok path) :
    labelsIn segs path = some ((names segs).map fun n => (n, (Uri.lastValue values n).getD [])) := by
  have hs := Uri.C27_segments (pattern segs) values (fun t ht => by
    rcases lit_mem ht with rfl | h
    · refine ⟨?_, ?_, ?_⟩ <;> decide +kernel
    · exact (hlit t h).1) path h
  rw [segments_pattern _ _ segs (fun n h1 h2 => names_exclusive hn h1 (greedy_iff.1 h2))
    (fun n h => greedy_iff.2 h) (fun t ht => (hlit t ht).2)] at hs
  unfold labelsIn
  rw [List.map_tail, hs, List.tail_cons, route_parts _ segs hg]

/-- A path is only made if there is a value for every label. -/
theorem labels_given (segs : List Seg) (values : List (Text × Bytes)) (path : Bytes)
    (h : Uri.serializePath (pattern segs) values = .ok path) (n : Text) (hn : n ∈ names segs) :
    ∃ v, (n, v) ∈ values := by
  rw [Uri.serializePath_cases] at h
  cases hv : Uri.lastValue values n with
  | some v =>
    unfold Uri.lastValue at hv
    rw [Option.map_eq_some_iff] at hv
    obtain ⟨x, hx, rfl⟩ := hv
    have h1 := List.find?_some hx
    have h2 := List.mem_of_find?_eq_some hx
    rw [decide_eq_true_iff] at h1
    exact ⟨x.2, by rw [← h1]; exact List.mem_reverse.1 h2⟩
  | none =>
    exfalso
    have : ∀ ps : List (Piece Text), (∃ g, Piece.label n g ∈ ps) →
        ∀ r, Uri.substitute (fun n => (Uri.lastValue values n).map (Uri.encodeLabel (pattern segs) n)) ps ≠ .ok r := by
      intro ps
      induction ps with
      | nil => rintro ⟨g, h⟩; cases h
      | cons p ps ih =>
        rintro ⟨g, hm⟩ r hr
        cases p with
        | lit t =>
          rw [Uri.substitute] at hr
          cases hsub : Uri.substitute (fun n => (Uri.lastValue values n).map
              (Uri.encodeLabel (pattern segs) n)) ps with
          | error e => rw [hsub] at hr; cases hr
          | ok x => exact ih ⟨g, by simpa using hm⟩ x hsub
        | label n' g' =>
          rw [Uri.substitute] at hr
          by_cases hnn : n' = n
          · rw [hnn, hv] at hr; cases hr
          · cases hv' : Uri.lastValue values n' with
            | none => simp only [hv', Option.map_none] at hr; cases hr
            | some y =>
              simp only [hv', Option.map_some] at hr
              cases hsub : Uri.substitute (fun n => (Uri.lastValue values n).map
                  (Uri.encodeLabel (pattern segs) n)) ps with
              | error e => rw [hsub] at hr; cases hr
              | ok x =>
                refine ih ⟨g, ?_⟩ x hsub
                rcases List.mem_cons.1 hm with h1 | h1
                · cases h1; exact absurd rfl hnn
                · exact h1
    have hmem : ∃ g, Piece.label n g ∈ pattern segs := by
      rcases mem_names.1 hn with h1 | h1
      · exact ⟨false, by unfold pattern; rw [List.mem_flatMap]; exact ⟨_, h1, by simp [Seg.piece]⟩⟩
      · exact ⟨true, by unfold pattern; rw [List.mem_flatMap]; exact ⟨_, h1, by simp [Seg.piece]⟩⟩
    split at h
    · cases h
    · next r hr => exact this _ hmem r hr

/-! ## Writes -/

section
variable {α β γ : Type}

theorem lookup_once [DecidableEq α] : ∀ {ws : List (α × β)}, (ws.map Prod.fst).Nodup → ∀ {m : α} {v : β}, (m, v) ∈ ws →
    ws.lookup m = some v := by
  intro ws
  induction ws with
  | nil => intro _ m v h; cases h
  | cons w ws ih =>
    intro hn m v h
    rw [List.map_cons, List.nodup_cons] at hn
    obtain ⟨m', v'⟩ := w
    rcases List.mem_cons.1 h with h1 | h1
    · cases h1; simp
    · have : m ≠ m' := by
        rintro rfl
        exact hn.1 (List.mem_map.2 ⟨(m, v), h1, rfl⟩)
      rw [List.lookup_cons, beq_false_of_ne this, ih hn.2 h1]

theorem lookup_absent [DecidableEq α] : ∀ {ws : List (α × β)} {m : α}, (∀ v, (m, v) ∉ ws) → ws.lookup m = none := by
  intro ws
  induction ws with
  | nil => intro m _; rfl
  | cons w ws ih =>
    intro m h
    obtain ⟨m', v'⟩ := w
    have : m ≠ m' := by rintro rfl; exact h v' (by simp)
    rw [List.lookup_cons, beq_false_of_ne this, ih fun v hv => h v (by simp [hv])]

/-- What a list of writes makes in one place comes from one member only. -/
theorem flatMap_once {ws : List (α × β)} (hn : (ws.map Prod.fst).Nodup) (f : α × β → List γ) (m : α)
    (hf : ∀ w ∈ ws, w.1 ≠ m → f w = []) :
    (∀ v, (m, v) ∈ ws → ws.flatMap f = f (m, v)) ∧ ((∀ v, (m, v) ∉ ws) → ws.flatMap f = []) := by
  induction ws with
  | nil => exact ⟨fun v h => (by cases h), fun _ => rfl⟩
  | cons w ws ih =>
    rw [List.map_cons, List.nodup_cons] at hn
    obtain ⟨ih1, ih2⟩ := ih hn.2 fun x hx => hf x (by simp [hx])
    obtain ⟨m', v'⟩ := w
    rw [List.flatMap_cons]
    refine ⟨fun v h => ?_, fun h => ?_⟩
    · rcases List.mem_cons.1 h with h | h
      · cases h
        rw [ih2 fun v hv => hn.1 (List.mem_map.2 ⟨(m, v), hv, rfl⟩), List.append_nil]
      · have hne : m' ≠ m := by
          rintro rfl
          exact hn.1 (List.mem_map.2 ⟨(m', v), h, rfl⟩)
        rw [hf (m', v') (by simp) hne, List.nil_append, ih1 v h]
    · have hne : m' ≠ m := by rintro rfl; exact h v' (by simp)
      rw [hf (m', v') (by simp) hne, List.nil_append, ih2 fun v hv => h v (by simp [hv])]

end

/-! ## Queries -/

theorem parameters_written (sv : Service) (env : Env) (htext : ∀ t, sv.text (env.utf8 t) = t) (query literal : Bytes)
    (qs : List (Text × Text))
    (h : Uri.parseQuery query = Uri.parseQuery literal ++ qs.map fun x => (env.utf8 x.1, some (env.utf8 x.2))) :
    parameters sv query = parameters sv literal ++ qs := by
  unfold parameters
  rw [h, List.filterMap_append]
  congr 1
  rw [List.filterMap_map]
  induction qs with
  | nil => rfl
  | cons q qs ih => simp_all

theorem mem_parameters {sv : Service} {literal : Bytes} {x : Text × Text} (h : x ∈ parameters sv literal) :
    ∃ p ∈ Uri.parseQuery literal, sv.text p.1 = x.1 := by
  unfold parameters at h
  rw [List.mem_filterMap] at h
  obtain ⟨p, hp, h⟩ := h
  rw [Option.map_eq_some_iff] at h
  obtain ⟨v, _, rfl⟩ := h
  exact ⟨p, hp, rfl⟩

theorem under_append (a b : List (Text × Text)) (k : Text) : under (a ++ b) k = under a k ++ under b k := by
  simp [under]

theorem under_eq_nil {ps : List (Text × Text)} {k : Text} (h : ∀ p ∈ ps, p.1 ≠ k) : under ps k = [] := by
  simp only [under, List.map_eq_nil_iff, List.filter_eq_nil_iff, decide_eq_true_eq]
  exact h

theorem queryOf_flatMap (loc : Member → Binding) (ws : List (Member × Val)) :
    queryOf loc ws = ws.flatMap fun w => queryOf loc [w] := by
  induction ws with
  | nil => rfl
  | cons w ws ih => rw [queryOf_cons, ih]; rfl

theorem labelsOf_flatMap (b : Binding) (loc : Member → Binding) (ws : List (Member × Val)) :
    labelsOf b loc ws = ws.flatMap fun w => labelsOf b loc [w] := by
  induction ws with
  | nil => rfl
  | cons w ws ih => rw [labelsOf_cons, ih]; rfl

theorem grouped_flat (kvs : List (Text × List Text)) (hn : (kvs.map Prod.fst).Nodup)
    (hne : ∀ kv ∈ kvs, kv.2 ≠ []) :
    grouped (kvs.flatMap fun kv => kv.2.map fun v => (kv.1, v)) = kvs := by
  have hunder : ∀ l : List (Text × List Text), (l.map Prod.fst).Nodup → ∀ kv ∈ l,
      under (l.flatMap fun kv => kv.2.map fun v => (kv.1, v)) kv.1 = kv.2 := by
    intro l hl kv hkv
    have := (flatMap_once hl (fun w => under (w.2.map fun v => (w.1, v)) kv.1) kv.1 (by
      intro w _ hw
      exact under_eq_nil (by simp; exact fun _ _ => hw))).1 kv.2 hkv
    have e : under (l.flatMap fun kv => kv.2.map fun v => (kv.1, v)) kv.1 =
        l.flatMap fun w => under (w.2.map fun v => (w.1, v)) kv.1 := by
      clear hl hkv this
      induction l with
      | nil => rfl
      | cons x l ih => rw [List.flatMap_cons, List.flatMap_cons, under_append, ih]
    rw [e, this]
    simp [under, List.filter_map, Function.comp_def]
  have hkeys : ∀ l : List (Text × List Text), (l.map Prod.fst).Nodup → (∀ kv ∈ l, kv.2 ≠ []) →
      ((l.flatMap fun kv => kv.2.map fun v => (kv.1, v)).map Prod.fst).eraseDups = l.map Prod.fst := by
    intro l
    induction l with
    | nil => intro _ _; rfl
    | cons x l ih =>
      intro hl hx
      rw [List.map_cons, List.nodup_cons] at hl
      obtain ⟨k, vs⟩ := x
      cases vs with
      | nil => exact absurd rfl (hx (k, []) (by simp))
      | cons v vs =>
        have e : ((((k, v :: vs) :: l).flatMap fun kv => kv.2.map fun v => (kv.1, v)).map Prod.fst) =
            k :: (vs.map fun _ => k) ++ ((l.flatMap fun kv => kv.2.map fun v => (kv.1, v)).map Prod.fst) := by
          simp [Function.comp_def]
        rw [e, List.cons_append, List.eraseDups_cons, List.filter_append]
        have e1 : (vs.map fun _ => k).filter (fun b => !b == k) = [] := by
          simp
        have e2 : ((l.flatMap fun kv => kv.2.map fun v => (kv.1, v)).map Prod.fst).filter (fun b => !b == k) =
            (l.flatMap fun kv => kv.2.map fun v => (kv.1, v)).map Prod.fst := by
          rw [List.filter_eq_self]
          intro a ha
          rw [List.mem_map] at ha
          obtain ⟨p, hp, rfl⟩ := ha
          rw [List.mem_flatMap] at hp
          obtain ⟨kv, hkv, hp⟩ := hp
          rw [List.mem_map] at hp
          obtain ⟨_, _, rfl⟩ := hp
          have : kv.1 ≠ k := fun h => hl.1 (by rw [← h]; exact List.mem_map.2 ⟨kv, hkv, rfl⟩)
          simp [this]
        rw [e1, e2, List.nil_append, ih hl.2 fun kv hkv => hx kv (by simp [hkv])]
        rfl
  unfold grouped
  rw [hkeys kvs hn hne, List.map_map]
  conv_rhs => rw [← List.map_id kvs]
  apply List.map_congr_left
  intro kv hkv
  simp only [Function.comp_apply, hunder kvs hn kv hkv, id]

/-! ## Headers under a prefix -/

theorem nodup_map_inj {α β : Type} {f : α → β} : ∀ {l : List α}, (l.map f).Nodup → ∀ {a b : α}, a ∈ l → b ∈ l →
    f a = f b → a = b := by
  intro l
  induction l with
  | nil => intro _ a b h; cases h
  | cons x l ih =>
    intro hn a b ha hb h
    rw [List.map_cons, List.nodup_cons] at hn
    rcases List.mem_cons.1 ha with h1 | h1 <;> rcases List.mem_cons.1 hb with h2 | h2
    · rw [h1, h2]
    · exact absurd (List.mem_map.2 ⟨b, h2, by rw [← h, h1]⟩) hn.1
    · exact absurd (List.mem_map.2 ⟨a, h1, by rw [h, h2]⟩) hn.1
    · exact ih hn.2 h1 h2 h

theorem nodup_of_map {α β : Type} {f : α → β} {l : List α} (h : (l.map f).Nodup) : l.Nodup := by
  rw [List.Nodup, List.pairwise_map] at h
  exact h.imp fun hne he => hne (by rw [he])

theorem prefixed_entries (env : Env) (lc : Char → Char) (hlc : ∀ t, env.lower t = t.map lc)
    (hs : List (Text × Text)) (p : Text) (kvs : List (Text × Text))
    (hnd : (kvs.map fun kv => env.lower kv.1).Nodup)
    (hsub : hs.filter (fun h => (env.lower p).isPrefixOf (env.lower h.1)) = kvs.map fun kv => (p ++ kv.1, kv.2))
    (kv : Text × Text) : kv ∈ prefixed env.lower (toFields env hs) p ↔ kv ∈ kvs := by
  have hpre : ∀ key : Text, (env.lower p).isPrefixOf (env.lower (p ++ key)) = true := by
    intro key
    rw [List.isPrefixOf_iff_prefix, hlc (p ++ key), List.map_append, ← hlc p]
    exact List.prefix_append _ _
  have hinj : ∀ a ∈ kvs, ∀ b ∈ kvs, env.lower (p ++ a.1) = env.lower (p ++ b.1) → a = b := by
    intro a ha b hb h
    rw [hlc, hlc, List.map_append, List.map_append, List.append_cancel_left_eq, ← hlc, ← hlc] at h
    exact nodup_map_inj hnd ha hb h
  -- the field of an entry
  have hfield : ∀ f ∈ toFields env hs, (env.lower p).isPrefixOf (env.lower f.name) = true →
      ∃ e ∈ kvs, f.name = p ++ e.1 ∧ f.values = [e.2] := by
    intro f hf hp
    obtain ⟨x, hx, hn⟩ := toFields_name env hs f hf
    have hx' : x ∈ hs.filter (fun h => (env.lower p).isPrefixOf (env.lower h.1)) :=
      List.mem_filter.2 ⟨hx, by rw [← hn]; exact hp⟩
    rw [hsub, List.mem_map] at hx'
    obtain ⟨e, he, rfl⟩ := hx'
    refine ⟨e, he, hn, ?_⟩
    rw [field_values env.lower _ (distinct_toFields env hs) f hf, fieldValues_toFields, hn]
    have e1 : hs.filter (fun h => env.lower h.1 = env.lower (p ++ e.1)) =
        (hs.filter (fun h => (env.lower p).isPrefixOf (env.lower h.1))).filter
          (fun h => env.lower h.1 = env.lower (p ++ e.1)) := by
      rw [List.filter_filter]
      apply List.filter_congr
      intro h _
      by_cases hh : env.lower h.1 = env.lower (p ++ e.1)
      · simp [hh, hpre]
      · simp [hh]
    unfold valuesOf
    rw [e1, hsub, List.filter_map, List.map_map]
    have e2 : ∀ l : List (Text × Text), l.Nodup → (∀ a ∈ l, a ∈ kvs) → e ∈ l →
        l.filter ((fun h : Text × Text => decide (env.lower h.1 = env.lower (p ++ e.1))) ∘
          fun kv => (p ++ kv.1, kv.2)) = [e] := by
      intro l
      induction l with
      | nil => intro _ _ h; cases h
      | cons a l ih =>
        intro hnl hl hel
        rw [List.nodup_cons] at hnl
        rcases List.mem_cons.1 hel with h | h
        · subst h
          rw [List.filter_cons, if_pos (by simp), List.filter_eq_nil_iff.2]
          intro b hb hbe
          simp only [Function.comp_apply, decide_eq_true_eq] at hbe
          have := hinj b (hl b (by simp [hb])) e he hbe
          exact hnl.1 (this ▸ hb)
        · rw [List.filter_cons, if_neg, ih hnl.2 (fun a ha => hl a (by simp [ha])) h]
          simp only [Function.comp_apply, decide_eq_true_eq]
          intro hae
          have := hinj a (hl a (by simp)) e he hae
          exact hnl.1 (this ▸ h)
    rw [e2 kvs (nodup_of_map hnd) (fun _ h => h) he]
    rfl
  unfold prefixed
  rw [List.mem_filterMap]
  constructor
  · rintro ⟨f, hf, h⟩
    by_cases hp : (env.lower p).isPrefixOf (env.lower f.name) = true
    · rw [if_pos hp] at h
      obtain ⟨e, he, h1, h2⟩ := hfield f hf hp
      rw [h1, h2, List.drop_left] at h
      have : kv = e := by simpa [asString] using (Option.some.inj h).symm
      rw [this]; exact he
    · rw [if_neg hp] at h; cases h
  · intro hkv
    have hne : fieldValues env.lower (toFields env hs) (p ++ kv.1) ≠ [] := by
      rw [fieldValues_toFields]
      have : (p ++ kv.1, kv.2) ∈ hs := by
        have : (p ++ kv.1, kv.2) ∈ hs.filter (fun h => (env.lower p).isPrefixOf (env.lower h.1)) := by
          rw [hsub]; exact List.mem_map_of_mem (f := fun kv : Text × Text => (p ++ kv.1, kv.2)) hkv
        exact (List.mem_filter.1 this).1
      rw [ne_eq, valuesOf_nil_iff]
      intro h
      exact h _ this rfl
    obtain ⟨f, hf, hn⟩ := mem_of_fieldValues _ _ _ hne
    have hp : (env.lower p).isPrefixOf (env.lower f.name) = true := by rw [hn]; exact hpre _
    obtain ⟨e, he, h1, h2⟩ := hfield f hf hp
    have : e = kv := hinj e he kv hkv (by rw [← h1, hn])
    subst this
    exact ⟨f, hf, by rw [if_pos hp, h1, h2, List.drop_left]; rfl⟩

/-! ## The theorem, location by location -/

section
variable {sv : Service} {env : Env} {loc : Member → Binding} {segs : List Seg} {literal : Bytes}
  {bound : List Text} {ms : List Member} {ws : List (Member × Val)}

theorem flatMap_under (k : Text) (f : Member × Val → List (Text × Text)) (ws : List (Member × Val)) :
    under (ws.flatMap f) k = ws.flatMap fun w => under (f w) k := by
  induction ws with
  | nil => rfl
  | cons w ws ih => rw [List.flatMap_cons, List.flatMap_cons, under_append, ih]

theorem flatMap_values (lower : Text → Text) (k : Text) (f : Member × Val → List (Text × Text))
    (ws : List (Member × Val)) :
    valuesOf lower (ws.flatMap f) k = ws.flatMap fun w => valuesOf lower (f w) k := by
  induction ws with
  | nil => rfl
  | cons w ws ih => rw [List.flatMap_cons, List.flatMap_cons, valuesOf_append, ih]

theorem flatMap_filter (q : Text × Text → Bool) (f : Member × Val → List (Text × Text)) (ws : List (Member × Val)) :
    (ws.flatMap f).filter q = ws.flatMap fun w => (f w).filter q := by
  induction ws with
  | nil => rfl
  | cons w ws ih => rw [List.flatMap_cons, List.flatMap_cons, List.filter_append, ih]

/-- The query parameters of one write. -/
theorem query_of_one (hi : Input sv env loc bound ms ws) {w : Member × Val} (hw : w ∈ ws) :
    (loc w.1 = .query → queryOf loc [w] = named (w.1.query.getD []) [] w.2 ∧
      ∀ p ∈ queryOf loc [w], p.1 = w.1.query.getD []) ∧
    (loc w.1 = .queryParams → queryOf loc [w] = named (w.1.query.getD []) [] w.2 ∧
      ∀ p ∈ queryOf loc [w], p.1 ∉ bound) ∧
    (loc w.1 ≠ .query → loc w.1 ≠ .queryParams → queryOf loc [w] = []) := by
  have hf := hi.fits w hw
  refine ⟨fun h => ?_, fun h => ?_, fun h1 h2 => ?_⟩
  · have e : queryOf loc [w] = named (w.1.query.getD []) [] w.2 := by simp [queryOf, h]
    refine ⟨e, fun p hp => ?_⟩
    rw [e] at hp
    simp only [Fits, h] at hf
    rcases hf with ⟨_, t, hv⟩ | ⟨_, t, ts, hv⟩ <;> rw [hv] at hp
    · simp only [named, List.mem_singleton] at hp
      rw [hp]
    · simp only [named, List.mem_map] at hp
      obtain ⟨_, _, rfl⟩ := hp
      rfl
  · have e : queryOf loc [w] = named (w.1.query.getD []) [] w.2 := by simp [queryOf, h]
    refine ⟨e, fun p hp => ?_⟩
    rw [e] at hp
    simp only [Fits, h] at hf
    rcases hf with ⟨_, kvs, hv, _, hk⟩ | ⟨_, kvs, hv, _, _, hk⟩ <;> rw [hv] at hp
    · simp only [named, List.mem_map, List.nil_append] at hp
      obtain ⟨kv, hkv, rfl⟩ := hp
      exact hk kv hkv
    · simp only [named, List.mem_flatMap, List.mem_map, List.nil_append] at hp
      obtain ⟨kv, hkv, _, _, rfl⟩ := hp
      exact (hk kv hkv).2
  · simp [queryOf, h1, h2]

/-- The headers of one write. -/
theorem headers_of_one (hi : Input sv env loc bound ms ws) {w : Member × Val} (hw : w ∈ ws) :
    (loc w.1 = .header → headersOf loc [w] = named (w.1.header.getD []) (w.1.prefixHeaders.getD []) w.2 ∧
      ∀ p ∈ headersOf loc [w], p.1 = w.1.header.getD []) ∧
    (loc w.1 = .prefixHeaders →
      headersOf loc [w] = named (w.1.header.getD []) (w.1.prefixHeaders.getD []) w.2 ∧
      ∀ p ∈ headersOf loc [w], ∃ key, p.1 = w.1.prefixHeaders.getD [] ++ key) ∧
    (loc w.1 ≠ .header → loc w.1 ≠ .prefixHeaders → headersOf loc [w] = []) := by
  have hf := hi.fits w hw
  refine ⟨fun h => ?_, fun h => ?_, fun h1 h2 => ?_⟩
  · have e : headersOf loc [w] = named (w.1.header.getD []) (w.1.prefixHeaders.getD []) w.2 := by
      simp [headersOf, h]
    refine ⟨e, fun p hp => ?_⟩
    rw [e] at hp
    simp only [Fits, h] at hf
    rcases hf with ⟨_, t, hv⟩ | ⟨_, t, ts, hv⟩ <;> rw [hv] at hp
    · simp only [named, List.mem_singleton] at hp
      rw [hp]
    · simp only [named, List.mem_map] at hp
      obtain ⟨_, _, rfl⟩ := hp
      rfl
  · have e : headersOf loc [w] = named (w.1.header.getD []) (w.1.prefixHeaders.getD []) w.2 := by
      simp [headersOf, h]
    refine ⟨e, fun p hp => ?_⟩
    rw [e] at hp
    simp only [Fits, h] at hf
    obtain ⟨kvs, hv, _⟩ := hf
    rw [hv] at hp
    simp only [named, List.mem_map] at hp
    obtain ⟨kv, _, rfl⟩ := hp
    exact ⟨_, rfl⟩
  · simp [headersOf, h1, h2]

theorem under_all {ps : List (Text × Text)} {k : Text} (h : ∀ p ∈ ps, p.1 = k) : under ps k = ps.map Prod.snd := by
  unfold under
  rw [List.filter_eq_self.2 (by simpa using h)]

theorem oneOrAll_named {m : Member} {v : Val} (pre : Text) (k : Text)
    (hf : (m.shape ≠ .list ∧ ∃ t, v = .text t) ∨ (m.shape = .list ∧ ∃ t ts, v = .list (t :: ts))) :
    oneOrAll m ((named k pre v).map Prod.snd) = some v := by
  rcases hf with ⟨hs, t, rfl⟩ | ⟨hs, t, ts, rfl⟩
  · simp [named, oneOrAll, hs]
  · simp [named, oneOrAll, hs, Function.comp_def]

theorem read_query (hb : WellBound env.lower sv.text loc segs literal bound ms)
    (hi : Input sv env loc bound ms ws) {query : Bytes}
    (hq : parameters sv query = parameters sv literal ++ queryOf loc ws) {m : Member} (hm : m ∈ ms)
    (hl : loc m = .query) :
    (∀ v, (m, v) ∈ ws → oneOrAll m (under (parameters sv query) (m.query.getD [])) = some v) ∧
    ((∀ v, (m, v) ∉ ws) → oneOrAll m (under (parameters sv query) (m.query.getD [])) = none) := by
  have e0 : under (parameters sv query) (m.query.getD []) =
      ws.flatMap fun w => under (queryOf loc [w]) (m.query.getD []) := by
    rw [hq, under_append, under_eq_nil, List.nil_append, queryOf_flatMap, flatMap_under]
    intro p hp
    obtain ⟨x, hx, he⟩ := mem_parameters hp
    rw [← he]
    exact hb.literalQuery m hm hl x hx
  obtain ⟨h1, h2⟩ := flatMap_once hi.once (fun w => under (queryOf loc [w]) (m.query.getD [])) m (by
    intro w hw hne
    obtain ⟨g1, g2, g3⟩ := query_of_one hi hw
    apply under_eq_nil
    intro p hp he
    by_cases c1 : loc w.1 = .query
    · rw [(g1 c1).2 p hp] at he
      exact hne (hb.query w.1 (hi.members w hw) m hm c1 hl he)
    · by_cases c2 : loc w.1 = .queryParams
      · exact (g2 c2).2 p hp (he ▸ hb.boundQuery m hm hl)
      · rw [g3 c1 c2] at hp; cases hp)
  rw [e0]
  refine ⟨fun v hv => ?_, fun hno => by rw [h2 hno]; rfl⟩
  rw [h1 v hv]
  obtain ⟨g1, _, _⟩ := query_of_one hi hv
  obtain ⟨g2, g3⟩ := g1 hl
  rw [under_all g3, g2]
  have hf := hi.fits _ hv
  simp only [Fits, hl] at hf
  exact oneOrAll_named _ _ hf

theorem read_queryParams (hb : WellBound env.lower sv.text loc segs literal bound ms)
    (hi : Input sv env loc bound ms ws) {query : Bytes}
    (hq : parameters sv query = parameters sv literal ++ queryOf loc ws) {m : Member} (hm : m ∈ ms)
    (hl : loc m = .queryParams) :
    (∀ v, (m, v) ∈ ws → (parameters sv query).filter (fun p => p.1 ∉ bound) = named [] [] v) ∧
    ((∀ v, (m, v) ∉ ws) → (parameters sv query).filter (fun p => p.1 ∉ bound) = []) := by
  have e0 : (parameters sv query).filter (fun p => p.1 ∉ bound) =
      ws.flatMap fun w => (queryOf loc [w]).filter (fun p => p.1 ∉ bound) := by
    rw [hq, List.filter_append, List.filter_eq_nil_iff.2, List.nil_append, queryOf_flatMap, flatMap_filter]
    intro p hp
    obtain ⟨x, hx, he⟩ := mem_parameters hp
    rw [← he]
    simpa using hb.boundLiteral x hx
  obtain ⟨h1, h2⟩ := flatMap_once hi.once (fun w => (queryOf loc [w]).filter (fun p => p.1 ∉ bound)) m (by
    intro w hw hne
    obtain ⟨g1, g2, g3⟩ := query_of_one hi hw
    rw [List.filter_eq_nil_iff]
    intro p hp
    by_cases c1 : loc w.1 = .query
    · rw [(g1 c1).2 p hp]
      simpa using hb.boundQuery w.1 (hi.members w hw) c1
    · by_cases c2 : loc w.1 = .queryParams
      · exact absurd (hb.queryParams w.1 (hi.members w hw) m hm c2 hl) hne
      · rw [g3 c1 c2] at hp; cases hp)
  rw [e0]
  refine ⟨fun v hv => ?_, fun hno => h2 hno⟩
  rw [h1 v hv]
  obtain ⟨_, g1, _⟩ := query_of_one hi hv
  obtain ⟨g2, g3⟩ := g1 hl
  rw [List.filter_eq_self.2 (by simpa using g3), g2]
  have hf := hi.fits _ hv
  simp only [Fits, hl] at hf
  rcases hf with ⟨_, kvs, rfl, _⟩ | ⟨_, kvs, rfl, _⟩ <;> rfl

theorem read_header (hlow : sv.lower = env.lower) (hcw : ∃ lc : Char → Char, ∀ t, env.lower t = t.map lc)
    (hb : WellBound env.lower sv.text loc segs literal bound ms)
    (hi : Input sv env loc bound ms ws) {fs : List (Field Text)}
    (hfs : ∀ name, env.lower name ≠ env.lower "content-type".toList →
      env.lower name ≠ env.lower "content-length".toList →
      fieldValues env.lower fs name = valuesOf env.lower (headersOf loc ws) name) {m : Member} (hm : m ∈ ms)
    (hl : loc m = .header) :
    (∀ v, (m, v) ∈ ws → oneOrAll m (fieldValues sv.lower fs (m.header.getD [])) = some v) ∧
    ((∀ v, (m, v) ∉ ws) → oneOrAll m (fieldValues sv.lower fs (m.header.getD [])) = none) := by
  obtain ⟨lc, hlc⟩ := hcw
  have e0 : fieldValues sv.lower fs (m.header.getD []) =
      ws.flatMap fun w => valuesOf env.lower (headersOf loc [w]) (m.header.getD []) := by
    rw [hlow, hfs, headersOf_flatMap, flatMap_values]
    · exact (hb.ownHeaders m hm hl _ (by simp [ownNames])).symm
    · exact (hb.ownHeaders m hm hl _ (by simp [ownNames])).symm
  obtain ⟨h1, h2⟩ := flatMap_once hi.once (fun w => valuesOf env.lower (headersOf loc [w]) (m.header.getD [])) m (by
    intro w hw hne
    obtain ⟨g1, g2, g3⟩ := headers_of_one hi hw
    rw [valuesOf_nil_iff]
    intro p hp he
    by_cases c1 : loc w.1 = .header
    · rw [(g1 c1).2 p hp] at he
      exact hne (hb.headers w.1 (hi.members w hw) m hm c1 hl he)
    · by_cases c2 : loc w.1 = .prefixHeaders
      · obtain ⟨key, hk⟩ := (g2 c2).2 p hp
        apply hb.prefixes w.1 (hi.members w hw) m hm c2 hl
        rw [← he, hk, hlc (_ ++ key), List.map_append, ← hlc]
        exact List.prefix_append _ _
      · rw [g3 c1 c2] at hp; cases hp)
  rw [e0]
  refine ⟨fun v hv => ?_, fun hno => by rw [h2 hno]; rfl⟩
  rw [h1 v hv]
  obtain ⟨g1, _, _⟩ := headers_of_one hi hv
  obtain ⟨g2, g3⟩ := g1 hl
  have e1 : valuesOf env.lower (headersOf loc [(m, v)]) (m.header.getD []) =
      (headersOf loc [(m, v)]).map Prod.snd := by
    unfold valuesOf
    rw [List.filter_eq_self.2]
    intro p hp
    rw [g3 p hp]
    simp
  rw [e1, g2]
  have hf := hi.fits _ hv
  simp only [Fits, hl] at hf
  exact oneOrAll_named _ _ hf

theorem read_prefix (hlow : sv.lower = env.lower) (hcw : ∃ lc : Char → Char, ∀ t, env.lower t = t.map lc)
    (hb : WellBound env.lower sv.text loc segs literal bound ms)
    (hi : Input sv env loc bound ms ws) {ct : Option Text} {len : Option Nat} {m : Member} (hm : m ∈ ms)
    (hl : loc m = .prefixHeaders) :
    (∀ kvs, (m, .map kvs) ∈ ws → ∀ kv, kv ∈ prefixed sv.lower
      (toFields env (headersOf loc ws ++ extraHeaders env ct len)) (m.prefixHeaders.getD []) ↔ kv ∈ kvs) ∧
    ((∀ v, (m, v) ∉ ws) → prefixed sv.lower
      (toFields env (headersOf loc ws ++ extraHeaders env ct len)) (m.prefixHeaders.getD []) = []) := by
  obtain ⟨lc, hlc⟩ := hcw
  let q : Text × Text → Bool := fun h => (env.lower (m.prefixHeaders.getD [])).isPrefixOf (env.lower h.1)
  have e0 : (headersOf loc ws ++ extraHeaders env ct len).filter q =
      ws.flatMap fun w => (headersOf loc [w]).filter q := by
    have : (extraHeaders env ct len).filter q = [] := by
      rw [List.filter_eq_nil_iff]
      intro p hp hpre
      have h1 := extra_names env ct len p hp
      exact hb.ownPrefixes m hm hl _ h1 (List.isPrefixOf_iff_prefix.1 hpre)
    rw [List.filter_append, this, List.append_nil, headersOf_flatMap, flatMap_filter]
  obtain ⟨h1, h2⟩ := flatMap_once hi.once (fun w => (headersOf loc [w]).filter q) m (by
    intro w hw hne
    obtain ⟨g1, g2, g3⟩ := headers_of_one hi hw
    rw [List.filter_eq_nil_iff]
    intro p hp hpre
    have hpre := List.isPrefixOf_iff_prefix.1 hpre
    by_cases c1 : loc w.1 = .header
    · rw [(g1 c1).2 p hp] at hpre
      exact hb.prefixes m hm w.1 (hi.members w hw) hl c1 hpre
    · by_cases c2 : loc w.1 = .prefixHeaders
      · exact absurd (hb.onePrefix w.1 (hi.members w hw) m hm c2 hl) hne
      · rw [g3 c1 c2] at hp; cases hp)
  refine ⟨fun kvs hv => ?_, fun hno => ?_⟩
  · have hf := hi.fits _ hv
    simp only [Fits, hl] at hf
    obtain ⟨kvs', he, _, hnd⟩ := hf
    cases he
    rw [hlow] at hnd ⊢
    apply prefixed_entries env lc hlc _ _ _ hnd
    rw [show (fun h : Text × Text => (env.lower (m.prefixHeaders.getD [])).isPrefixOf (env.lower h.1)) = q from rfl,
      e0, h1 _ hv]
    obtain ⟨_, g2, _⟩ := headers_of_one hi hv
    obtain ⟨g3, _⟩ := g2 hl
    rw [g3]
    simp only [named]
    rw [List.filter_eq_self.2]
    intro p hp
    rw [List.mem_map] at hp
    obtain ⟨kv, _, rfl⟩ := hp
    simp only [q]
    rw [List.isPrefixOf_iff_prefix, hlc (_ ++ kv.1), List.map_append, ← hlc]
    exact List.prefix_append _ _
  · rw [hlow]
    have hmem := prefixed_entries env lc hlc (headersOf loc ws ++ extraHeaders env ct len)
      (m.prefixHeaders.getD []) [] (by simp) (by
        rw [show (fun h : Text × Text => (env.lower (m.prefixHeaders.getD [])).isPrefixOf (env.lower h.1)) = q from rfl,
          e0, h2 hno]
        rfl)
    rw [List.eq_nil_iff_forall_not_mem]
    intro kv hkv
    exact absurd ((hmem kv).1 hkv) (by simp)

/-- The labels that are written are those of the members. -/
theorem mem_labels (hi : Input sv env loc bound ms ws) {x : Text × Text} :
    x ∈ labelsOf .label loc ws ↔ ∃ m t, (m, Val.text t) ∈ ws ∧ loc m = .label ∧ x = (m.name, t) := by
  unfold labelsOf
  rw [List.mem_flatMap]
  constructor
  · rintro ⟨w, hw, hx⟩
    rw [List.mem_filter, decide_eq_true_iff] at hw
    have hf := hi.fits w hw.1
    simp only [Fits, hw.2] at hf
    obtain ⟨t, ht⟩ := hf
    rw [ht] at hx
    simp only [named, List.mem_singleton] at hx
    exact ⟨w.1, t, by rw [← ht]; exact hw.1, hw.2, hx⟩
  · rintro ⟨m, t, hw, hl, rfl⟩
    exact ⟨(m, .text t), by rw [List.mem_filter, decide_eq_true_iff]; exact ⟨hw, hl⟩, by simp [named]⟩

theorem lastValue_all {values : List (Text × Bytes)} {n : Text} {b : Bytes} (h1 : (n, b) ∈ values)
    (h2 : ∀ x ∈ values, x.1 = n → x.2 = b) : Uri.lastValue values n = some b := by
  unfold Uri.lastValue
  cases hf : values.reverse.find? (fun x => x.1 = n) with
  | none =>
    rw [List.find?_eq_none] at hf
    exact absurd (hf (n, b) (List.mem_reverse.2 h1)) (by simp)
  | some x =>
    have h3 := List.find?_some hf
    have h4 := List.mem_of_find?_eq_some hf
    rw [decide_eq_true_iff] at h3
    rw [Option.map_some, h2 x (List.mem_reverse.1 h4) h3]

theorem read_label (htext : ∀ t, sv.text (env.utf8 t) = t)
    (hb : WellBound env.lower sv.text loc segs literal bound ms)
    (hi : Input sv env loc bound ms ws) {path : Bytes}
    (hp : Uri.serializePath (pattern segs) ((labelsOf .label loc ws).map fun x => (x.1, env.utf8 x.2)) = .ok path)
    {m : Member} (hm : m ∈ ms) (hl : loc m = .label) :
    ∃ t, (m, .text t) ∈ ws ∧
      ((labelsIn segs path).bind (List.lookup m.name)).map (fun b => Val.text (sv.text b)) = some (.text t) := by
  obtain ⟨b, hbm⟩ := labels_given segs _ path hp m.name (hb.labelled m hm hl)
  rw [List.mem_map] at hbm
  obtain ⟨x, hx, he⟩ := hbm
  obtain ⟨m', t, hw, hl', rfl⟩ := (mem_labels hi).1 hx
  simp only [Prod.mk.injEq] at he
  have hmm : m' = m := hb.members m' (hi.members _ hw) m hm he.1
  subst hmm
  refine ⟨t, hw, ?_⟩
  have hlast : Uri.lastValue ((labelsOf .label loc ws).map fun x => (x.1, env.utf8 x.2)) m'.name =
      some (env.utf8 t) := by
    apply lastValue_all
    · exact List.mem_map.2 ⟨(m'.name, t), hx, rfl⟩
    · intro y hy hn
      rw [List.mem_map] at hy
      obtain ⟨z, hz, rfl⟩ := hy
      obtain ⟨m2, t2, hw2, _, rfl⟩ := (mem_labels hi).1 hz
      have : m2 = m' := hb.members m2 (hi.members _ hw2) m' hm hn
      subst this
      have := nodup_map_inj hi.once hw hw2 rfl
      cases this
      rfl
  rw [labels_read segs hb.labels hb.greedy hb.literals _ path hp, Option.bind_some]
  have hlk : ∀ l : List Text, m'.name ∈ l → ∀ f : Text → Bytes,
      (l.map fun n => (n, f n)).lookup m'.name = some (f m'.name) := by
    intro l
    induction l with
    | nil => intro h; cases h
    | cons n l ih =>
      intro h f
      rw [List.map_cons, List.lookup_cons]
      by_cases hn : m'.name = n
      · rw [hn]; simp
      · rw [beq_false_of_ne hn]
        exact ih (by simpa [hn] using h) f
  rw [hlk (names segs) (hb.labelled m' hm hl), hlast]
  simp [htext]

theorem filter_once {ws : List (Member × Val)} (hn : (ws.map Prod.fst).Nodup) {m : Member} {v : Val}
    (h : (m, v) ∈ ws) : ws.filter (fun w => w.1 = m) = [(m, v)] := by
  induction ws with
  | nil => cases h
  | cons w ws ih =>
    rw [List.map_cons, List.nodup_cons] at hn
    rcases List.mem_cons.1 h with h1 | h1
    · subst h1
      rw [List.filter_cons, if_pos (by simp), List.filter_eq_nil_iff.2]
      intro x hx he
      rw [decide_eq_true_iff] at he
      exact hn.1 (List.mem_map.2 ⟨x, hx, he⟩)
    · rw [List.filter_cons, if_neg, ih hn.2 h1]
      simp only [decide_eq_true_eq]
      intro he
      exact hn.1 (List.mem_map.2 ⟨(m, v), h1, he.symm⟩)

theorem read_payload (hb : WellBound env.lower sv.text loc segs literal bound ms)
    (hloc : ∀ m, Located requestPrecedence m (loc m)) {omitEmpty : Bool}
    (htext : ∀ t, sv.text (env.utf8 t) = t)
    (hi : Input sv env loc bound ms ws) {r : Request}
    (h : serializeRequest env (pattern segs) literal omitEmpty ms ws = .ok r) {m : Member} (hm : m ∈ ms)
    (hl : loc m = .payload) (v : Val) (hv : (m, v) ∈ ws) : read sv segs bound loc r m = some v := by
  have hf := hi.fits _ hv
  simp only [Fits, hl] at hf
  have hbody : ∀ m' ∈ ms, loc m' ≠ .body ∧ loc m' ≠ .host := by
    intro m' hm'
    constructor <;> intro hx
    · have := hb.payload m hm hl m' hm' (by simp [hx]); rw [this, hl] at hx; cases hx
    · have := hb.payload m hm hl m' hm' (by simp [hx]); rw [this, hl] at hx; cases hx
  have huniq : ∀ m' ∈ ms, loc m' = .payload → m' = m := fun m' hm' hx => hb.payload m hm hl m' hm' (.inl hx)
  have hraw := fun hs => C29_payload_partial env (pattern segs) literal omitEmpty ms ws r h loc hloc hb.noEvents
    hi.members hbody m hm hl huniq hs v (filter_once hi.once hv)
  simp only [read, hl]
  rcases hf with ⟨hs, hf⟩ | ⟨hs, t, rfl⟩ | ⟨h1, h2, h3, hval⟩
  · obtain ⟨g1, _, g3⟩ := hraw (.inl hs)
    rcases hf with ⟨b, rfl⟩ | ⟨s, rfl⟩
    · rw [g1 b rfl]; simp [hs]
    · rw [g3 s rfl]
  · obtain ⟨_, g2, _⟩ := hraw (.inr hs)
    rw [g2 t rfl]
    have hnb : m.shape ≠ .blob := by rcases hs with hs | hs <;> rw [hs] <;> decide
    simp [hnb, hs, htext]
  · have hbytes : r.body = .bytes (env.encodeValues [(m, v)]) := by
      obtain ⟨ct, len, req, hb', -⟩ := serializeRequest_ok h
      have hl' := loc_request hloc
      subst hl'
      have e1 : (Matcher.of matchRequest ms).eventStream = none := (add_spec matchRequest ms {}).2.2 hb.noEvents
      have e2 : (Matcher.of matchRequest ms).payloadMember = some m :=
        payloadMember_unique matchRequest m ms {} huniq (.inl ⟨m, hm, hl⟩)
      have e3 : bodyOf matchRequest ws = [(m, v)] := by
        rw [← filter_once hi.once hv]
        refine List.filter_congr fun w hw => ?_
        obtain ⟨g1, g2⟩ := hbody w.1 (hi.members w hw)
        by_cases hp : w.1 = m
        · simp [hp, hl]
        · have : matchRequest w.1 ≠ .payload := fun hx => hp (huniq w.1 (hi.members w hw) hx)
          simp [g1, g2, hp, this]
      have e4 : (decide (m.shape = .blob) || decide (m.shape = .string) || decide (m.shape = .enum)) = false := by
        simp [h1, h2, h3]
      simp only [payloadOf, e1, e2, e3, e4, Bool.false_eq_true, if_false, Except.ok.injEq, Prod.mk.injEq] at hb'
      exact hb'.1.symm
    rw [hbytes]
    simp [h1, h2, h3, hval]

theorem read_body (hb : WellBound env.lower sv.text loc segs literal bound ms)
    (hloc : ∀ m, Located requestPrecedence m (loc m)) {omitEmpty : Bool}
    (hi : Input sv env loc bound ms ws) {r : Request}
    (h : serializeRequest env (pattern segs) literal omitEmpty ms ws = .ok r) {m : Member} (hm : m ∈ ms)
    (hl : loc m = .body ∨ loc m = .host) :
    (∀ v, (m, v) ∈ ws → read sv segs bound loc r m = some v) ∧
    ((∀ v, (m, v) ∉ ws) → read sv segs bound loc r m = none) := by
  have hpay : ∀ m' ∈ ms, loc m' ≠ .payload := by
    intro m' hm' hx
    have := hb.payload m' hm' hx m hm (.inr hl)
    subst this
    rcases hl with hl | hl <;> rw [hl] at hx <;> cases hx
  have hbytes := C29_body env (pattern segs) literal omitEmpty ms ws r h loc hloc hb.noEvents hi.members hpay
    ⟨m, hm, hl⟩
  have hr : read sv segs bound loc r m =
      (ws.filter fun w => loc w.1 = .body ∨ loc w.1 = .host).lookup m := by
    have := hi.codec m
    rcases hl with hl | hl <;> simp only [read, hl, hbytes, this]
  rw [hr]
  refine ⟨fun v hv => lookup_once ?_ ?_, fun hno => lookup_absent fun v hv => hno v (List.mem_filter.1 hv).1⟩
  · exact hi.once.sublist (List.filter_sublist.map _)
  · rw [List.mem_filter, decide_eq_true_iff]
    exact ⟨hv, hl⟩

end

/-! ## Theorems -/

/-- **C96**, proved part: a service that knows the operation finds in a request every member of the input where
it is bound, with the value that was given, and no member that was not given.  Missing: see `Fits` (lists, maps
and entries with nothing in them leave no trace, `C96_empty_fails`; map entries with the name of a parameter,
`C68_query_map_conflict_fails`) and, for payloads only, that a member that was not given is not found: the body
is empty then, as it may be for one that was given. -/
theorem C96_partial (sv : Service) (env : Env) (hlow : sv.lower = env.lower) (hcw : Reading.CharWise env.lower)
    (htext : ∀ t, sv.text (env.utf8 t) = t) (loc : Member → Binding)
    (hloc : ∀ m, Located requestPrecedence m (loc m)) (segs : List Seg) (literal : Bytes) (omitEmpty : Bool)
    (bound : List Text) (ms : List Member) (hb : WellBound env.lower sv.text loc segs literal bound ms)
    (ws : List (Member × Val)) (hi : Input sv env loc bound ms ws) (r : Request)
    (h : serializeRequest env (pattern segs) literal omitEmpty ms ws = .ok r) (m : Member) (hm : m ∈ ms) :
    (∀ v, (m, v) ∈ ws → ∃ v', read sv segs bound loc r m = some v' ∧ Same v v') ∧
    ((∀ v, (m, v) ∉ ws) → loc m ≠ .payload → read sv segs bound loc r m = none) := by
  obtain ⟨hF, hQ, hP, _⟩ := C29_request_contents env (pattern segs) literal omitEmpty ms ws r h loc hloc
  have hq := parameters_written sv env htext r.query literal _ hQ
  have exact' : (∀ v, (m, v) ∈ ws → read sv segs bound loc r m = some v) →
      ∀ v, (m, v) ∈ ws → ∃ v', read sv segs bound loc r m = some v' ∧ Same v v' :=
    fun hx v hv => ⟨v, hx v hv, .inl rfl⟩
  cases hl : loc m with
  | label =>
    obtain ⟨t, ht, hr⟩ := read_label htext hb hi hP hm hl
    refine ⟨exact' fun v hv => ?_, fun hno => absurd ht (hno _)⟩
    have := nodup_map_inj hi.once hv ht rfl
    cases this
    simpa [read, hl] using hr
  | query =>
    obtain ⟨h1, h2⟩ := read_query hb hi hq hm hl
    exact ⟨exact' fun v hv => by simp only [read, hl]; exact h1 v hv, fun hno _ => by simp only [read, hl]; exact h2 hno⟩
  | queryParams =>
    obtain ⟨h1, h2⟩ := read_queryParams hb hi hq hm hl
    refine ⟨exact' fun v hv => ?_, fun hno _ => by simp only [read, hl, h2 hno]⟩
    simp only [read, hl, h1 v hv]
    have hf := hi.fits _ hv
    simp only [Fits, hl] at hf
    rcases hf with ⟨hmu, kvs, rfl, hne, _⟩ | ⟨hmu, kvs, rfl, hne, hnd, hk⟩
    · cases kvs with
      | nil => exact absurd rfl hne
      | cons kv kvs => simp [named, hmu]
    · have hg := grouped_flat kvs hnd fun kv hkv => (hk kv hkv).1
      simp only [named, List.nil_append]
      cases hps : kvs.flatMap fun kv => kv.2.map fun v => (kv.1, v) with
      | nil =>
        rw [hps] at hg
        exact absurd hg.symm hne
      | cons p ps => rw [hps] at hg; simp only [hmu, if_true, hg]
  | header =>
    obtain ⟨h1, h2⟩ := read_header hlow hcw hb hi hF hm hl
    exact ⟨exact' fun v hv => by simp only [read, hl]; exact h1 v hv, fun hno _ => by simp only [read, hl]; exact h2 hno⟩
  | prefixHeaders =>
    obtain ⟨ct, len, _, _, hfs, _⟩ := serializeRequest_ok h
    rw [← loc_request hloc] at hfs
    obtain ⟨h1, h2⟩ := read_prefix (ct := ct) (len := len) hlow hcw hb hi hm hl
    rw [← hfs] at h1 h2
    refine ⟨fun v hv => ?_, fun hno _ => by simp only [read, hl, h2 hno]⟩
    have hf := hi.fits _ hv
    simp only [Fits, hl] at hf
    obtain ⟨kvs, rfl, hne, _⟩ := hf
    have h1 := h1 kvs hv
    refine ⟨.map (prefixed sv.lower r.fields (m.prefixHeaders.getD [])), ?_, .inr ⟨_, _, rfl, rfl, fun kv => (h1 kv).symm⟩⟩
    simp only [read, hl]
    cases hp : prefixed sv.lower r.fields (m.prefixHeaders.getD []) with
    | nil =>
      obtain ⟨kv, hkv⟩ := List.exists_mem_of_ne_nil kvs hne
      have := (h1 kv).2 hkv
      rw [hp] at this
      cases this
    | cons p ps => rfl
  | payload => exact ⟨exact' fun v hv => read_payload hb hloc htext hi h hm hl v hv, fun _ hx => absurd rfl hx⟩
  | body =>
    obtain ⟨h1, h2⟩ := read_body hb hloc hi h hm (.inl hl)
    exact ⟨exact' h1, fun hno _ => h2 hno⟩
  | host =>
    obtain ⟨h1, h2⟩ := read_body hb hloc hi h hm (.inr hl)
    exact ⟨exact' h1, fun hno _ => h2 hno⟩
  | status =>
    have := loc_request hloc
    rw [this] at hl
    exact absurd hl (matchRequest_ne_status m)

theorem Same.trans {a b c : Val} (h1 : Same a b) (h2 : Same b c) : Same a c := by
  rcases h1 with rfl | ⟨x, y, rfl, rfl, h1⟩
  · exact h2
  · rcases h2 with rfl | ⟨x', y', h3, rfl, h2⟩
    · exact .inr ⟨_, _, rfl, rfl, h1⟩
    · cases h3
      exact .inr ⟨_, _, rfl, rfl, fun kv => (h1 kv).trans (h2 kv)⟩

theorem Same.symm {a b : Val} (h : Same a b) : Same b a := by
  rcases h with rfl | ⟨x, y, rfl, rfl, h⟩
  · exact .inl rfl
  · exact .inr ⟨_, _, rfl, rfl, fun kv => (h kv).symm⟩

/-- **C96**, proved part: two inputs that make the same request are the same. -/
theorem C96_different_partial (sv : Service) (env : Env) (hlow : sv.lower = env.lower)
    (hcw : Reading.CharWise env.lower) (htext : ∀ t, sv.text (env.utf8 t) = t) (loc : Member → Binding)
    (hloc : ∀ m, Located requestPrecedence m (loc m)) (segs : List Seg) (literal : Bytes) (omitEmpty : Bool)
    (bound : List Text) (ms : List Member) (hb : WellBound env.lower sv.text loc segs literal bound ms)
    (ws ws' : List (Member × Val)) (hi : Input sv env loc bound ms ws) (hi' : Input sv env loc bound ms ws')
    (r : Request) (h : serializeRequest env (pattern segs) literal omitEmpty ms ws = .ok r)
    (h' : serializeRequest env (pattern segs) literal omitEmpty ms ws' = .ok r) (m : Member) (hm : m ∈ ms) :
    (∀ v v', (m, v) ∈ ws → (m, v') ∈ ws' → Same v v') ∧
    (loc m ≠ .payload → ((∃ v, (m, v) ∈ ws) ↔ ∃ v, (m, v) ∈ ws')) := by
  obtain ⟨h1, h2⟩ := C96_partial sv env hlow hcw htext loc hloc segs literal omitEmpty bound ms hb ws hi r h m hm
  obtain ⟨h3, h4⟩ := C96_partial sv env hlow hcw htext loc hloc segs literal omitEmpty bound ms hb ws' hi' r h' m hm
  refine ⟨fun v v' hv hv' => ?_, fun hp => ⟨?_, ?_⟩⟩
  · obtain ⟨a, ha, hs⟩ := h1 v hv
    obtain ⟨b, hb, hs'⟩ := h3 v' hv'
    have : a = b := Option.some.inj (ha.symm.trans hb)
    subst this
    exact hs.trans hs'.symm
  · rintro ⟨v, hv⟩
    by_contra hno
    obtain ⟨a, ha, _⟩ := h1 v hv
    rw [h4 (fun x hx => hno ⟨x, hx⟩) hp] at ha
    cases ha
  · rintro ⟨v, hv⟩
    by_contra hno
    obtain ⟨a, ha, _⟩ := h3 v hv
    rw [h2 (fun x hx => hno ⟨x, hx⟩) hp] at ha
    cases ha

/-- The slash and the literal that begin `pattern` may as well be one literal, as in the code. -/
theorem C96_literals (pre post : List (Piece Text)) (a b : Bytes) (values : List (Text × Bytes)) :
    Uri.serializePath (pre ++ .lit a :: .lit b :: post) values =
      Uri.serializePath (pre ++ .lit (a ++ b) :: post) values := by
  have h1 : Uri.greedyLabels (pre ++ .lit a :: .lit b :: post) = Uri.greedyLabels (pre ++ .lit (a ++ b) :: post) := by
    induction pre with
    | nil => rfl
    | cons p pre ih =>
      rcases p with t | ⟨n, g⟩
      · exact ih
      · cases g
        · exact ih
        · simp only [List.cons_append, Uri.greedyLabels, ih]
  have h2 : ∀ f : Text → Option Bytes, Uri.substitute f (pre ++ .lit a :: .lit b :: post) =
      Uri.substitute f (pre ++ .lit (a ++ b) :: post) := by
    intro f
    clear h1
    induction pre with
    | nil =>
      simp only [List.nil_append, Uri.substitute]
      cases Uri.substitute f post <;> simp [Except.map]
    | cons p pre ih =>
      rcases p with t | ⟨n, g⟩ <;> simp only [List.cons_append, Uri.substitute, ih]
  unfold Uri.serializePath Uri.format Uri.encodeLabel
  rw [h1, h2]

/-! ## The hypotheses are met -/

/-- UTF-8, and a codec that writes the texts of members one after the other. -/
def senv : Env where
  lower := List.map Char.toLower
  utf8 t := EventStream.utf8Encode (String.ofList t)
  natText n := (Nat.repr n).toList
  mediaType := "text/plain".toList
  encodeStruct ws := ws.flatMap fun w => match w.2 with
    | .text t => EventStream.utf8Encode (String.ofList t)
    | _ => []
  encodeValues ws := ws.flatMap fun w => match w.2 with
    | .text t => EventStream.utf8Encode (String.ofList t)
    | _ => []

def stext (b : Bytes) : Text := ((EventStream.utf8Decode b).map String.toList).getD []

def ssv : Service where
  lower := List.map Char.toLower
  text := stext
  member b m := if m = mBody ∧ b ≠ [] then some (.text (stext b)) else none
  value b := some (.text (stext b))
  multi _ := false

theorem stext_utf8 (t : Text) : ssv.text (senv.utf8 t) = t := by
  simp [ssv, senv, stext, EventStream.utf8Decode_encode]

def mKey : Member := { name := "key".toList, shape := .string, label := true }
def mMeta : Member := { name := "meta".toList, shape := .map, prefixHeaders := some "x-meta-".toList }

/-- `/things/{id}/{key+}?list`. -/
def ssegs : List Seg := [.lit (asc "things"), .label "id".toList, .greedy "key".toList]

def sms : List Member := [mLabel, mKey, mQuery, mParams, mHeader, mMeta, mBody]

def sws : List (Member × Val) :=
  [(mLabel, .text "a/b".toList), (mKey, .text "c/d e".toList), (mQuery, .text "v&w".toList),
   (mParams, .map [("n=".toList, "1".toList), ("m".toList, "é".toList)]),
   (mHeader, .list ["1".toList, "2".toList]),
   (mMeta, .map [("Owner".toList, "me".toList), ("tag".toList, "t".toList)]), (mBody, .text "z".toList)]

theorem sms_wellBound : WellBound senv.lower ssv.text matchRequest ssegs (asc "list") ["q".toList, "list".toList]
    sms where
  members := by decide +kernel
  labels := by decide +kernel
  greedy := by
    intro pre n post h n' hn
    have hc : (ssegs.filter fun s => match s with | .greedy _ => true | _ => false).length = 1 := by decide +kernel
    have h2 : 1 ≤ (post.filter fun s => match s with | .greedy _ => true | _ => false).length :=
      List.length_pos_of_mem (List.mem_filter.2 ⟨hn, rfl⟩)
    rw [h, List.filter_append, List.filter_cons, if_pos rfl, List.length_append, List.length_cons] at hc
    omega
  labelled := by decide +kernel
  literals := by
    intro t ht
    have : t = asc "things" := by simpa [ssegs] using ht
    subst this
    unfold Uri.PlainLiteral
    decide +kernel
  query := by decide +kernel
  boundQuery := by decide +kernel
  boundLiteral := by decide +kernel
  literalQuery := by decide +kernel
  queryParams := by decide +kernel
  headers := by decide +kernel
  ownHeaders := by decide +kernel
  prefixes := by decide +kernel
  onePrefix := by decide +kernel
  ownPrefixes := by decide +kernel
  payload := by decide +kernel
  noEvents := by decide +kernel

theorem sws_input : Input ssv senv matchRequest ["q".toList, "list".toList] sms sws where
  members := by decide +kernel
  once := by decide +kernel
  fits := by
    intro w hw
    simp only [sws, List.mem_cons, List.not_mem_nil, or_false] at hw
    rcases hw with rfl | rfl | rfl | rfl | rfl | rfl | rfl
    · exact ⟨_, rfl⟩
    · exact ⟨_, rfl⟩
    · exact .inl ⟨by decide, _, rfl⟩
    · exact .inl ⟨rfl, _, rfl, by decide +kernel, by decide +kernel⟩
    · exact .inr ⟨rfl, _, _, rfl⟩
    · exact ⟨_, rfl, by decide +kernel, by decide +kernel⟩
    · exact trivial
  codec := by
    intro m
    have e : (sws.filter fun w => matchRequest w.1 = .body ∨ matchRequest w.1 = .host) = [(mBody, .text "z".toList)] := by
      decide +kernel
    rw [e]
    by_cases hm : m = mBody
    · subst hm; decide +kernel
    · have h1 : (m == mBody) = false := beq_false_of_ne hm
      simp [ssv, hm, List.lookup, h1]

/-- Those of `C96_partial`, for an operation with every location but the payload. -/
example : Reading.CharWise senv.lower ∧ (∀ m, Located requestPrecedence m (matchRequest m)) ∧
    view (serializeRequest senv (pattern ssegs) (asc "list") true sms sws) =
      .ok ([("X-H".toList, ["1".toList, "2".toList]), ("x-meta-Owner".toList, ["me".toList]),
        ("x-meta-tag".toList, ["t".toList]), ("content-type".toList, ["text/plain".toList]),
        ("content-length".toList, ["1".toList])],
        asc "/things/a%2Fb/c/d%20e", asc "list&q=v%26w&n%3D=1&m=%C3%A9", .bytes (asc "z")) :=
  ⟨⟨Char.toLower, fun _ => rfl⟩, fun m => (C29_request_location m _).2 rfl, by decide +kernel⟩

/-! ## What does not hold -/

/-- What is false of the code: an empty list or map bound to headers or the query leaves no trace, so that it
cannot be told from a member that was not given. -/
theorem C96_empty_fails :
    view (serializeRequest senv (pattern [.lit (asc "x")]) [] true [mHeader, mParams, mMeta]
      [(mHeader, .list []), (mParams, .map []), (mMeta, .map [])]) =
    view (serializeRequest senv (pattern [.lit (asc "x")]) [] true [mHeader, mParams, mMeta] []) ∧
    view (serializeRequest senv (pattern [.lit (asc "x")]) [] true [mHeader, mParams, mMeta] []) =
      .ok ([], asc "/x", [], .bytes []) := by
  refine ⟨?_, ?_⟩ <;> decide +kernel

end Verif.Http.Serving
