import Verif.HeaderText.Model
import Mathlib.Data.List.Basic

/-!
# The headers that generated tests expect (C141)

Models how the generator makes, from the text of a header in a test case, the values that the test expects
(codegen/core/src/main/java/software/amazon/smithy/python/codegen/HttpProtocolTestGenerator.java:295-399).  Which values clients
give to a field is `Field.as_string`, `HeaderText.asString`.

Simplified: `SimpleParser` is of Smithy, not of this repository; it is taken to do what its names say: `ws` skips spaces, tabs and ends of
lines, `expect` is an exception if another character comes.  The rest of the text is passed on instead of a position.  `none` is an
exception, which ends generation.
-/

set_option autoImplicit false

namespace Verif.TestHeaders

abbrev Text := List Char

/-! ## Model -/

/-- What `SimpleParser.ws` skips (used in HttpProtocolTestGenerator.java:353). -/
def isWs (c : Char) : Bool := c = ' ' || c = '\t' || c = '\r' || c = '\n'

/-- `SimpleParser.ws` (used in HttpProtocolTestGenerator.java:353, 390 and 395). -/
def ws (t : Text) : Text := t.dropWhile isWs

/-- `String.trim` of Java (used in HttpProtocolTestGenerator.java:386). -/
def trim (t : Text) : Text := HeaderText.strip (fun c => decide (c.toNat ≤ 32)) t

/-- A quoted string after its first quote, and what follows it (HttpProtocolTestGenerator.java:366-376); `escaped` is whether the
character before was a backslash. -/
def quoted : Bool → Text → Option (Text × Text)
  | _, [] => none
  | true, c :: cs => (quoted false cs).map fun r => (c :: r.1, r.2)
  | false, c :: cs =>
    if c = '"' then some ([], cs)
    else if c = '\\' then quoted true cs
    else (quoted false cs).map fun r => (c :: r.1, r.2)

/-- A value without quotes, and what follows it (HttpProtocolTestGenerator.java:378-386). -/
def bare (skipFirstComma : Bool) (t : Text) : Option (Text × Text) :=
  if skipFirstComma then
    match t.dropWhile (· ≠ ',') with
    | [] => none
    | _ :: cs => some (trim (t.takeWhile (· ≠ ',') ++ ',' :: cs.takeWhile (· ≠ ',')), cs.dropWhile (· ≠ ','))
  else some (trim (t.takeWhile (· ≠ ',')), t.dropWhile (· ≠ ','))

/-- The value of `parseEntry` (HttpProtocolTestGenerator.java:360-387). -/
def value (skipFirstComma : Bool) (t : Text) : Option (Text × Text) :=
  if t.head? = some '"' then quoted false t.tail else bare skipFirstComma t

/-- What `parseEntry` does after a value (HttpProtocolTestGenerator.java:389-396). -/
def next (t : Text) : Option Text :=
  match ws t with
  | [] => some []
  | c :: cs => if c = ',' then some (ws cs) else none

/-- `parseEntry` (HttpProtocolTestGenerator.java:360-399). -/
def parseEntry (skipFirstComma : Bool) (t : Text) : Option (Text × Text) :=
  match value skipFirstComma t with
  | none => none
  | some (v, rest) => (next rest).map fun r => (v, r)

theorem quoted_length : ∀ {t : Text} {e : Bool} {v rest : Text}, quoted e t = some (v, rest) → rest.length < t.length
  | [], e, _, _, h => by cases e <;> cases h
  | c :: cs, true, v, rest, h => by
    rw [quoted] at h
    cases hq : quoted false cs with
    | none => rw [hq] at h; cases h
    | some r =>
      rw [hq] at h
      cases h
      have := quoted_length hq
      simp only [List.length_cons]
      omega
  | c :: cs, false, v, rest, h => by
    rw [quoted] at h
    by_cases h1 : c = '"'
    · rw [if_pos h1] at h
      cases h
      simp
    · rw [if_neg h1] at h
      by_cases h2 : c = '\\'
      · rw [if_pos h2] at h
        have := quoted_length h
        simp only [List.length_cons]
        omega
      · rw [if_neg h2] at h
        cases hq : quoted false cs with
        | none => rw [hq] at h; cases h
        | some r =>
          rw [hq] at h
          cases h
          have := quoted_length hq
          simp only [List.length_cons]
          omega

theorem dropWhile_length (p : Char → Bool) (t : Text) : (t.dropWhile p).length ≤ t.length :=
  (List.dropWhile_suffix p).length_le

theorem value_length {s : Bool} {t v rest : Text} (h : value s t = some (v, rest)) : rest.length ≤ t.length := by
  unfold value at h
  by_cases hq : t.head? = some '"'
  · rw [if_pos hq] at h
    have := quoted_length h
    rw [List.length_tail] at this
    omega
  · rw [if_neg hq] at h
    unfold bare at h
    cases s with
    | false =>
      rw [if_neg (by simp)] at h
      cases h
      exact dropWhile_length _ _
    | true =>
      rw [if_pos rfl] at h
      have h0 := dropWhile_length (· ≠ ',') t
      cases hd : t.dropWhile (· ≠ ',') with
      | nil => rw [hd] at h; cases h
      | cons c cs =>
        rw [hd] at h h0
        cases h
        have := dropWhile_length (· ≠ ',') cs
        simp only [List.length_cons] at h0
        omega

theorem next_length {t r : Text} (h : next t = some r) : r.length < t.length ∨ r = [] := by
  unfold next at h
  have h0 := dropWhile_length isWs t
  unfold ws at h
  cases hd : t.dropWhile isWs with
  | nil =>
    rw [hd] at h
    cases h
    exact .inr rfl
  | cons c cs =>
    rw [hd] at h h0
    dsimp only at h
    by_cases hc : c = ','
    · rw [if_pos hc] at h
      cases h
      have := dropWhile_length isWs cs
      simp only [List.length_cons] at h0
      exact .inl (by omega)
    · rw [if_neg hc] at h
      cases h

theorem parseEntry_length {s : Bool} {t v r : Text} (ht : t ≠ []) (h : parseEntry s t = some (v, r)) : r.length < t.length := by
  unfold parseEntry at h
  cases hv : value s t with
  | none => rw [hv] at h; cases h
  | some x =>
    obtain ⟨v', rest⟩ := x
    rw [hv] at h
    dsimp only at h
    cases hn : next rest with
    | none => rw [hn] at h; cases h
    | some y =>
      rw [hn] at h
      cases h
      have h1 := value_length hv
      rcases next_length hn with h2 | h2
      · omega
      · rw [h2]
        exact List.length_pos_iff.2 ht

/-- The loop of `splitHeader` (HttpProtocolTestGenerator.java:354-356). -/
def entries (skipFirstComma : Bool) (t : Text) : Option (List Text) :=
  if _ht : t = [] then some []
  else
    match _h : parseEntry skipFirstComma t with
    | none => none
    | some (v, r) => (entries skipFirstComma r).map (v :: ·)
termination_by t.length
decreasing_by exact parseEntry_length _ht _h

/-- `splitHeader` (HttpProtocolTestGenerator.java:336-358): `dates` is whether the header is a list of timestamps as HTTP dates. -/
def splitHeader (dates : Bool) (t : Text) : Option (List Text) := entries dates (ws t)

/-- How a header of a test case is bound (HttpProtocolTestGenerator.java:300-304 and 316-317). -/
inductive Bound where
  /-- Not to a list, or not at all. -/
  | static
  /-- To a list that has so many elements in the parameters of the test case. -/
  | list (dates : Bool) (size : ℕ)

/-- The values that the test expects of a header, `splitHeaders` (HttpProtocolTestGenerator.java:295-334) for one of them. -/
def expected (b : Bound) (t : Text) : Option (List Text) :=
  match b with
  | .static => some [t]
  | .list dates size => (splitHeader dates t).map fun vs => (if size = 1 then [t] else []) ++ vs

/-! ## Specification -/

/-- Nothing around the text can be taken for a blank: it begins and ends in a character after the space. -/
def Trimmed (v : Text) : Prop := (∃ c cs, v = c :: cs ∧ 32 < c.toNat) ∧ ∃ cs c, v = cs ++ [c] ∧ 32 < c.toNat

/-! ## Lemmas -/

theorem trim_trimmed {v : Text} (h : Trimmed v) : trim v = v := by
  obtain ⟨⟨c, cs, hc, h1⟩, ds, d, hd, h2⟩ := h
  have e1 : v.dropWhile (fun c => decide (c.toNat ≤ 32)) = v := by
    rw [hc, List.dropWhile_cons_of_neg (by simpa using h1)]
  unfold trim HeaderText.strip
  rw [e1, hd, List.reverse_append, List.reverse_singleton, List.singleton_append, List.dropWhile_cons_of_neg (by simpa using h2)]
  simp

theorem ws_of_high {c : Char} (cs : Text) (h : 32 < c.toNat) : ws (c :: cs) = c :: cs := by
  unfold ws
  refine List.dropWhile_cons_of_neg ?_
  intro hw
  unfold isWs at hw
  simp only [Bool.or_eq_true, decide_eq_true_eq] at hw
  rcases hw with ((rfl | rfl) | rfl) | rfl <;> exact absurd h (by decide)

/-- What follows a value. -/
def Ends (rest : Text) : Prop := rest = [] ∨ ∃ cs, rest = ',' :: cs

/-- A text from which the parser reads a value, whatever follows. -/
def Reads (dates : Bool) (x v : Text) : Prop :=
  (∃ c cs, x = c :: cs ∧ 32 < c.toNat) ∧ ∀ rest, Ends rest → value dates (x ++ rest) = some (v, rest)

theorem takeWhile_ends {v rest : Text} (h : ',' ∉ v) (hr : Ends rest) :
    (v ++ rest).takeWhile (· ≠ ',') = v ∧ (v ++ rest).dropWhile (· ≠ ',') = rest := by
  induction v with
  | nil => rcases hr with rfl | ⟨cs, rfl⟩ <;> simp
  | cons c v ih =>
    have hc : c ≠ ',' := fun e => h (e ▸ List.mem_cons_self)
    have ih := ih fun hm => h (List.mem_cons_of_mem _ hm)
    rw [List.cons_append, List.takeWhile_cons_of_pos (by simpa using hc), List.dropWhile_cons_of_pos (by simpa using hc), ih.1, ih.2]
    exact ⟨rfl, rfl⟩

theorem reads_bare {v : Text} (h : Trimmed v) (h1 : ',' ∉ v) (h2 : v.head? ≠ some '"') : Reads false v v := by
  refine ⟨h.1, fun rest hr => ?_⟩
  obtain ⟨c, cs, rfl, -⟩ := h.1
  unfold value
  rw [if_neg (by simpa using h2)]
  unfold bare
  rw [if_neg (by simp), (takeWhile_ends h1 hr).1, (takeWhile_ends h1 hr).2, trim_trimmed h]

theorem reads_date {a b : Text} (h : Trimmed (a ++ ',' :: b)) (h1 : ',' ∉ a) (h2 : ',' ∉ b) (h3 : (a ++ ',' :: b).head? ≠ some '"') :
    Reads true (a ++ ',' :: b) (a ++ ',' :: b) := by
  refine ⟨h.1, fun rest hr => ?_⟩
  have hh : (a ++ ',' :: b ++ rest).head? ≠ some '"' := by
    obtain ⟨c, cs, hc, -⟩ := h.1
    rw [hc] at h3 ⊢
    simpa using h3
  unfold value
  rw [if_neg hh]
  unfold bare
  have e := takeWhile_ends (rest := ',' :: (b ++ rest)) h1 (.inr ⟨_, rfl⟩)
  rw [if_pos rfl, List.append_assoc, List.cons_append, e.1, e.2]
  dsimp only
  rw [(takeWhile_ends h2 hr).1, (takeWhile_ends h2 hr).2, trim_trimmed h]

theorem quoted_escape (rest : Text) : ∀ v : Text,
    quoted false (HeaderText.replaceChar '"' ['\\', '"'] (HeaderText.replaceChar '\\' ['\\', '\\'] v) ++ '"' :: rest) = some (v, rest)
  | [] => by simp [HeaderText.replaceChar, quoted]
  | c :: v => by
    have ih := quoted_escape rest v
    unfold HeaderText.replaceChar at ih ⊢
    rw [List.flatMap_cons, List.flatMap_append, List.append_assoc]
    by_cases h1 : c = '\\'
    · subst h1
      simp only [if_true, List.flatMap_cons, List.flatMap_nil, List.append_nil]
      simp only [show ('\\' = '"') = False from eq_false (by decide), if_false, List.cons_append, List.nil_append]
      rw [quoted, if_neg (by decide), if_pos rfl, quoted, ih]
      rfl
    · rw [if_neg h1]
      by_cases h2 : c = '"'
      · subst h2
        simp only [if_true, List.flatMap_cons, List.flatMap_nil, List.append_nil, List.cons_append, List.nil_append]
        rw [quoted, if_neg (by decide), if_pos rfl, quoted, ih]
        rfl
      · simp only [List.flatMap_cons, List.flatMap_nil, List.append_nil, if_neg h2, List.cons_append, List.nil_append]
        rw [quoted, if_neg h2, if_neg h1, ih]
        rfl

theorem reads_written {v : Text} (h : ',' ∈ v ∨ '"' ∈ v ∨ Trimmed v) : Reads false (HeaderText.quoteAndEscape v) v := by
  unfold HeaderText.quoteAndEscape
  by_cases hq : (v.any fun c => c = ',' || c = '"') = true
  · rw [if_pos hq]
    refine ⟨⟨'"', _, rfl, by decide⟩, fun rest _ => ?_⟩
    unfold value
    simp only [List.cons_append, List.head?_cons, if_true, List.tail_cons, List.append_assoc, List.nil_append]
    exact quoted_escape rest v
  · rw [if_neg hq]
    have hn : ∀ c ∈ v, c ≠ ',' ∧ c ≠ '"' := by
      intro c hc
      refine ⟨fun e => hq ?_, fun e => hq ?_⟩ <;>
      · rw [List.any_eq_true]
        exact ⟨c, hc, by simp [e]⟩
    have h1 : ',' ∉ v := fun hm => (hn _ hm).1 rfl
    have h2 : '"' ∉ v := fun hm => (hn _ hm).2 rfl
    rcases h with h | h | h
    · exact absurd h h1
    · exact absurd h h2
    · exact reads_bare h h1 fun hh => h2 (List.mem_of_mem_head? hh)

theorem ws_reads {dates : Bool} {x v : Text} (h : Reads dates x v) (rest : Text) : ws (x ++ rest) = x ++ rest := by
  obtain ⟨⟨c, cs, rfl, hc⟩, -⟩ := h
  exact ws_of_high _ hc

theorem entries_items {dates : Bool} : ∀ (items : List (Text × Text)), (∀ i ∈ items, Reads dates i.1 i.2) →
    entries dates (List.intercalate [',', ' '] (items.map (·.1))) = some (items.map (·.2))
  | [], _ => by
    rw [entries]
    simp [List.intercalate]
  | [i], h => by
    have hi := h i List.mem_cons_self
    have hne : i.1 ≠ [] := by
      obtain ⟨⟨c, cs, hc, -⟩, -⟩ := hi
      rw [hc]
      simp
    have hp : parseEntry dates i.1 = some (i.2, []) := by
      have := hi.2 [] (.inl rfl)
      rw [List.append_nil] at this
      unfold parseEntry
      rw [this]
      rfl
    have ht : List.intercalate [',', ' '] ([i].map (·.1)) = i.1 := by simp [List.intercalate]
    rw [ht, entries, dif_neg hne]
    split
    · next hx => rw [hp] at hx; cases hx
    · next v r hx =>
      rw [hp] at hx
      cases hx
      rw [entries, dif_pos rfl]
      rfl
  | i :: j :: items, h => by
    have hi := h i List.mem_cons_self
    have ih := entries_items (j :: items) fun x hx => h x (List.mem_cons_of_mem _ hx)
    generalize hr : List.intercalate [',', ' '] ((j :: items).map (·.1)) = r at ih
    have ht : List.intercalate [',', ' '] ((i :: j :: items).map (·.1)) = i.1 ++ ',' :: ' ' :: r := by
      rw [← hr]
      simp [List.intercalate]
    have hw : ws (' ' :: r) = r := by
      have hj := h j (List.mem_cons_of_mem _ List.mem_cons_self)
      have : ∃ rest, r = j.1 ++ rest := by
        rw [← hr]
        cases items with
        | nil => exact ⟨[], by simp [List.intercalate]⟩
        | cons k ks => exact ⟨_, by simp [List.intercalate]; rfl⟩
      obtain ⟨rest, hrest⟩ := this
      have h2 := ws_reads hj rest
      unfold ws at h2 ⊢
      rw [List.dropWhile_cons_of_pos (by decide), hrest]
      exact h2
    have hne : i.1 ++ ',' :: ' ' :: r ≠ [] := by simp
    have hp : parseEntry dates (i.1 ++ ',' :: ' ' :: r) = some (i.2, r) := by
      unfold parseEntry
      rw [hi.2 _ (.inr ⟨_, rfl⟩)]
      dsimp only
      unfold next
      rw [ws_of_high _ (by decide)]
      dsimp only
      rw [if_pos rfl, hw]
      rfl
    rw [ht, entries, dif_neg hne]
    split
    · next hx => rw [hp] at hx; cases hx
    · next v r' hx =>
      rw [hp] at hx
      cases hx
      rw [ih]
      rfl

theorem split_items {dates : Bool} (items : List (Text × Text)) (h : ∀ i ∈ items, Reads dates i.1 i.2) :
    splitHeader dates (List.intercalate [',', ' '] (items.map (·.1))) = some (items.map (·.2)) := by
  unfold splitHeader
  rw [← entries_items items h]
  congr 1
  cases items with
  | nil => simp [List.intercalate, ws]
  | cons i items =>
    have hi := h i List.mem_cons_self
    cases items with
    | nil =>
      have := ws_reads hi []
      simpa [List.intercalate] using this
    | cons j items =>
      have := ws_reads hi (',' :: ' ' :: List.intercalate [',', ' '] ((j :: items).map (·.1)))
      simpa [List.intercalate] using this

/-! ## Theorems -/

/-- **C141**: of a list with two or more elements, the test expects exactly the values that were joined to the text of the header. -/
theorem C141_list_partial (vs : List Text) (hlen : 2 ≤ vs.length) (hv : ∀ v ∈ vs, ',' ∈ v ∨ '"' ∈ v ∨ Trimmed v) :
    expected (.list false vs.length) (HeaderText.asString vs) = some vs := by
  have hs : splitHeader false (HeaderText.asString vs) = some vs := by
    match vs, hlen with
    | v :: w :: vs, _ =>
      have := split_items (dates := false) ((v :: w :: vs).map fun x => (HeaderText.quoteAndEscape x, x)) (by
        intro i hi
        obtain ⟨x, hx, rfl⟩ := List.mem_map.1 hi
        exact reads_written (hv x hx))
      rw [List.map_map, List.map_map] at this
      have e : ((fun x : Text × Text => x.2) ∘ fun x => (HeaderText.quoteAndEscape x, x)) = id := rfl
      rw [e, List.map_id] at this
      exact this
  unfold expected
  dsimp only
  rw [hs, if_neg (by omega)]
  rfl

/-- **C141**: of a list with one element that needs no quotes, the test expects that one, and no other. -/
theorem C141_one_partial (v : Text) (hv : Trimmed v) (h1 : ',' ∉ v) (h2 : v.head? ≠ some '"') :
    ∃ vs, expected (.list false 1) (HeaderText.asString [v]) = some vs ∧ ∀ x, x ∈ vs ↔ x = v := by
  have hs : splitHeader false v = some [v] := by
    have := split_items (dates := false) [(v, v)] (by
      intro i hi
      rw [List.mem_singleton.1 hi]
      exact reads_bare hv h1 h2)
    simpa [List.intercalate] using this
  refine ⟨[v, v], ?_, by simp⟩
  unfold expected HeaderText.asString
  dsimp only
  rw [hs]
  rfl

/-- **C141**: of a list of HTTP dates other than one alone, which have a comma each and no quotes, the test expects the dates. -/
theorem C141_dates (ds : List (Text × Text)) (hlen : ds.length ≠ 1)
    (h : ∀ d ∈ ds, ',' ∉ d.1 ∧ ',' ∉ d.2 ∧ Trimmed (d.1 ++ ',' :: d.2) ∧ (d.1 ++ ',' :: d.2).head? ≠ some '"') :
    expected (.list true ds.length) (List.intercalate [',', ' '] (ds.map fun d => d.1 ++ ',' :: d.2)) =
      some (ds.map fun d => d.1 ++ ',' :: d.2) := by
  have := split_items (dates := true) (ds.map fun d => (d.1 ++ ',' :: d.2, d.1 ++ ',' :: d.2)) (by
    intro i hi
    obtain ⟨d, hd, rfl⟩ := List.mem_map.1 hi
    obtain ⟨h1, h2, h3, h4⟩ := h d hd
    exact reads_date h3 h1 h2 h4)
  rw [List.map_map, List.map_map] at this
  unfold expected
  dsimp only
  have e : (fun x : Text × Text => x.1) ∘ (fun d : Text × Text => (d.1 ++ ',' :: d.2, d.1 ++ ',' :: d.2)) =
    fun d => d.1 ++ ',' :: d.2 := rfl
  have e' : (fun x : Text × Text => x.2) ∘ (fun d : Text × Text => (d.1 ++ ',' :: d.2, d.1 ++ ',' :: d.2)) =
    fun d => d.1 ++ ',' :: d.2 := rfl
  rw [e, e'] at this
  rw [this, if_neg hlen]
  rfl

/-- **C141**: of a list with one date, the test expects that one, and no other. -/
theorem C141_one_date (a b : Text) (h1 : ',' ∉ a) (h2 : ',' ∉ b) (h3 : Trimmed (a ++ ',' :: b))
    (h4 : (a ++ ',' :: b).head? ≠ some '"') :
    ∃ vs, expected (.list true 1) (a ++ ',' :: b) = some vs ∧ ∀ x, x ∈ vs ↔ x = a ++ ',' :: b := by
  have hs : splitHeader true (a ++ ',' :: b) = some [a ++ ',' :: b] := by
    have := split_items (dates := true) [(a ++ ',' :: b, a ++ ',' :: b)] (by
      intro i hi
      rw [List.mem_singleton.1 hi]
      exact reads_date h3 h1 h2 h4)
    simpa [List.intercalate] using this
  refine ⟨[a ++ ',' :: b, a ++ ',' :: b], ?_, by simp⟩
  unfold expected
  dsimp only
  rw [hs]
  rfl

/-- A list with one element that has a comma: the test expects the parts too, which no right request has. -/
theorem C141_one_fails : expected (.list false 1) (HeaderText.asString ["a, b".toList]) =
    some ["a, b".toList, "a".toList, "b".toList] := by
  with_unfolding_all rfl

/-- An empty element at the end is not expected. -/
theorem C141_empty_fails : expected (.list false 2) (HeaderText.asString ["a".toList, []]) = some ["a".toList] := by
  with_unfolding_all rfl

/-! ## Examples -/

private theorem trimmed_ab : Trimmed "ab".toList :=
  ⟨⟨'a', ['b'], by decide +kernel, by decide⟩, ['a'], 'b', by decide +kernel, by decide⟩

/-- The hypotheses of `C141_list_partial` hold, with quotes, backslashes and commas. -/
example : expected (.list false 3) (HeaderText.asString ["ab".toList, "c,\"d\\".toList, "ab".toList]) =
    some ["ab".toList, "c,\"d\\".toList, "ab".toList] :=
  C141_list_partial _ (by simp) (by
    intro v hv
    simp only [List.mem_cons, List.not_mem_nil, or_false] at hv
    rcases hv with rfl | rfl | rfl
    · exact .inr (.inr trimmed_ab)
    · exact .inl (by decide +kernel)
    · exact .inr (.inr trimmed_ab))

/-- Those of `C141_one_partial` do. -/
example : ∃ vs, expected (.list false 1) (HeaderText.asString ["ab".toList]) = some vs ∧ ∀ x, x ∈ vs ↔ x = "ab".toList :=
  C141_one_partial _ trimmed_ab (by decide +kernel) (by decide +kernel)

/-- Those of `C141_dates` do. -/
example : expected (.list true 2) "Mon, 16 Dec, Tue, 17 Dec".toList = some ["Mon, 16 Dec".toList, "Tue, 17 Dec".toList] := by
  have h := C141_dates [("Mon".toList, " 16 Dec".toList), ("Tue".toList, " 17 Dec".toList)] (by simp) (by
    intro d hd
    simp only [List.mem_cons, List.not_mem_nil, or_false] at hd
    rcases hd with rfl | rfl
    · exact ⟨by decide +kernel, by decide +kernel,
        ⟨⟨'M', "on, 16 Dec".toList, by decide +kernel, by decide⟩, "Mon, 16 De".toList, 'c', by decide +kernel, by decide⟩,
        by decide +kernel⟩
    · exact ⟨by decide +kernel, by decide +kernel,
        ⟨⟨'T', "ue, 17 Dec".toList, by decide +kernel, by decide⟩, "Tue, 17 De".toList, 'c', by decide +kernel, by decide⟩,
        by decide +kernel⟩)
  have e : List.intercalate [',', ' '] ([("Mon".toList, " 16 Dec".toList), ("Tue".toList, " 17 Dec".toList)].map
      fun d : Text × Text => d.1 ++ ',' :: d.2) = "Mon, 16 Dec, Tue, 17 Dec".toList := by decide +kernel
  rw [e] at h
  rw [show (2 : ℕ) = [("Mon".toList, " 16 Dec".toList), ("Tue".toList, " 17 Dec".toList)].length from rfl, h]
  decide +kernel

end Verif.TestHeaders
