import Verif.HeaderText.Spec

/-! # Header lists are split into their elements (C26) -/

set_option autoImplicit false

namespace Verif.HeaderText

section
variable {isSpace : Char → Bool}

/-! ## Consuming up to a comma -/

theorem consume_comma (v : Text) : ∀ (rest : Text), v.count ',' = 0 →
    consumeUntil ',' none false false (v ++ ',' :: rest) = (v, some rest) := by
  induction v with
  | nil => intro rest _; simp [consumeUntil]
  | cons c v ih =>
    intro rest h
    rw [List.count_cons] at h
    have hc : c ≠ ',' := by rintro rfl; simp at h
    have hv : v.count ',' = 0 := by omega
    simp [consumeUntil, hc, ih rest hv]

theorem consume_end (v : Text) : v.count ',' = 0 → ∀ (skip : Bool),
    consumeUntil ',' none skip false v = (v, none) := by
  induction v with
  | nil => intro _ _; simp [consumeUntil]
  | cons c v ih =>
    intro h skip
    rw [List.count_cons] at h
    have hc : c ≠ ',' := by rintro rfl; simp at h
    have hv : v.count ',' = 0 := by omega
    simp [consumeUntil, hc, ih hv skip]

theorem consume_skip_comma (v : Text) : ∀ (rest : Text), v.count ',' = 1 →
    consumeUntil ',' none true false (v ++ ',' :: rest) = (v, some rest) := by
  induction v with
  | nil => intro rest h; simp at h
  | cons c v ih =>
    intro rest h
    rw [List.count_cons] at h
    by_cases hc : c = ','
    · subst hc
      simp only [BEq.rfl, if_true] at h
      have hv : v.count ',' = 0 := by omega
      simp [consumeUntil, consume_comma v rest hv]
    · have hv : v.count ',' = 1 := by simpa [hc] using h
      simp [consumeUntil, hc, ih rest hv]

theorem consume_skip_end (v : Text) : v.count ',' = 1 →
    consumeUntil ',' none true false v = (v, none) := by
  induction v with
  | nil => intro h; simp at h
  | cons c v ih =>
    intro h
    rw [List.count_cons] at h
    by_cases hc : c = ','
    · subst hc
      simp only [BEq.rfl, if_true] at h
      have hv : v.count ',' = 0 := by omega
      simp [consumeUntil, consume_end v hv]
    · have hv : v.count ',' = 1 := by simpa [hc] using h
      simp [consumeUntil, hc, ih hv]

theorem consume_quoted (q : List QChar) : ∀ (rest : Text), (∀ c ∈ q, c.Ok) →
    consumeUntil '"' (some '\\') false false (q.flatMap QChar.text ++ '"' :: rest) =
      (q.map QChar.char, some rest) := by
  induction q with
  | nil => intro rest _; simp [consumeUntil]
  | cons c q ih =>
    intro rest h
    have hc := h c (by simp)
    have ih := ih rest fun x hx => h x (by simp [hx])
    cases c with
    | plain c =>
      simp only [QChar.Ok] at hc
      simp [QChar.text, QChar.char, consumeUntil, hc.1, Ne.symm hc.2, ih]
    | escaped c => simp [QChar.text, QChar.char, consumeUntil, ih]

/-! ## Blanks -/

theorem dropWhile_all (p : Char → Bool) (t u : Text) (h : ∀ c ∈ t, p c = true) :
    (t ++ u).dropWhile p = u.dropWhile p := by
  induction t with
  | nil => rfl
  | cons c t ih => simp [h c (by simp), ih fun x hx => h x (by simp [hx])]

theorem dropWhile_head (p : Char → Bool) (t : Text) (h : ∀ c ∈ t.head?, p c = false) :
    t.dropWhile p = t := by
  cases t with
  | nil => rfl
  | cons c t => simp [h c (by simp)]

theorem strip_blanks (t : Text) (h : ∀ c ∈ t, isSpace c = true) : strip isSpace t = [] := by
  have := dropWhile_all isSpace t [] h
  simp only [List.append_nil] at this
  simp [strip, this]

theorem strip_trimmed (v t : Text) (hv : Trimmed isSpace v) (h : ∀ c ∈ t, isSpace c = true) :
    strip isSpace (v ++ t) = v := by
  obtain ⟨h1, h2, h3⟩ := hv
  unfold strip
  have e1 : (v ++ t).dropWhile isSpace = v ++ t := by
    apply dropWhile_head
    intro c hc
    cases v with
    | nil => exact absurd rfl h1
    | cons x v => exact h2 c (by simpa using hc)
  rw [e1, List.reverse_append, dropWhile_all _ _ _ fun c hc => h c (List.mem_reverse.1 hc),
    dropWhile_head, List.reverse_reverse]
  intro c hc
  rw [List.head?_reverse] at hc
  exact h3 c hc

/-- Leading blanks are skipped. -/
theorem split_blanks (dates : Bool) (t u : Text) (h : ∀ c ∈ t, isSpace c = true) :
    splitHeader isSpace dates (t ++ u) = splitHeader isSpace dates u := by
  induction t with
  | nil => rfl
  | cons c t ih =>
    rw [List.cons_append, splitHeader, if_pos (h c (by simp)), ih fun x hx => h x (by simp [hx])]

theorem count_blanks (hcomma : isSpace ',' = false) (t : Text) (h : ∀ c ∈ t, isSpace c = true) :
    t.count ',' = 0 := by
  rw [List.count_eq_zero]
  intro hm
  rw [h _ hm] at hcomma
  cases hcomma

/-! ## One element -/

/-- The unquoted branch, when a comma follows. -/
theorem split_bare (dates : Bool) (c : Char) (cs entry rest : Text) (hs : isSpace c = false)
    (hq : c ≠ '"') (hc : consumeUntil ',' none dates false (c :: cs) = (entry, some rest)) :
    splitHeader isSpace dates (c :: cs) = (splitHeader isSpace dates rest).map
      ((if strip isSpace entry ≠ [] then [strip isSpace entry] else []) ++ ·) := by
  rw [splitHeader, if_neg (by simp [hs]), if_neg hq]
  split
  next e r h =>
    rw [hc] at h
    simp only [Prod.mk.injEq] at h
    obtain ⟨rfl, rfl⟩ := h
    rfl

theorem split_bare_end (dates : Bool) (c : Char) (cs entry : Text) (hs : isSpace c = false)
    (hq : c ≠ '"') (hc : consumeUntil ',' none dates false (c :: cs) = (entry, none)) :
    splitHeader isSpace dates (c :: cs) =
      .ok (if strip isSpace entry ≠ [] then [strip isSpace entry] else []) := by
  rw [splitHeader, if_neg (by simp [hs]), if_neg hq]
  split
  next e r h =>
    rw [hc] at h
    simp only [Prod.mk.injEq] at h
    obtain ⟨rfl, rfl⟩ := h
    rfl

theorem split_quoted (hquote : isSpace '"' = false) (dates : Bool) (q : List QChar)
    (hq : ∀ c ∈ q, c.Ok) (u excess rest : Text) (he : strip isSpace excess = [])
    (hc : consumeUntil ',' none false false u = (excess, some rest)) :
    splitHeader isSpace dates (['"'] ++ q.flatMap QChar.text ++ ['"'] ++ u) =
      (splitHeader isSpace dates rest).map (q.map QChar.char :: ·) := by
  have hcons := consume_quoted q u hq
  rw [List.append_assoc, List.append_assoc, List.singleton_append, List.singleton_append,
    splitHeader, if_neg (by simp [hquote]), if_pos rfl]
  split
  next h => rw [hcons] at h; simp at h
  next e r h =>
    rw [hcons] at h
    simp only [Prod.mk.injEq, Option.some.injEq] at h
    obtain ⟨rfl, rfl⟩ := h
    split
    next e' r' h' =>
      rw [hc] at h'
      simp only [Prod.mk.injEq] at h'
      obtain ⟨rfl, rfl⟩ := h'
      rw [if_neg (by simp [he])]

theorem split_quoted_end (hquote : isSpace '"' = false) (dates : Bool) (q : List QChar)
    (hq : ∀ c ∈ q, c.Ok) (u excess : Text) (he : strip isSpace excess = [])
    (hc : consumeUntil ',' none false false u = (excess, none)) :
    splitHeader isSpace dates (['"'] ++ q.flatMap QChar.text ++ ['"'] ++ u) =
      .ok [q.map QChar.char] := by
  have hcons := consume_quoted q u hq
  rw [List.append_assoc, List.append_assoc, List.singleton_append, List.singleton_append,
    splitHeader, if_neg (by simp [hquote]), if_pos rfl]
  split
  next h => rw [hcons] at h; simp at h
  next e r h =>
    rw [hcons] at h
    simp only [Prod.mk.injEq, Option.some.injEq] at h
    obtain ⟨rfl, rfl⟩ := h
    split
    next e' r' h' =>
      rw [hc] at h'
      simp only [Prod.mk.injEq] at h'
      obtain ⟨rfl, rfl⟩ := h'
      rw [if_neg (by simp [he])]

theorem map_ok {α β : Type} (f : α → β) (x : Except Err α) (a : α) (h : x = .ok a) :
    x.map f = .ok (f a) := by rw [h]; rfl

theorem item_comma (hcomma : isSpace ',' = false) (hquote : isSpace '"' = false) (dates : Bool)
    (i : Item) (hi : i.Ok isSpace dates) (rest : Text) (vs : List Text)
    (hr : splitHeader isSpace dates rest = .ok vs) :
    splitHeader isSpace dates (i.text ++ ',' :: rest) = .ok (i.value.toList ++ vs) := by
  obtain ⟨before, body, after⟩ := i
  obtain ⟨h1, h2, h3⟩ := hi
  simp only at h1 h2 h3
  have ha := count_blanks hcomma after h2
  simp only [Item.text, List.append_assoc]
  rw [split_blanks dates before _ h1]
  cases body with
  | nothing =>
    simp only [Body.Ok] at h3
    subst h3
    simp only [Body.text, List.nil_append, Item.value, Option.toList]
    rw [split_blanks false after _ h2, split_bare false ',' rest [] rest hcomma (by decide)
      (by simp [consumeUntil])]
    rw [map_ok _ _ _ hr]
    simp [strip]
  | bare v =>
    obtain ⟨ht, hq, hn⟩ := h3
    have hc : consumeUntil ',' none dates false (v ++ (after ++ ',' :: rest)) =
        (v ++ after, some rest) := by
      rw [← List.append_assoc]
      cases dates with
      | true => exact consume_skip_comma _ _ (by rw [List.count_append, hn, ha]; rfl)
      | false => exact consume_comma _ _ (by rw [List.count_append, hn, ha]; rfl)
    have ht' := ht
    obtain ⟨hne, hh, -⟩ := ht'
    simp only [Body.text, Item.value, Option.toList]
    cases v with
    | nil => exact absurd rfl hne
    | cons c v =>
      rw [List.cons_append] at hc ⊢
      rw [split_bare dates c _ _ _ (hh c (by simp)) (by simpa using hq) hc, map_ok _ _ _ hr,
        strip_trimmed _ _ ht h2]
      simp
  | quoted q =>
    simp only [Body.Ok] at h3
    simp only [Body.text, Item.value, Option.toList]
    rw [split_quoted hquote dates q h3 _ after rest (strip_blanks after h2)
      (consume_comma after rest ha), map_ok _ _ _ hr]
    rfl

theorem item_end (hcomma : isSpace ',' = false) (hquote : isSpace '"' = false) (dates : Bool)
    (i : Item) (hi : i.Ok isSpace dates) :
    splitHeader isSpace dates i.text = .ok i.value.toList := by
  obtain ⟨before, body, after⟩ := i
  obtain ⟨h1, h2, h3⟩ := hi
  simp only at h1 h2 h3
  have ha := count_blanks hcomma after h2
  simp only [Item.text, List.append_assoc]
  rw [split_blanks dates before _ h1]
  cases body with
  | nothing =>
    simp only [Body.text, List.nil_append, Item.value, Option.toList]
    have := split_blanks (isSpace := isSpace) dates after [] h2
    rw [List.append_nil] at this
    rw [this, splitHeader]
  | bare v =>
    obtain ⟨ht, hq, hn⟩ := h3
    have hc : consumeUntil ',' none dates false (v ++ after) = (v ++ after, none) := by
      cases dates with
      | true => exact consume_skip_end _ (by rw [List.count_append, hn, ha]; rfl)
      | false => exact consume_end _ (by rw [List.count_append, hn, ha]; rfl) false
    have ht' := ht
    obtain ⟨hne, hh, -⟩ := ht'
    simp only [Body.text, Item.value, Option.toList]
    cases v with
    | nil => exact absurd rfl hne
    | cons c v =>
      rw [List.cons_append] at hc ⊢
      rw [split_bare_end dates c _ _ (hh c (by simp)) (by simpa using hq) hc, ← List.cons_append,
        strip_trimmed _ _ ht h2]
      simp
  | quoted q =>
    simp only [Body.Ok] at h3
    simp only [Body.text, Item.value, Option.toList]
    rw [split_quoted_end hquote dates q h3 _ after (strip_blanks after h2) (consume_end after ha false)]

end

/-! ## The theorems -/

theorem listText_cons (i j : Item) (is : List Item) :
    listText (i :: j :: is) = i.text ++ ',' :: listText (j :: is) := by
  simp [listText, List.intercalate, List.intersperse]

/-- **C26**: a header list written as RFC 9110 says (each element bare or quoted, with any blanks
around it, with empty elements anywhere) is split into the meanings of its elements. With the switch
for unquoted HTTP dates the same holds of lists whose bare elements have one comma each. -/
theorem C26_reads_rfc9110_lists (isSpace : Char → Bool) (hcomma : isSpace ',' = false)
    (hquote : isSpace '"' = false) (dates : Bool) (items : List Item)
    (hok : ∀ i ∈ items, i.Ok isSpace dates) :
    splitHeader isSpace dates (listText items) = .ok (items.filterMap Item.value) := by
  induction items with
  | nil => simp [listText, List.intercalate, splitHeader]
  | cons i items ih =>
    cases items with
    | nil =>
      have := item_end hcomma hquote dates i (hok i (by simp))
      simp only [listText, List.map_cons, List.map_nil, List.intercalate, List.intersperse,
        List.flatten_cons, List.flatten_nil, List.append_nil]
      rw [this]
      cases h : i.value <;> simp [h]
    | cons j items =>
      have ih := ih fun x hx => hok x (by simp [hx])
      rw [listText_cons, item_comma hcomma hquote dates i (hok i (by simp)) _ _ ih]
      cases h : i.value <;> simp [h]

/-- The element `as_string` writes for a value. -/
def itemOf (before v : Text) : Item :=
  if v.any fun c => c = ',' || c = '"' then
    ⟨before, .quoted (v.map fun c => if c = '"' ∨ c = '\\' then .escaped c else .plain c), []⟩
  else ⟨before, .bare v, []⟩

theorem escape_text (v : Text) :
    (v.map fun c => if c = '"' ∨ c = '\\' then QChar.escaped c else .plain c).flatMap QChar.text =
      replaceChar '"' ['\\', '"'] (replaceChar '\\' ['\\', '\\'] v) := by
  simp only [replaceChar]
  induction v with
  | nil => rfl
  | cons c v ih =>
    simp only [List.map_cons, List.flatMap_cons, ih, List.flatMap_append]
    congr 1
    by_cases h1 : c = '"'
    · subst h1; decide
    · by_cases h2 : c = '\\'
      · subst h2; decide
      · simp [h1, h2, QChar.text]

theorem intercalate_cons2 (sep x y : Text) (l : List Text) :
    List.intercalate sep (x :: y :: l) = x ++ (sep ++ List.intercalate sep (y :: l)) := by
  simp [List.intercalate]

theorem itemOf_text (before v : Text) : (itemOf before v).text = before ++ quoteAndEscape v := by
  unfold itemOf quoteAndEscape
  split
  · simp only [Item.text, Body.text, List.append_nil]
    rw [escape_text]
  · simp [Item.text, Body.text]

theorem itemOf_value (before v : Text) : (itemOf before v).value = some v := by
  unfold itemOf
  split
  · simp only [Item.value, List.map_map, Option.some.injEq]
    have : (QChar.char ∘ fun c => if c = '"' ∨ c = '\\' then QChar.escaped c else QChar.plain c) =
        id := by
      funext c
      simp only [Function.comp, id]
      split <;> rfl
    rw [this, List.map_id]
  · rfl

theorem itemOf_ok {isSpace : Char → Bool} (before v : Text) (hb : ∀ c ∈ before, isSpace c = true)
    (hv : ',' ∈ v ∨ '"' ∈ v ∨ Trimmed isSpace v) : (itemOf before v).Ok isSpace false := by
  unfold itemOf
  split
  · refine ⟨hb, by simp, ?_⟩
    intro c hc
    obtain ⟨x, -, rfl⟩ := List.mem_map.1 hc
    split
    · trivial
    · next h => exact ⟨fun e => h (Or.inl e), fun e => h (Or.inr e)⟩
  · next h =>
    have h1 : ',' ∉ v := fun hm => h (List.any_eq_true.2 ⟨_, hm, by decide⟩)
    have h2 : '"' ∉ v := fun hm => h (List.any_eq_true.2 ⟨_, hm, by decide⟩)
    refine ⟨hb, by simp, ?_, ?_, ?_⟩
    · rcases hv with hv | hv | hv
      · exact absurd hv h1
      · exact absurd hv h2
      · exact hv
    · intro e
      exact h2 (List.mem_of_mem_head? e)
    · simpa [List.count_eq_zero] using h1

theorem asString_items (vs : List Text) (v w : Text) :
    asString (v :: w :: vs) =
      listText (itemOf [] v :: (w :: vs).map (itemOf [' '])) := by
  have key : ∀ (l : List Text) (y : Text),
      ' ' :: List.intercalate [',', ' '] ((y :: l).map quoteAndEscape) =
        List.intercalate [','] ((y :: l).map fun v => (itemOf [' '] v).text) := by
    intro l
    induction l with
    | nil => intro y; simp [List.intercalate, itemOf_text]
    | cons z l ih =>
      intro y
      have := ih z
      simp only [List.map_cons] at this ⊢
      rw [intercalate_cons2, intercalate_cons2, ← this, itemOf_text]
      simp
  have := key vs w
  simp only [asString, listText, List.map_cons, List.map_map] at this ⊢
  rw [intercalate_cons2, intercalate_cons2, itemOf_text]
  have e : (Item.text ∘ itemOf [' ']) = fun v => (itemOf [' '] v).text := rfl
  rw [e, ← this]
  simp

/-- **C26**: splitting the text made for two or more values gives the values back; those without a
comma or double quote must be non-empty and have no blanks at either end. -/
theorem C26_round_trip (isSpace : Char → Bool) (hcomma : isSpace ',' = false)
    (hquote : isSpace '"' = false) (hspace : isSpace ' ' = true) (vs : List Text)
    (hlen : 2 ≤ vs.length) (hv : ∀ v ∈ vs, ',' ∈ v ∨ '"' ∈ v ∨ Trimmed isSpace v) :
    splitHeader isSpace false (asString vs) = .ok vs := by
  match vs, hlen with
  | v :: w :: vs, _ =>
    rw [asString_items, C26_reads_rfc9110_lists isSpace hcomma hquote]
    · simp only [List.filterMap_cons, itemOf_value, List.filterMap_map, Function.comp_def,
        List.filterMap_some]
    · intro i hi
      rcases List.mem_cons.1 hi with rfl | hi
      · exact itemOf_ok _ _ (by simp) (hv v (by simp))
      · obtain ⟨x, hx, rfl⟩ := List.mem_map.1 hi
        exact itemOf_ok _ _ (by simp [hspace]) (hv x (List.mem_cons_of_mem _ hx))

/-- **C26** for one value: it is written without quotes, so it is read back when it has no comma. -/
theorem C26_one_value (isSpace : Char → Bool) (hcomma : isSpace ',' = false)
    (hquote : isSpace '"' = false) (v : Text) (hv : Trimmed isSpace v) (h1 : ',' ∉ v)
    (h2 : v.head? ≠ some '"') :
    splitHeader isSpace false (asString [v]) = .ok [v] := by
  have := item_end hcomma hquote false ⟨[], .bare v, []⟩
    ⟨by simp, by simp, hv, h2, by simpa [List.count_eq_zero] using h1⟩
  simpa [Item.text, Body.text, Item.value, asString] using this

/-! ## Where the text is not read back -/

/-- Blanks for the examples. -/
def blank (c : Char) : Bool := c = ' ' || c = '\t'

/-- A single value with a comma is not quoted and comes back as two values. -/
theorem C26_single_value_fails :
    splitHeader blank false (asString ["a,b".toList]) = .ok ["a".toList, "b".toList] := by
  decide +kernel

/-- An empty value vanishes. -/
theorem C26_empty_value_fails :
    splitHeader blank false (asString [[], "b".toList]) = .ok ["b".toList] := by
  decide +kernel

/-- Blanks around an unquoted value vanish. -/
theorem C26_blank_value_fails :
    splitHeader blank false (asString [" a".toList, "b".toList]) =
      .ok ["a".toList, "b".toList] := by
  decide +kernel

/-! ## The hypotheses are met -/

example : ∀ v ∈ ["a".toList, " x, \"y\\\" ".toList, "b\\c".toList],
    ',' ∈ v ∨ '"' ∈ v ∨ Trimmed blank v := by decide +kernel

example : splitHeader blank false (asString ["a".toList, " x, \"y\\\" ".toList, "b\\c".toList]) =
    .ok ["a".toList, " x, \"y\\\" ".toList, "b\\c".toList] := by decide +kernel

example : splitHeader blank true
    "Mon, 16 Dec 2019 23:48:18 GMT , \"Mon, 17 Dec 2019\"".toList =
    .ok ["Mon, 16 Dec 2019 23:48:18 GMT".toList, "Mon, 17 Dec 2019".toList] := by decide +kernel

example : Item.Ok blank true
    ⟨" ".toList, .bare "Mon, 16 Dec 2019 23:48:18 GMT".toList, "\t".toList⟩ :=
  ⟨by decide, by decide, by decide +kernel, by decide, by decide⟩

end Verif.HeaderText
