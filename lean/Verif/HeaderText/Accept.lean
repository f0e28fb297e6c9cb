import Verif.HeaderText.Props
import Mathlib.Tactic.Common

/-! # Only well-formed header lists are accepted (C26) -/

set_option autoImplicit false

namespace Verif.HeaderText

variable {isSpace : Char → Bool}

/-- What follows an end character, with the character. -/
def withStop (stop : Char) : Option Text → Text
  | none => []
  | some r => stop :: r

theorem comma_inv (t : Text) : ∀ (e : Text) (r : Option Text),
    consumeUntil ',' none false false t = (e, r) →
      e.count ',' = 0 ∧ t = e ++ withStop ',' r := by
  induction t with
  | nil =>
    intro e r h
    simp only [consumeUntil, Prod.mk.injEq] at h
    obtain ⟨rfl, rfl⟩ := h
    simp [withStop]
  | cons c t ih =>
    intro e r h
    by_cases hc : c = ','
    · subst hc
      simp only [consumeUntil] at h
      simp at h
      obtain ⟨rfl, rfl⟩ := h
      simp [withStop]
    · simp only [consumeUntil, hc] at h
      simp at h
      obtain ⟨h1, h2⟩ := ih (consumeUntil ',' none false false t).1 r (Prod.ext rfl h.2)
      obtain ⟨rfl, -⟩ := h
      refine ⟨?_, by rw [List.cons_append, ← h2]⟩
      rw [List.count_cons, h1]
      simp [hc]

theorem quote_inv (t : Text) : ∀ (esc : Bool) (e r : Text),
    consumeUntil '"' (some '\\') false esc t = (e, some r) →
      ∃ q : List QChar, (∀ c ∈ q, c.Ok) ∧ e = q.map QChar.char ∧
        (if esc then ['\\'] else []) ++ t = q.flatMap QChar.text ++ '"' :: r := by
  induction t with
  | nil => intro esc e r h; simp [consumeUntil] at h
  | cons c t ih =>
    intro esc e r h
    simp only [consumeUntil] at h
    cases esc with
    | true =>
      simp at h
      obtain ⟨q, h1, h2, h3⟩ := ih false _ _ (Prod.ext rfl h.2)
      refine ⟨.escaped c :: q, ?_, ?_, ?_⟩
      · simpa [QChar.Ok] using h1
      · rw [← h.1]; exact congrArg (c :: ·) h2
      · simp at h3
        simp [h3, QChar.text]
    | false =>
      by_cases hb : c = '\\'
      · subst hb
        simp at h
        obtain ⟨q, h1, h2, h3⟩ := ih true _ _ h
        exact ⟨q, h1, h2, by simpa using h3⟩
      · by_cases hq : c = '"'
        · subst hq
          simp at h
          obtain ⟨rfl, rfl⟩ := h
          exact ⟨[], by simp, rfl, by simp⟩
        · have hb' : ¬ '\\' = c := fun h => hb h.symm
          simp [hq, hb'] at h
          obtain ⟨q, h1, h2, h3⟩ := ih false _ _ (Prod.ext rfl h.2)
          refine ⟨.plain c :: q, ?_, ?_, ?_⟩
          · simpa [QChar.Ok, hq, hb] using h1
          · rw [← h.1]; exact congrArg (c :: ·) h2
          · simp at h3
            simp [h3, QChar.text]

theorem mem_takeWhile (p : Char → Bool) (t : Text) : ∀ c ∈ t.takeWhile p, p c = true := by
  induction t with
  | nil => simp
  | cons x t ih =>
    rw [List.takeWhile_cons]
    split
    · next h => intro c hc; rcases List.mem_cons.1 hc with rfl | hc; exacts [h, ih c hc]
    · simp

/-- A text is blanks, what `strip` leaves, and blanks. -/
theorem strip_decomp (t : Text) : ∃ a b, (∀ c ∈ a, isSpace c = true) ∧
    (∀ c ∈ b, isSpace c = true) ∧ t = a ++ strip isSpace t ++ b := by
  have h1 : t = t.takeWhile isSpace ++ t.dropWhile isSpace := (List.takeWhile_append_dropWhile).symm
  have h2 : ∀ u : Text, u = (u.reverse.dropWhile isSpace).reverse ++
      (u.reverse.takeWhile isSpace).reverse := by
    intro u
    rw [← List.reverse_append, List.takeWhile_append_dropWhile, List.reverse_reverse]
  refine ⟨t.takeWhile isSpace, ((t.dropWhile isSpace).reverse.takeWhile isSpace).reverse,
    fun c h => mem_takeWhile _ _ c h,
    fun c h => mem_takeWhile _ _ c (List.mem_reverse.1 h), ?_⟩
  rw [List.append_assoc]
  unfold strip
  rw [← h2]
  exact h1

theorem head_dropWhile (p : Char → Bool) (t : Text) : ∀ c ∈ (t.dropWhile p).head?, p c = false := by
  induction t with
  | nil => simp
  | cons x t ih =>
    rw [List.dropWhile_cons]
    split
    · exact ih
    · next h => simpa using h

theorem strip_trimmed' (t : Text) (h : strip isSpace t ≠ []) : Trimmed isSpace (strip isSpace t) := by
  refine ⟨h, ?_, ?_⟩
  · intro c hc
    have hd := head_dropWhile isSpace t c
    apply hd
    obtain ⟨x, xs, hx⟩ := List.exists_cons_of_ne_nil h
    have : (t.dropWhile isSpace) = strip isSpace t ++
        ((t.dropWhile isSpace).reverse.takeWhile isSpace).reverse := by
      unfold strip
      rw [← List.reverse_append, List.takeWhile_append_dropWhile, List.reverse_reverse]
    rw [this, hx]
    rw [hx] at hc
    simpa using hc
  · intro c hc
    unfold strip at hc
    rw [List.getLast?_reverse] at hc
    exact head_dropWhile isSpace _ c hc

theorem strip_nil_blank (t : Text) (h : strip isSpace t = []) : ∀ c ∈ t, isSpace c = true := by
  obtain ⟨a, b, ha, hb, ht⟩ := strip_decomp (isSpace := isSpace) t
  rw [h] at ht
  intro c hc
  rw [ht] at hc
  simp only [List.append_nil, List.mem_append] at hc
  rcases hc with hc | hc
  · exact ha c hc
  · exact hb c hc

theorem listText_cons' (i : Item) (is : List Item) (h : is ≠ []) :
    listText (i :: is) = i.text ++ ',' :: listText is := by
  obtain ⟨j, js, rfl⟩ := List.exists_cons_of_ne_nil h
  exact listText_cons i j js

theorem listText_one (i : Item) : listText [i] = i.text := by simp [listText, List.intercalate]

/-- The text of an item followed by the rest of the list. -/
theorem extend_items (i : Item) (r : Option Text) (vs : List Text)
    (hi : i.Ok isSpace false) (tail : Except Err (List Text))
    (ht : ∀ rest, r = some rest → ∀ ws, splitHeader isSpace false rest = .ok ws →
      ∃ items : List Item, items ≠ [] ∧ (∀ i ∈ items, i.Ok isSpace false) ∧
        listText items = rest ∧ items.filterMap Item.value = ws)
    (htail : tail = match r with
      | none => .ok i.value.toList
      | some rest => (splitHeader isSpace false rest).map (i.value.toList ++ ·))
    (h : tail = .ok vs) :
    ∃ items : List Item, items ≠ [] ∧ (∀ i ∈ items, i.Ok isSpace false) ∧
      listText items = i.text ++ withStop ',' r ∧ items.filterMap Item.value = vs := by
  have hval : ∀ is : List Item, (i :: is).filterMap Item.value =
      i.value.toList ++ is.filterMap Item.value := by
    intro is
    cases hv : i.value <;> simp [hv]
  cases r with
  | none =>
    rw [htail] at h
    simp only [Except.ok.injEq] at h
    refine ⟨[i], by simp, by simpa using hi, by simp [listText_one, withStop], ?_⟩
    rw [hval]; simpa using h
  | some rest =>
    rw [htail] at h
    simp only at h
    cases hs : splitHeader isSpace false rest with
    | error e => rw [hs] at h; cases h
    | ok ws =>
      rw [hs] at h
      simp only [Except.map, Except.ok.injEq] at h
      obtain ⟨items, h1, h2, h3, h4⟩ := ht rest rfl ws hs
      refine ⟨i :: items, by simp, ?_, ?_, ?_⟩
      · intro j hj
        rcases List.mem_cons.1 hj with rfl | hj
        · exact hi
        · exact h2 j hj
      · rw [listText_cons' _ _ h1, h3]; rfl
      · rw [hval, h4, h]

/-- **C26**: a header is accepted only if it is a list as RFC 9110 describes it, and the values
returned are those of its elements: an unterminated quote or text after a closing quote is an error.
(The converse is `C26_reads_rfc9110_lists`.) -/
theorem C26_accepts_only_lists (isSpace : Char → Bool) (t : Text)
    (vs : List Text) (h : splitHeader isSpace false t = .ok vs) :
    ∃ items : List Item, items ≠ [] ∧ (∀ i ∈ items, i.Ok isSpace false) ∧
      listText items = t ∧ items.filterMap Item.value = vs := by
  induction hn : t.length using Nat.strongRecOn generalizing t vs with
  | _ n ih =>
    have ih' : ∀ u : Text, u.length < t.length → ∀ ws, splitHeader isSpace false u = .ok ws →
        ∃ items : List Item, items ≠ [] ∧ (∀ i ∈ items, i.Ok isSpace false) ∧
          listText items = u ∧ items.filterMap Item.value = ws :=
      fun u hu ws hw => ih u.length (hn ▸ hu) u ws hw rfl
    cases t with
    | nil =>
      rw [splitHeader] at h
      cases h
      exact ⟨[⟨[], .nothing, []⟩], by simp, by simp [Item.Ok, Body.Ok],
        by simp [listText_one, Item.text, Body.text], by simp [Item.value]⟩
    | cons c cs =>
      rw [splitHeader] at h
      by_cases hs : isSpace c = true
      · rw [if_pos hs] at h
        obtain ⟨items, h1, h2, h3, h4⟩ := ih' cs (by simp) vs h
        obtain ⟨i, is, rfl⟩ := List.exists_cons_of_ne_nil h1
        refine ⟨⟨c :: i.before, i.body, i.after⟩ :: is, by simp, ?_, ?_, ?_⟩
        · intro j hj
          rcases List.mem_cons.1 hj with rfl | hj
          · have := h2 i (by simp)
            exact ⟨by simpa [hs] using this.1, this.2.1, this.2.2⟩
          · exact h2 j (by simp [hj])
        · rw [← h3]
          cases is with
          | nil => simp [listText_one, Item.text]
          | cons j js => simp [listText_cons', Item.text]
        · rw [← h4]
          simp [List.filterMap_cons, Item.value]
      · rw [if_neg hs] at h
        by_cases hq : c = '"'
        · rw [if_pos hq] at h
          subst hq
          split at h
          · cases h
          · next entry rest he =>
            split at h
            next excess rest' hx =>
            by_cases hne : strip isSpace excess = []
            · rw [if_neg (by simpa using hne)] at h
              obtain ⟨q, hq1, hq2, hq3⟩ := quote_inv _ _ _ _ he
              obtain ⟨_, hx2⟩ := comma_inv _ _ _ hx
              have hlen := consumeUntil_length _ _ _ _ _ _ _ he
              have := extend_items (isSpace := isSpace) ⟨[], .quoted q, excess⟩ rest' vs
                ⟨by simp, strip_nil_blank _ hne, hq1⟩ _ ?_ ?_ h
              · obtain ⟨items, h1, h2, h3, h4⟩ := this
                refine ⟨items, h1, h2, ?_, h4⟩
                rw [h3]
                simp only [Bool.false_eq_true, if_false, List.nil_append] at hq3
                simp only [Item.text, Body.text, List.nil_append, List.cons_append,
                  List.append_assoc, hq3, hx2]
              · intro r hr ws hw
                subst hr
                have := consumeUntil_length _ _ _ _ _ _ _ hx
                exact ih' r (by simp only [List.length_cons]; omega) ws hw
              · simp only [Item.value, Option.toList, hq2]
                cases rest' <;> rfl
            · rw [if_pos hne] at h; cases h
        · rw [if_neg hq] at h
          split at h
          next entry rest he =>
          obtain ⟨hc0, ht⟩ := comma_inv _ _ _ he
          have hr : ∀ r, rest = some r → ∀ ws, splitHeader isSpace false r = .ok ws →
              ∃ items : List Item, items ≠ [] ∧ (∀ i ∈ items, i.Ok isSpace false) ∧
                listText items = r ∧ items.filterMap Item.value = ws := by
            intro r hr ws hw
            subst hr
            exact ih' r (consumeUntil_length _ _ _ _ _ _ _ he) ws hw
          by_cases hne : strip isSpace entry = []
          · have := extend_items (isSpace := isSpace) ⟨entry, .nothing, []⟩ rest vs
              ⟨strip_nil_blank _ hne, by simp, by simp [Body.Ok]⟩ _ hr ?_ h
            · obtain ⟨items, h1, h2, h3, h4⟩ := this
              refine ⟨items, h1, h2, ?_, h4⟩
              rw [h3, ht]; simp [Item.text, Body.text]
            · simp only [Item.value, Option.toList, hne]
              cases rest <;> simp
          · obtain ⟨a, b, ha, hb, hd⟩ := strip_decomp (isSpace := isSpace) entry
            have hmem : ∀ x, x ∈ strip isSpace entry → x ∈ entry := by
              intro x hx; rw [hd]; simp [hx]
            have hbare : (Body.bare (strip isSpace entry)).Ok isSpace false := by
              refine ⟨strip_trimmed' _ hne, ?_, ?_⟩
              · -- the entry starts with a character that is neither blank nor a quote
                intro hhead
                cases entry with
                | nil => exact hne rfl
                | cons x xs =>
                  have hx : x = c := by
                    cases rest <;> simp [withStop] at ht
                    · exact ht.1.symm
                    · exact ht.1.symm
                  cases a with
                  | nil =>
                    rw [List.nil_append] at hd
                    obtain ⟨y, ys, hy⟩ := List.exists_cons_of_ne_nil hne
                    rw [hy] at hd hhead
                    simp at hd hhead
                    exact hq (by rw [← hx, hd.1, hhead])
                  | cons y ys =>
                    simp at hd
                    have := ha y (by simp)
                    rw [← hd.1, hx] at this
                    exact hs this
              · simp only [Bool.false_eq_true, if_false]
                rw [List.count_eq_zero]
                exact fun hx => (List.count_eq_zero.1 hc0) (hmem _ hx)
            have := extend_items (isSpace := isSpace) ⟨a, .bare (strip isSpace entry), b⟩ rest vs
              ⟨ha, hb, hbare⟩ _ hr ?_ h
            · obtain ⟨items, h1, h2, h3, h4⟩ := this
              refine ⟨items, h1, h2, ?_, h4⟩
              rw [h3, ht]; simp only [Item.text, Body.text]; rw [← hd]
            · simp only [Item.value, Option.toList, if_pos hne]
              cases rest <;> rfl

example : splitHeader blank false "a, \"b".toList = .error .openQuote := by decide +kernel
example : splitHeader blank false "\"a\" b, c".toList = .error .afterQuote := by decide +kernel
example : splitHeader blank false "a,, \"b\\\"c\" ,".toList =
    .ok ["a".toList, "b\"c".toList] := by decide +kernel

end Verif.HeaderText
