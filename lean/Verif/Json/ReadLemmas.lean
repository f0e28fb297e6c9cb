import Verif.Json.Read

/-!
# The JSON deserializer (C44): numbers, paths and documents
-/

set_option autoImplicit false

namespace Verif.Json

open Verif.Numerals
open Verif.Scalars.Strict (JsonNumber ascii Num Digits)

/-! ## Numbers -/

theorem span_append (p : Char → Bool) (a b : Text) (ha : ∀ c ∈ a, p c = true)
    (hb : ∀ c t, b = c :: t → p c = false) :
    (a ++ b).takeWhile p = a ∧ (a ++ b).dropWhile p = b := by
  induction a with
  | nil =>
    cases b with
    | nil => exact ⟨rfl, rfl⟩
    | cons c t => simp [List.takeWhile_cons, List.dropWhile_cons, hb c t rfl]
  | cons x a ih =>
    obtain ⟨h1, h2⟩ := ih (fun c hc => ha c (by simp [hc]))
    simp only [List.cons_append, List.takeWhile_cons, List.dropWhile_cons, ha x (by simp), if_true]
    exact ⟨by rw [h1], h2⟩

theorem ascii_ne (c : Char) (h : ascii c = true) : c ≠ '-' ∧ c ≠ '+' ∧ c ≠ '.' ∧ c ≠ 'e' ∧ c ≠ 'E' := by
  refine ⟨?_, ?_, ?_, ?_, ?_⟩ <;> (rintro rfl; exact absurd h (by decide))

theorem int_digits {n : JsonNumber} (hn : n.Ok ascii) :
    n.int ≠ [] ∧ ∀ c ∈ n.int, ascii c = true := by
  have h19 : ∀ c ∈ ['1', '2', '3', '4', '5', '6', '7', '8', '9'], ascii c = true := by decide
  rcases hn.int with h | ⟨d, ds, h, h1, h2⟩
  · rw [h]; exact ⟨by simp, by decide⟩
  · rw [h]
    refine ⟨by simp, fun c hc => ?_⟩
    rcases List.mem_cons.1 hc with rfl | hc
    · exact h19 c h1
    · exact h2 c hc

/-- The text of the fraction. -/
def fracText (n : JsonNumber) : Text := match n.frac with | none => [] | some f => '.' :: f

/-- The text of the exponent. -/
def expText (n : JsonNumber) : Text :=
  match n.exp with | none => [] | some (e, sign, ds) => e :: (sign.toList ++ ds)

theorem text_eq (n : JsonNumber) :
    n.text = (if n.neg then ['-'] else []) ++ (n.int ++ fracText n ++ expText n) := by
  unfold JsonNumber.text fracText expText
  cases n.frac <;> cases n.exp <;> simp only [List.append_assoc]

theorem head_digit {n : JsonNumber} (hn : n.Ok ascii) :
    ∃ c t, n.int ++ fracText n ++ expText n = c :: t ∧ ascii c = true := by
  obtain ⟨h1, h2⟩ := int_digits hn
  cases h : n.int with
  | nil => exact absurd h h1
  | cons c t => exact ⟨c, _, rfl, h2 c (by rw [h]; simp)⟩

theorem decOf_text {n : JsonNumber} (hn : n.Ok ascii) :
    decOf n.text = ⟨n.neg, natValue (n.int ++ n.frac.getD []), expValue n.exp - (n.frac.getD []).length⟩ := by
  obtain ⟨c, t, hct, hc⟩ := head_digit hn
  have hneg : decide (n.text.head? = some '-') = n.neg := by
    rw [text_eq]
    cases hneg : n.neg with
    | true => rfl
    | false =>
      simp only [Bool.false_eq_true, if_false, List.nil_append, hct, List.head?_cons]
      exact decide_eq_false fun h => (ascii_ne c hc).1 (Option.some.inj h)
  have hbody : (if n.text.head? = some '-' then n.text.tail else n.text) =
      n.int ++ fracText n ++ expText n := by
    have : (n.text.head? = some '-') ↔ n.neg = true := by
      rw [← hneg]; exact decide_eq_true_iff.symm
    simp only [this]
    rw [text_eq]
    cases n.neg <;> simp
  obtain ⟨_, hint⟩ := int_digits hn
  have hmant := span_append (fun c => decide (c ≠ 'e') && decide (c ≠ 'E')) (n.int ++ fracText n)
    (expText n) (fun c hc => by
      have : ascii c = true ∨ c = '.' := by
        rcases List.mem_append.1 hc with h | h
        · exact .inl (hint c h)
        · simp only [fracText] at h
          cases hf : n.frac with
          | none => rw [hf] at h; cases h
          | some f =>
            rw [hf] at h
            rcases List.mem_cons.1 h with h | h
            · exact .inr h
            · exact .inl ((hn.frac f hf).2 c h)
      rcases this with h | h
      · obtain ⟨_, _, _, h4, h5⟩ := ascii_ne c h
        simp [h4, h5]
      · subst h; decide) (fun c t h => by
      simp only [expText] at h
      cases he : n.exp with
      | none => rw [he] at h; cases h
      | some x =>
        obtain ⟨e, sign, ds⟩ := x
        rw [he] at h
        obtain ⟨h1, _⟩ := hn.exp e sign ds he
        have := (List.cons.inj h).1
        rw [← this]
        rcases h1 with rfl | rfl <;> decide)
  have hfrac := span_append (fun c => decide (c ≠ '.')) n.int (fracText n)
    (fun c hc => by simp [(ascii_ne c (hint c hc)).2.2.1]) (fun c t h => by
      simp only [fracText] at h
      cases hf : n.frac with
      | none => rw [hf] at h; cases h
      | some f =>
        rw [hf] at h
        rw [← (List.cons.inj h).1]; decide)
  have htail : (fracText n).tail = n.frac.getD [] := by
    unfold fracText; cases n.frac <;> rfl
  have hexp : decExp (expText n).tail = expValue n.exp := by
    unfold expText decExp
    cases he : n.exp with
    | none => rfl
    | some x =>
      obtain ⟨e, sign, ds⟩ := x
      obtain ⟨_, h2, h3, h4⟩ := hn.exp e sign ds he
      cases sign with
      | none =>
        cases ds with
        | nil => exact absurd rfl h3
        | cons d ds =>
          obtain ⟨g1, g2, _⟩ := ascii_ne d (h4 d (by simp))
          simp only [List.tail_cons, Option.toList_none, List.nil_append, expValue]
          split
          · rename_i hh; exact absurd (List.cons.inj hh).1 g1
          · rename_i hh; exact absurd (List.cons.inj hh).1 g2
          · rfl
      | some s =>
        rcases h2 s rfl with rfl | rfl
        · rfl
        · rfl
  unfold decOf
  simp only [hbody, hneg]
  rw [hmant.1, hmant.2, hfrac.1, hfrac.2, htail, hexp]

theorem decOf_value {n : JsonNumber} (hn : n.Ok ascii) : (decOf n.text).value = numberValue n := by
  rw [decOf_text hn]
  simp only [Dec.value, numberValue, natValue_append]
  cases hf : n.frac with
  | none => simp [show natValue [] = 0 from rfl]
  | some f =>
    simp only [Option.getD_some]
    rw [zpow_sub₀ (by norm_num : (10 : ℚ) ≠ 0), zpow_natCast]
    have : (10 : ℚ) ^ f.length ≠ 0 := pow_ne_zero _ (by norm_num)
    push_cast
    field_simp

theorem intValue_text {n : JsonNumber} (hn : n.Ok ascii) (hf : n.frac = none) (he : n.exp = none) :
    intValue n.text = (if n.neg then -1 else 1) * (natValue n.int : Int) := by
  obtain ⟨h1, h2⟩ := int_digits hn
  have ht : n.text = (if n.neg then ['-'] else []) ++ n.int := by
    rw [text_eq]; simp [fracText, expText, hf, he]
  rw [ht]
  cases n.neg with
  | true => simp [intValue]
  | false =>
    simp only [Bool.false_eq_true, if_false, List.nil_append, one_mul]
    cases h : n.int with
    | nil => exact absurd h h1
    | cons c t =>
      have := (ascii_ne c (h2 c (by rw [h]; simp))).1
      unfold intValue
      split
      · rename_i hh; exact absurd (List.cons.inj hh).1 this
      · rfl

theorem numOf_int {n : JsonNumber} (hn : n.Ok ascii) (hf : n.frac = none) (he : n.exp = none) :
    numOf n.text = .int (intValue n.text) := by
  obtain ⟨_, h2⟩ := int_digits hn
  have : (n.text.any fun c => decide (c = '.') || decide (c = 'e') || decide (c = 'E')) = false := by
    rw [text_eq]
    simp only [fracText, expText, hf, he, List.append_nil]
    rw [List.any_eq_false]
    intro c hc
    rcases List.mem_append.1 hc with h | h
    · split at h
      · simp only [List.mem_singleton] at h; subst h; decide
      · cases h
    · obtain ⟨_, _, g1, g2, g3⟩ := ascii_ne c (h2 c h)
      simp [g1, g2, g3]
  unfold numOf
  rw [this]; rfl

theorem numOf_dec {n : JsonNumber} (hn : n.Ok ascii) (h : n.frac ≠ none ∨ n.exp ≠ none) :
    numOf n.text = .dec (decOf n.text) := by
  have : (n.text.any fun c => decide (c = '.') || decide (c = 'e') || decide (c = 'E')) = true := by
    rw [List.any_eq_true]
    rw [text_eq]
    rcases h with h | h
    · cases hf : n.frac with
      | none => exact absurd hf h
      | some f => exact ⟨'.', by simp [fracText, hf], by decide⟩
    · cases he : n.exp with
      | none => exact absurd he h
      | some x =>
        obtain ⟨e, sign, ds⟩ := x
        obtain ⟨h1, _⟩ := hn.exp e sign ds he
        refine ⟨e, by simp [expText, he], ?_⟩
        rcases h1 with rfl | rfl <;> decide
  unfold numOf
  rw [this]; rfl

/-- The parser's number has the value the grammar gives. -/
theorem numOf_value {n : JsonNumber} (hn : n.Ok ascii) : (numOf n.text).value = numberValue n := by
  by_cases h : n.frac = none ∧ n.exp = none
  · rw [numOf_int hn h.1 h.2]
    simp only [PNum.value, intValue_text hn h.1 h.2, numberValue, h.1, h.2, expValue]
    cases n.neg <;> simp
  · rw [numOf_dec hn (by tauto)]
    exact decOf_value hn

theorem numOf_integer {t : Text} {n : Int} (h : IntegerOf t n) : numOf t = .int n := by
  obtain ⟨m, h1, rfl, h3, h4, h5⟩ := h
  have hv := numOf_value h1
  rw [numOf_int h1 h3 h4] at hv ⊢
  rw [h5] at hv
  simp only [PNum.value] at hv
  congr 1
  exact_mod_cast hv

/-! ## Paths -/

theorem join_append : ∀ (p q : List Text), p ≠ [] → q ≠ [] → join (p ++ q) = join p ++ '.' :: join q
  | [], _, h, _ => absurd rfl h
  | [x], q, _, hq => by
    cases q with
    | nil => exact absurd rfl hq
    | cons y q => rfl
  | x :: y :: p, q, _, hq => by
    have := join_append (y :: p) q (by simp) hq
    simp only [List.cons_append] at this
    simp only [List.cons_append, join, this, List.append_assoc]

theorem join_longer (p : List Text) (hp : p ≠ []) (x : Text) (xs : List Text) :
    join (p ++ x :: xs) ≠ join p := by
  rw [join_append p _ hp (by simp)]
  intro h
  have := congrArg List.length h
  simp at this

mutual
theorem events_path : ∀ (j : Json) (q : List Text), ∀ e ∈ events q j,
    (∃ y r, e.path = join (q ++ y :: r)) ∨ (e.path = join q ∧ (e.ev = .endMap → ∃ es, j = .obj es))
  | .null, q, e, h => by simp only [events, List.mem_singleton] at h; subst h; exact .inr ⟨rfl, by simp⟩
  | .bool b, q, e, h => by simp only [events, List.mem_singleton] at h; subst h; exact .inr ⟨rfl, by simp⟩
  | .num t, q, e, h => by simp only [events, List.mem_singleton] at h; subst h; exact .inr ⟨rfl, by simp⟩
  | .str s, q, e, h => by simp only [events, List.mem_singleton] at h; subst h; exact .inr ⟨rfl, by simp⟩
  | .arr xs, q, e, h => by
    simp only [events, List.mem_cons, List.mem_append, List.not_mem_nil, or_false] at h
    rcases h with rfl | h | rfl
    · exact .inr ⟨rfl, by simp⟩
    · obtain ⟨r, hr⟩ := elementEvents_path xs (q ++ ["item".toList]) e h
      exact .inl ⟨"item".toList, r, by rw [hr]; simp⟩
    · exact .inr ⟨rfl, by simp⟩
  | .obj es, q, e, h => by
    simp only [events, List.mem_cons, List.mem_append, List.not_mem_nil, or_false] at h
    rcases h with rfl | h | rfl
    · exact .inr ⟨rfl, by simp⟩
    · rcases memberEvents_path es q e h with h | ⟨k, h⟩
      · exact .inl h
      · exact .inr ⟨h.1, fun _ => ⟨es, rfl⟩⟩
    · exact .inr ⟨rfl, fun _ => ⟨es, rfl⟩⟩
termination_by structural j => j
theorem elementEvents_path : ∀ (xs : List Json) (q : List Text), ∀ e ∈ elementEvents q xs,
    ∃ r, e.path = join (q ++ r)
  | [], q, e, h => by cases h
  | x :: xs, q, e, h => by
    rcases List.mem_append.1 h with h | h
    · rcases events_path x q e h with ⟨y, r, h⟩ | h
      · exact ⟨_, h⟩
      · exact ⟨[], by rw [List.append_nil]; exact h.1⟩
    · exact elementEvents_path xs q e h
theorem memberEvents_path : ∀ (es : List (Text × Json)) (q : List Text), ∀ e ∈ memberEvents q es,
    (∃ y r, e.path = join (q ++ y :: r)) ∨ ∃ k, e.path = join q ∧ e.ev = .mapKey k
  | [], q, e, h => by cases h
  | (k, x) :: es, q, e, h => by
    simp only [memberEvents, List.mem_cons, List.mem_append] at h
    rcases h with rfl | h | h
    · exact .inr ⟨k, rfl, rfl⟩
    · rcases events_path x (q ++ [k]) e h with ⟨y, r, h⟩ | h
      · exact .inl ⟨k, y :: r, by rw [h]; simp⟩
      · exact .inl ⟨k, [], by rw [h.1]⟩
    · exact memberEvents_path es q e h
end

/-- No event is the end of the container. -/
def Clean (path : Text) (stop : Ev) (evs : List Event) : Prop := ∀ e ∈ evs, ¬ (e.path = path ∧ e.ev = stop)

theorem untilEnd_clean (path : Text) (stop : Ev) (evs : List Event) (rest : List Event)
    (h : Clean path stop evs) :
    untilEnd path stop (evs ++ ⟨path, stop⟩ :: rest) = some (evs.map Event.ev, rest) := by
  induction evs with
  | nil => simp [untilEnd]
  | cons e evs ih =>
    simp only [List.cons_append, untilEnd, h e (by simp), if_false,
      ih (fun x hx => h x (by simp [hx])), Option.map_some, List.map_cons]

theorem clean_elements (p : List Text) (xs : List Json) :
    Clean (join p) .endArray (elementEvents (p ++ ["item".toList]) xs) := by
  rintro e he ⟨h1, -⟩
  obtain ⟨r, hr⟩ := elementEvents_path xs _ e he
  rw [hr, List.append_assoc] at h1
  cases p with
  | nil =>
    cases r with
    | nil => exact absurd h1 (by decide)
    | cons y r =>
      have h2 := congrArg List.length h1
      simp [join] at h2
  | cons x p => exact join_longer (x :: p) (by simp) _ r h1

theorem clean_members (p : List Text) (hp : p ≠ []) (es : List (Text × Json)) :
    Clean (join p) .endMap (memberEvents p es) := by
  rintro e he ⟨h1, h2⟩
  rcases memberEvents_path es p e he with ⟨y, r, h⟩ | ⟨k, h3, h4⟩
  · exact join_longer p hp y r (by rw [← h, h1])
  · rw [h2] at h4; cases h4

theorem clean_root (es : List (Text × Json)) (h : RootOk (.obj es)) :
    Clean [] .endMap (memberEvents [] es) := by
  unfold RootOk at h
  induction es with
  | nil => intro e he; cases he
  | cons m es ih =>
    obtain ⟨k, x⟩ := m
    rintro e he ⟨h1, h2⟩
    simp only [memberEvents, List.mem_cons, List.mem_append] at he
    rcases he with rfl | he | he
    · cases h2
    · rcases events_path x [k] e he with ⟨y, r, hy⟩ | ⟨hp, ho⟩
      · rw [h1] at hy
        have := congrArg List.length hy
        simp [join] at this
      · obtain ⟨fs, rfl⟩ := ho h2
        have := h k fs (by simp)
        rw [h1] at hp
        exact this (by simpa [join] using hp.symm)
    · exact ih (fun k x hx => h k x (by simp [hx])) e he ⟨h1, h2⟩

/-! ## Documents -/

mutual
/-- The content of a document: of equal names the last one counts. -/
def plainOf : Json → Plain
  | .null => .null
  | .bool b => .bool b
  | .num t => .num (numOf t)
  | .str s => .str s
  | .arr xs => .arr (plainsOf [] xs)
  | .obj es => .obj (fieldsOf [] es)
termination_by structural j => j
def plainsOf (acc : List Plain) : List Json → List Plain
  | [] => acc
  | x :: xs => plainsOf (acc ++ [plainOf x]) xs
def fieldsOf (acc : List (Text × Plain)) : List (Text × Json) → List (Text × Plain)
  | [] => acc
  | (k, x) :: es => fieldsOf (put acc k (plainOf x)) es
end

mutual
theorem feed_events : ∀ (j : Json) (p : List Text) (b : Builder),
    ((events p j).map Event.ev).foldl feed b = attach b (plainOf j)
  | .null, p, b => rfl
  | .bool _, p, b => rfl
  | .num t, p, b => rfl
  | .str s, p, b => rfl
  | .arr xs, p, b => by
    simp only [events, List.map_cons, List.map_append, List.map_nil, List.foldl_cons, List.foldl_append,
      List.foldl_nil]
    rw [show feed b .startArray = (.arr [] :: b.1, b.2) from rfl, feed_elements xs _ [] b.1 b.2]
    simp only [feed, Frame.plain, plainOf]
  | .obj es, p, b => by
    simp only [events, List.map_cons, List.map_append, List.map_nil, List.foldl_cons, List.foldl_append,
      List.foldl_nil]
    rw [show feed b .startMap = (.obj [] [] :: b.1, b.2) from rfl]
    obtain ⟨k, hk⟩ := feed_members es p [] [] b.1 b.2
    rw [hk]
    simp only [feed, Frame.plain, plainOf]
termination_by structural j => j
theorem feed_elements : ∀ (xs : List Json) (p : List Text) (acc : List Plain) (fs : List Frame) (d : Plain),
    ((elementEvents p xs).map Event.ev).foldl feed (.arr acc :: fs, d) = (.arr (plainsOf acc xs) :: fs, d)
  | [], p, acc, fs, d => rfl
  | x :: xs, p, acc, fs, d => by
    simp only [elementEvents, List.map_append, List.foldl_append, feed_events x p, attach, plainsOf]
    exact feed_elements xs p _ fs d
theorem feed_members : ∀ (es : List (Text × Json)) (p : List Text) (acc : List (Text × Plain)) (key : Text)
    (fs : List Frame) (d : Plain), ∃ key',
    ((memberEvents p es).map Event.ev).foldl feed (.obj acc key :: fs, d) =
      (.obj (fieldsOf acc es) key' :: fs, d)
  | [], p, acc, key, fs, d => ⟨key, rfl⟩
  | (k, x) :: es, p, acc, key, fs, d => by
    simp only [memberEvents, List.map_cons, List.map_append, List.foldl_cons, List.foldl_append]
    rw [show feed (.obj acc key :: fs, d) (.mapKey k) = (.obj acc k :: fs, d) from rfl,
      feed_events x]
    simp only [attach, fieldsOf]
    exact feed_members es p _ k fs d
end

/-- A document is read as the content of the value, unless it is at the top and has a member with an
empty name. -/
theorem readDocument_spec (j : Json) (p : List Text) (rest : List Event) (h : p = [] → RootOk j) :
    readDocument (events p j ++ rest) = .ok (plainOf j, rest) := by
  cases j with
  | null => rfl
  | bool b => rfl
  | num t => rfl
  | str s => rfl
  | arr xs =>
    simp only [events, List.cons_append, List.append_assoc, List.nil_append, readDocument]
    rw [untilEnd_clean _ _ _ _ (clean_elements p xs)]
    simp only [List.foldl_cons]
    rw [show feed ([], .null) .startArray = ([.arr []], .null) from rfl, feed_elements]
    rfl
  | obj es =>
    simp only [events, List.cons_append, List.append_assoc, List.nil_append, readDocument]
    have hc : Clean (join p) .endMap (memberEvents p es) := by
      by_cases hp : p = []
      · subst hp; exact clean_root es (h rfl)
      · exact clean_members p hp es
    rw [untilEnd_clean _ _ _ _ hc]
    simp only [List.foldl_cons]
    rw [show feed ([], .null) .startMap = ([.obj [] []], .null) from rfl]
    obtain ⟨k, hk⟩ := feed_members es p [] [] [] .null
    rw [hk]
    rfl

/-- A value is skipped whole. -/
theorem skip_spec (j : Json) (p : List Text) (hp : p ≠ []) (rest : List Event) :
    skip (events p j ++ rest) = .ok rest := by
  cases j with
  | null => rfl
  | bool b => rfl
  | num t => rfl
  | str s => rfl
  | arr xs =>
    simp only [events, List.cons_append, List.append_assoc, List.nil_append, skip]
    rw [untilEnd_clean _ _ _ _ (clean_elements p xs)]
  | obj es =>
    simp only [events, List.cons_append, List.append_assoc, List.nil_append, skip]
    rw [untilEnd_clean _ _ _ _ (clean_members p hp es)]

end Verif.Json
