import Verif.Json.Strings
import Verif.Scalars.Float

/-!
# JSON texts

The grammar of RFC 8259 as a specification: what values a text stands for.  Used by C43 and C44.
A text is a sequence of tokens with white space around them; the tokens of a value are given by a
function.  `jsonText_unique` shows that a text stands for at most one value.
-/

set_option autoImplicit false

namespace Verif.Json

open Verif.Scalars.Strict (JsonNumber ascii)

/-- JSON values.  A number is kept as it is written; an object may have the same name twice. -/
inductive Json where
  | null
  | bool (b : Bool)
  | num (t : Text)
  | str (s : Text)
  | arr (xs : List Json)
  | obj (es : List (Text × Json))

/-- JSON tokens. -/
inductive Tok where
  | lbrace | rbrace | lbracket | rbracket | comma | colon
  | null
  | bool (b : Bool)
  | num (t : Text)
  | str (s : Text)
  deriving DecidableEq, Repr

mutual
/-- The tokens of a value (RFC 8259, sections 3 to 5). -/
def toks : Json → List Tok
  | .null => [.null]
  | .bool b => [.bool b]
  | .num t => [.num t]
  | .str s => [.str s]
  | .arr [] => [.lbracket, .rbracket]
  | .arr (x :: xs) => .lbracket :: (toks x ++ moreToks xs ++ [.rbracket])
  | .obj [] => [.lbrace, .rbrace]
  | .obj ((k, x) :: es) => .lbrace :: .str k :: .colon :: (toks x ++ moreMembers es ++ [.rbrace])
termination_by structural j => j
/-- The elements after the first one. -/
def moreToks : List Json → List Tok
  | [] => []
  | x :: xs => .comma :: (toks x ++ moreToks xs)
/-- The members after the first one. -/
def moreMembers : List (Text × Json) → List Tok
  | [] => []
  | (k, x) :: es => .comma :: .str k :: .colon :: (toks x ++ moreMembers es)
end

/-- A number (RFC 8259, section 6). -/
def IsNumber (t : Text) : Prop := ∃ n : JsonNumber, n.Ok ascii ∧ t = n.text

/-- White space (RFC 8259, section 2). -/
def isWs (c : Char) : Bool := c = ' ' || c = '\t' || c = '\n' || c = '\r'

/-- The tokens with a fixed text. -/
def fixedToks : List (Text × Tok) :=
  [(['{'], .lbrace), (['}'], .rbrace), (['['], .lbracket), ([']'], .rbracket), ([','], .comma),
   ([':'], .colon), (['n', 'u', 'l', 'l'], .null), (['t', 'r', 'u', 'e'], .bool true),
   (['f', 'a', 'l', 's', 'e'], .bool false)]

/-- The text of a token. -/
inductive Lexeme : Text → Tok → Prop
  | fixed {l t} (h : (l, t) ∈ fixedToks) : Lexeme l t
  | num {l} (h : IsNumber l) : Lexeme l (.num l)
  | str {cs s} (h : Chars cs s) : Lexeme ('"' :: (cs ++ ['"'])) (.str s)

/-- Characters of numbers. -/
def numChar (c : Char) : Bool := ascii c || c = '-' || c = '+' || c = '.' || c = 'e' || c = 'E'

/-- What follows a number is not part of it. -/
def NoNum (r : Text) : Prop := ∀ c t, r = c :: t → numChar c = false

/-- The tokens of a text. -/
inductive Lexes : Text → List Tok → Prop
  | nil {w} (h : ∀ c ∈ w, isWs c = true) : Lexes w []
  | cons {w l t r ts} (h : ∀ c ∈ w, isWs c = true) (hl : Lexeme l t)
      (hn : ∀ n, t = .num n → NoNum r) (hr : Lexes r ts) : Lexes (w ++ (l ++ r)) (t :: ts)

/-- The text is a JSON text of the value. -/
def IsJsonText (t : Text) (j : Json) : Prop := Lexes t (toks j)

/-! ## A text stands for at most one value -/

theorem span_unique (p : Char → Bool) : ∀ {a a' b b' : Text}, a ++ b = a' ++ b' →
    (∀ c ∈ a, p c = true) → (∀ c ∈ a', p c = true) → (∀ c t, b = c :: t → p c = false) →
    (∀ c t, b' = c :: t → p c = false) → a = a' ∧ b = b'
  | [], [], b, b', e, _, _, _, _ => ⟨rfl, e⟩
  | [], c :: a', b, b', e, _, h', hb, _ => by
    have := hb c (a' ++ b') e
    rw [h' c (by simp)] at this
    cases this
  | c :: a, [], b, b', e, h, _, _, hb' => by
    have := hb' c (a ++ b) e.symm
    rw [h c (by simp)] at this
    cases this
  | c :: a, c' :: a', b, b', e, h, h', hb, hb' => by
    simp only [List.cons_append, List.cons.injEq] at e
    obtain ⟨rfl, e⟩ := e
    obtain ⟨rfl, rfl⟩ := span_unique p e (fun x hx => h x (by simp [hx]))
      (fun x hx => h' x (by simp [hx])) hb hb'
    exact ⟨rfl, rfl⟩

theorem number_chars {t : Text} (h : IsNumber t) : ∀ c ∈ t, numChar c = true := by
  obtain ⟨n, hn, rfl⟩ := h
  have hd : ∀ c, ascii c = true → numChar c = true := fun c h => by simp [numChar, h]
  have h19 : ∀ c ∈ ['1', '2', '3', '4', '5', '6', '7', '8', '9'], numChar c = true := by decide
  intro c hc
  simp only [JsonNumber.text, List.mem_append] at hc
  rcases hc with ((hc | hc) | hc) | hc
  · split at hc
    · simp only [List.mem_singleton] at hc; subst hc; decide
    · cases hc
  · rcases hn.int with h | ⟨d, ds, h, h1, h2⟩
    · rw [h] at hc; simp only [List.mem_singleton] at hc; subst hc; decide
    · rw [h] at hc
      rcases List.mem_cons.1 hc with rfl | hc
      · exact h19 c h1
      · exact hd c (h2 c hc)
  · split at hc
    · cases hc
    · rename_i f hf
      rcases List.mem_cons.1 hc with rfl | hc
      · decide
      · exact hd c ((hn.frac f hf).2 c hc)
  · split at hc
    · cases hc
    · rename_i e sign ds he
      obtain ⟨h1, h2, h3⟩ := hn.exp e sign ds he
      rcases List.mem_cons.1 hc with rfl | hc
      · rcases h1 with rfl | rfl <;> decide
      · rcases List.mem_append.1 hc with hc | hc
        · rcases h2 c (by simpa using hc) with rfl | rfl <;> decide
        · exact hd c (h3.2 c hc)

theorem number_head {t : Text} (h : IsNumber t) : ∃ c r, t = c :: r ∧ (c = '-' ∨ ascii c = true) := by
  obtain ⟨n, hn, rfl⟩ := h
  have h19 : ∀ c ∈ ['1', '2', '3', '4', '5', '6', '7', '8', '9'], ascii c = true := by decide
  cases hneg : n.neg with
  | true => exact ⟨'-', _, by simp only [JsonNumber.text, hneg, if_true]; rfl, .inl rfl⟩
  | false =>
    rcases hn.int with h | ⟨d, ds, h, h1, h2⟩
    · exact ⟨'0', _, by simp only [JsonNumber.text, hneg, h]; rfl, .inr (by decide)⟩
    · exact ⟨d, _, by simp only [JsonNumber.text, hneg, h]; rfl, .inr (h19 d h1)⟩

/-- What a token can start with. -/
inductive Start : Char → Tok → Prop
  | fixed {c l t} (h : (c :: l, t) ∈ fixedToks) : Start c t
  | num {c t} (h : c = '-' ∨ ascii c = true) : Start c (.num t)
  | str {s} : Start '"' (.str s)

theorem fixed_head : ∀ p ∈ fixedToks, p.1 ≠ [] ∧ ∀ c ∈ p.1.head?, isWs c = false ∧ c ≠ '"' ∧ c ≠ '-' ∧
    ascii c = false := by decide

theorem fixed_eq : ∀ p ∈ fixedToks, ∀ q ∈ fixedToks, p.1.head? = q.1.head? → p = q := by decide

theorem ascii_not_ws (c : Char) (h : ascii c = true) : isWs c = false ∧ c ≠ '"' := by
  constructor
  · cases hw : isWs c with
    | false => rfl
    | true =>
      simp only [isWs, Bool.or_eq_true, decide_eq_true_eq] at hw
      rcases hw with ((rfl | rfl) | rfl) | rfl <;> exact absurd h (by decide)
  · rintro rfl
    exact absurd h (by decide)

theorem lexeme_head {l : Text} {t : Tok} (h : Lexeme l t) : ∃ c r, l = c :: r ∧ isWs c = false := by
  cases h with
  | fixed h =>
    obtain ⟨h1, h2⟩ := fixed_head _ h
    cases l with
    | nil => exact absurd rfl h1
    | cons c r => exact ⟨c, r, rfl, (h2 c rfl).1⟩
  | num h =>
    obtain ⟨c, r, rfl, hc⟩ := number_head h
    rcases hc with rfl | hc
    · exact ⟨'-', r, rfl, by decide⟩
    · exact ⟨c, r, rfl, (ascii_not_ws c hc).1⟩
  | str h => exact ⟨'"', _, rfl, by decide⟩

theorem lexeme_unique {l l' r r' : Text} {t t' : Tok} (h : Lexeme l t) (h' : Lexeme l' t')
    (e : l ++ r = l' ++ r') (hn : ∀ n, t = .num n → NoNum r) (hn' : ∀ n, t' = .num n → NoNum r') :
    t = t' ∧ r = r' := by
  have fixed_other : ∀ {l l' r r' : Text} {t t' : Tok}, (l, t) ∈ fixedToks → Lexeme l' t' →
      l ++ r = l' ++ r' → (l', t') ∈ fixedToks := by
    intro l l' r r' t t' h h' e
    obtain ⟨h1, h2⟩ := fixed_head _ h
    cases l with
    | nil => exact absurd rfl h1
    | cons c l =>
      obtain ⟨_, h3, h4, h5⟩ := h2 c rfl
      cases h' with
      | fixed h' => exact h'
      | num h' =>
        obtain ⟨d, m, rfl, hd⟩ := number_head h'
        simp only [List.cons_append, List.cons.injEq] at e
        obtain ⟨rfl, _⟩ := e
        rcases hd with hd | hd
        · exact absurd hd h4
        · rw [h5] at hd; cases hd
      | str h' =>
        simp only [List.cons_append, List.cons.injEq] at e
        exact absurd e.1 h3
  by_cases hf : (l, t) ∈ fixedToks
  · have hf' := fixed_other hf h' e
    have hne := (fixed_head _ hf).1
    have hne' := (fixed_head _ hf').1
    have : l.head? = l'.head? := by
      cases l with
      | nil => exact absurd rfl hne
      | cons c l =>
        cases l' with
        | nil => exact absurd rfl hne'
        | cons c' l' => simp only [List.cons_append, List.cons.injEq] at e; simp [e.1]
    have := fixed_eq _ hf _ hf' this
    simp only [Prod.mk.injEq] at this
    obtain ⟨rfl, rfl⟩ := this
    exact ⟨rfl, List.append_cancel_left e⟩
  by_cases hf' : (l', t') ∈ fixedToks
  · exact absurd (fixed_other hf' h e.symm) hf
  cases h with
  | fixed h => exact absurd h hf
  | num h =>
    cases h' with
    | fixed h' => exact absurd h' hf'
    | num h' =>
      obtain ⟨rfl, rfl⟩ := span_unique numChar e (number_chars h) (number_chars h') (hn _ rfl) (hn' _ rfl)
      exact ⟨rfl, rfl⟩
    | str h' =>
      obtain ⟨c, m, rfl, hc⟩ := number_head h
      simp only [List.cons_append, List.cons.injEq] at e
      obtain ⟨rfl, _⟩ := e
      rcases hc with hc | hc
      · exact absurd hc (by decide)
      · exact absurd rfl (ascii_not_ws _ hc).2
  | str h =>
    cases h' with
    | fixed h' => exact absurd h' hf'
    | num h' =>
      obtain ⟨c, m, rfl, hc⟩ := number_head h'
      simp only [List.cons_append, List.cons.injEq] at e
      obtain ⟨rfl, _⟩ := e
      rcases hc with hc | hc
      · exact absurd hc (by decide)
      · exact absurd rfl (ascii_not_ws _ hc).2
    | str h' =>
      simp only [List.cons_append, List.append_assoc, List.nil_append, List.cons.injEq, true_and] at e
      obtain ⟨_, rfl, rfl⟩ := chars_unique h h' e
      exact ⟨rfl, rfl⟩

theorem lexeme_no_ws {l r : Text} {t : Tok} (h : Lexeme l t) (c : Char) (x : Text)
    (e : l ++ r = c :: x) : isWs c = false := by
  obtain ⟨d, m, rfl, hd⟩ := lexeme_head h
  simp only [List.cons_append, List.cons.injEq] at e
  rw [← e.1]; exact hd

theorem lexes_unique {t : Text} {ts : List Tok} (h : Lexes t ts) : ∀ {ts'}, Lexes t ts' → ts = ts' := by
  induction h with
  | nil hw =>
    intro ts' h'
    cases h' with
    | nil => rfl
    | cons hw' hl' hn' hr' =>
      obtain ⟨c, m, rfl, hc⟩ := lexeme_head hl'
      have := hw c (by simp)
      rw [hc] at this
      cases this
  | cons hw hl hn hr ih =>
    rename_i w l t r ts
    intro ts' h'
    generalize hx : w ++ (l ++ r) = x at h'
    cases h' with
    | nil hw' =>
      obtain ⟨c, m, rfl, hc⟩ := lexeme_head hl
      have := hw' c (by rw [← hx]; simp)
      rw [hc] at this
      cases this
    | cons hw' hl' hn' hr' =>
      obtain ⟨_, e⟩ := span_unique isWs hx hw hw' (lexeme_no_ws hl) (lexeme_no_ws hl')
      obtain ⟨rfl, rfl⟩ := lexeme_unique hl hl' e hn hn'
      rw [ih hr']

/-- What a value can start with. -/
theorem toks_head (j : Json) : ∃ t ts, toks j = t :: ts ∧ t ≠ .rbracket := by
  match j with
  | .null => exact ⟨_, _, rfl, by simp⟩
  | .bool b => exact ⟨_, _, rfl, by simp⟩
  | .num t => exact ⟨_, _, rfl, by simp⟩
  | .str s => exact ⟨_, _, rfl, by simp⟩
  | .arr [] => exact ⟨_, _, rfl, by simp⟩
  | .arr (x :: xs) => exact ⟨_, _, rfl, by simp⟩
  | .obj [] => exact ⟨_, _, rfl, by simp⟩
  | .obj ((k, x) :: es) => exact ⟨_, _, rfl, by simp⟩

theorem toks_not_rbracket (j : Json) (r r' : List Tok) : toks j ++ r ≠ .rbracket :: r' := by
  obtain ⟨t, ts, h, hne⟩ := toks_head j
  rw [h]
  intro e
  simp only [List.cons_append, List.cons.injEq] at e
  exact hne e.1

mutual
theorem toks_unique : ∀ (a b : Json) (r r' : List Tok), toks a ++ r = toks b ++ r' → a = b ∧ r = r'
  | .null, b, r, r', e => by
    match b with
    | .null => simpa [toks] using e
    | .bool _ => simp [toks] at e
    | .num _ => simp [toks] at e
    | .str _ => simp [toks] at e
    | .arr [] => simp [toks] at e
    | .arr (_ :: _) => simp [toks] at e
    | .obj [] => simp [toks] at e
    | .obj ((_, _) :: _) => simp [toks] at e
  | .bool _, b, r, r', e => by
    match b with
    | .null => simp [toks] at e
    | .bool _ => simpa [toks] using e
    | .num _ => simp [toks] at e
    | .str _ => simp [toks] at e
    | .arr [] => simp [toks] at e
    | .arr (_ :: _) => simp [toks] at e
    | .obj [] => simp [toks] at e
    | .obj ((_, _) :: _) => simp [toks] at e
  | .num _, b, r, r', e => by
    match b with
    | .null => simp [toks] at e
    | .bool _ => simp [toks] at e
    | .num _ => simpa [toks] using e
    | .str _ => simp [toks] at e
    | .arr [] => simp [toks] at e
    | .arr (_ :: _) => simp [toks] at e
    | .obj [] => simp [toks] at e
    | .obj ((_, _) :: _) => simp [toks] at e
  | .str _, b, r, r', e => by
    match b with
    | .null => simp [toks] at e
    | .bool _ => simp [toks] at e
    | .num _ => simp [toks] at e
    | .str _ => simpa [toks] using e
    | .arr [] => simp [toks] at e
    | .arr (_ :: _) => simp [toks] at e
    | .obj [] => simp [toks] at e
    | .obj ((_, _) :: _) => simp [toks] at e
  | .arr [], b, r, r', e => by
    match b with
    | .null => simp [toks] at e
    | .bool _ => simp [toks] at e
    | .num _ => simp [toks] at e
    | .str _ => simp [toks] at e
    | .arr [] => simpa [toks] using e
    | .arr (y :: ys) =>
      simp only [toks, List.cons_append, List.append_assoc, List.cons.injEq, true_and] at e
      exact absurd e.symm (toks_not_rbracket _ _ _)
    | .obj [] => simp [toks] at e
    | .obj ((_, _) :: _) => simp [toks] at e
  | .arr (x :: xs), b, r, r', e => by
    match b with
    | .null => simp [toks] at e
    | .bool _ => simp [toks] at e
    | .num _ => simp [toks] at e
    | .str _ => simp [toks] at e
    | .arr [] =>
      simp only [toks, List.cons_append, List.append_assoc, List.cons.injEq, true_and] at e
      exact absurd e (toks_not_rbracket _ _ _)
    | .arr (y :: ys) =>
      simp only [toks, List.cons_append, List.append_assoc, List.cons.injEq, true_and] at e
      obtain ⟨h1, e⟩ := toks_unique x y _ _ e
      obtain ⟨h2, h3⟩ := moreToks_unique xs ys _ _ e
      rw [h1, h2]
      exact ⟨rfl, h3⟩
    | .obj [] => simp [toks] at e
    | .obj ((_, _) :: _) => simp [toks] at e
  | .obj [], b, r, r', e => by
    match b with
    | .null => simp [toks] at e
    | .bool _ => simp [toks] at e
    | .num _ => simp [toks] at e
    | .str _ => simp [toks] at e
    | .arr [] => simp [toks] at e
    | .arr (_ :: _) => simp [toks] at e
    | .obj [] => simpa [toks] using e
    | .obj ((_, _) :: _) => simp [toks] at e
  | .obj ((k, x) :: es), b, r, r', e => by
    match b with
    | .null => simp [toks] at e
    | .bool _ => simp [toks] at e
    | .num _ => simp [toks] at e
    | .str _ => simp [toks] at e
    | .arr [] => simp [toks] at e
    | .arr (_ :: _) => simp [toks] at e
    | .obj [] => simp [toks] at e
    | .obj ((k', y) :: fs) =>
      simp only [toks, List.cons_append, List.append_assoc, List.cons.injEq, true_and,
        Tok.str.injEq] at e
      obtain ⟨hk, e⟩ := e
      obtain ⟨h1, e⟩ := toks_unique x y _ _ e
      obtain ⟨h2, h3⟩ := moreMembers_unique es fs _ _ e
      rw [h1, h2, hk]
      exact ⟨rfl, h3⟩
termination_by structural a => a
theorem moreToks_unique : ∀ (xs ys : List Json) (r r' : List Tok),
    moreToks xs ++ ([.rbracket] ++ r) = moreToks ys ++ ([.rbracket] ++ r') → xs = ys ∧ r = r'
  | [], ys, r, r', e => by
    match ys with
    | [] => simpa [moreToks] using e
    | y :: ys => simp [moreToks] at e
  | x :: xs, ys, r, r', e => by
    match ys with
    | [] => simp [moreToks] at e
    | y :: ys =>
      simp only [moreToks, List.cons_append, List.append_assoc, List.cons.injEq, true_and] at e
      obtain ⟨h1, e⟩ := toks_unique x y _ _ e
      obtain ⟨h2, h3⟩ := moreToks_unique xs ys r r' e
      rw [h1, h2]
      exact ⟨rfl, h3⟩
theorem moreMembers_unique : ∀ (xs ys : List (Text × Json)) (r r' : List Tok),
    moreMembers xs ++ ([.rbrace] ++ r) = moreMembers ys ++ ([.rbrace] ++ r') → xs = ys ∧ r = r'
  | [], ys, r, r', e => by
    match ys with
    | [] => simpa [moreMembers] using e
    | (k, y) :: ys => simp [moreMembers] at e
  | (k, x) :: xs, ys, r, r', e => by
    match ys with
    | [] => simp [moreMembers] at e
    | (k', y) :: ys =>
      simp only [moreMembers, List.cons_append, List.append_assoc, List.cons.injEq, true_and,
        Tok.str.injEq] at e
      obtain ⟨hk, e⟩ := e
      obtain ⟨h1, e⟩ := toks_unique x y _ _ e
      obtain ⟨h2, h3⟩ := moreMembers_unique xs ys r r' e
      rw [h1, h2, hk]
      exact ⟨rfl, h3⟩
end

/-- A text stands for at most one value. -/
theorem jsonText_unique {t : Text} {a b : Json} (ha : IsJsonText t a) (hb : IsJsonText t b) : a = b :=
  (toks_unique a b [] [] (by rw [lexes_unique ha hb])).1

/-! ## Putting texts together -/

theorem lexes_append {a : Text} {ts : List Tok} (ha : Lexes a ts) {b : Text} {us : List Tok}
    (hb : Lexes b us) (hn : NoNum b) : Lexes (a ++ b) (ts ++ us) := by
  induction ha with
  | nil hw =>
    rename_i w
    cases hb with
    | nil hw' =>
      exact .nil fun c hc => by
        rcases List.mem_append.1 hc with h | h
        · exact hw c h
        · exact hw' c h
    | cons hw' hl' hn' hr' =>
      rename_i w' l t r us'
      rw [← List.append_assoc]
      exact .cons (fun c hc => by
        rcases List.mem_append.1 hc with h | h
        · exact hw c h
        · exact hw' c h) hl' hn' hr'
  | cons hw hl hn' hr ih =>
    rename_i w l t r ts
    rw [List.append_assoc, List.append_assoc]
    refine .cons hw hl (fun n hn'' => ?_) ih
    have := hn' n hn''
    intro c x e
    cases r with
    | nil => exact hn c x e
    | cons d r =>
      simp only [List.cons_append, List.cons.injEq] at e
      exact this c r (by rw [e.1])

theorem lexes_one {l : Text} {t : Tok} (h : Lexeme l t) : Lexes l [t] := by
  have := Lexes.cons (w := []) (r := []) (ts := []) (by simp) h (fun _ _ _ _ e => by cases e)
    (.nil (by simp))
  simpa using this

theorem lexes_punct (c : Char) (t : Tok) (h : ([c], t) ∈ fixedToks) {r : Text} {ts : List Tok}
    (hr : Lexes r ts) : Lexes (c :: r) (t :: ts) := by
  have hne : ∀ n, t ≠ .num n := by
    rintro n rfl
    simp [fixedToks] at h
  exact Lexes.cons (w := []) (l := [c]) (by simp) (.fixed h) (fun n hn => absurd hn (hne n)) hr

/-! ## The hypotheses are met -/

/-- ` { "a" : [ 1 , null ] } ` -/
example : IsJsonText " {\"a\" :[1, null]}\n".toList
    (.obj [("a".toList, .arr [.num "1".toList, .null])]) := by
  have ws : ∀ c ∈ [' '], isWs c = true := by decide
  have one : IsNumber ['1'] :=
    ⟨⟨false, ['1'], none, none⟩, ⟨.inr ⟨'1', [], rfl, by simp, by simp⟩, by simp, by simp⟩, rfl⟩
  refine Lexes.cons (w := [' ']) (l := ['{']) ws (.fixed (by decide)) (by simp) ?_
  refine Lexes.cons (w := []) (l := ['"', 'a', '"']) (by simp)
    (.str (cs := ['a']) (.plain (by decide) (by decide) (by decide) .nil)) (by simp) ?_
  refine Lexes.cons (w := [' ']) (l := [':']) ws (.fixed (by decide)) (by simp) ?_
  refine Lexes.cons (w := []) (l := ['[']) (by simp) (.fixed (by decide)) (by simp) ?_
  refine Lexes.cons (w := []) (l := ['1']) (by simp) (.num one) ?_ ?_
  · rintro n - c t e
    cases e
    decide
  refine Lexes.cons (w := []) (l := [',']) (by simp) (.fixed (by decide)) (by simp) ?_
  refine Lexes.cons (w := [' ']) (l := ['n', 'u', 'l', 'l']) ws (.fixed (by decide)) (by simp) ?_
  refine Lexes.cons (w := []) (l := [']']) (by simp) (.fixed (by decide)) (by simp) ?_
  refine Lexes.cons (w := []) (l := ['}']) (by simp) (.fixed (by decide)) (by simp) ?_
  exact .nil (by decide)

end Verif.Json
