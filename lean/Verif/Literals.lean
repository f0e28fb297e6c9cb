import Mathlib.Tactic.Common
import Verif.Common
import Verif.Dict
import Verif.Numerals

/-!
# Values of traits in generated code

Values of traits and defaults are nodes of the model of the service.  The generator writes them as
Python expressions.  Here are the writer, a reader for the part of Python that it uses, and the proof
that the expressions mean the nodes.
-/

set_option autoImplicit false

namespace Verif.Literals

abbrev Text := List Char

/-! ## Nodes -/

/-- Numbers of nodes.  `F` stands for floating point numbers of 64 bits.  Simplified: a decimal number
stands for the floating point number nearest to it. -/
inductive Num (F : Type)
  | nan
  | inf (negative : Bool)
  | floating (f : F)
  | whole (i : Int)

mutual

/-- Nodes of Smithy models. -/
inductive Node (F : Type)
  | null
  | bool (b : Bool)
  | num (n : Num F)
  | str (s : Text)
  | arr (l : Nodes F)
  | obj (l : Members F)

/-- Elements of an array. -/
inductive Nodes (F : Type)
  | nil
  | cons (x : Node F) (r : Nodes F)

/-- Members of an object. -/
inductive Members (F : Type)
  | nil
  | cons (k : Text) (x : Node F) (r : Members F)

end

variable {F : Type}

/-! ## The generator -/

/-- What the generator takes from libraries: `StringUtils.escapeJavaString` of Smithy (which takes the
indentation for strings of several lines), `Double.toString` of Java, and the indentation. -/
structure Library (F : Type) where
  quote : Text → Text → Text
  double : F → Text
  step : Text

/-- `Number.longValue` of Java: the lowest 64 bits. -/
def longValue (i : Int) : Int := (i + 9223372036854775808) % 18446744073709551616 - 9223372036854775808

/-- `numberNode` (PythonWriter.java:556-569). -/
def writeNumber (L : Library F) : Num F → Text
  | .nan => "float('NaN')".toList
  | .inf true => "float('-inf')".toList
  | .inf false => "float('inf')".toList
  | .floating f => L.double f
  | .whole i => Numerals.intText (longValue i)

/-- `MappingProxyType({`. -/
def mappingProxy : Text :=
  ['M', 'a', 'p', 'p', 'i', 'n', 'g', 'P', 'r', 'o', 'x', 'y', 'T', 'y', 'p', 'e', '(', '{']

mutual

/-- The visitor for nodes (PythonWriter.java:536-618).  Simplified: the indentation that the writer adds
to every line is left out. -/
def write (L : Library F) (indent : Text) : Node F → Text
  | .null => "None".toList
  | .bool b => if b then "True".toList else "False".toList
  | .num n => writeNumber L n
  | .str s => L.quote indent s
  | .arr .nil => ['(', ')']
  | .arr (.cons x r) =>
    ['(', '\n'] ++ writeElements L (indent ++ L.step) (.cons x r) ++ indent ++ [')']
  | .obj .nil => mappingProxy ++ ['}', ')']
  | .obj (.cons k x r) =>
    mappingProxy ++ ['\n'] ++ writeMembers L (indent ++ L.step) (.cons k x r) ++ indent ++ ['}', ')']

/-- Elements of an array (PythonWriter.java:585-589). -/
def writeElements (L : Library F) (indent : Text) : Nodes F → Text
  | .nil => []
  | .cons x r => indent ++ write L indent x ++ [',', '\n'] ++ writeElements L indent r

/-- Members of an object (PythonWriter.java:606-612). -/
def writeMembers (L : Library F) (indent : Text) : Members F → Text
  | .nil => []
  | .cons k x r =>
    indent ++ L.quote indent k ++ [':', ' '] ++ write L indent x ++ [',', '\n'] ++
      writeMembers L indent r

end

/-! ## Specification: what Python makes of it -/

/-- Python's floating point numbers. -/
inductive Flt (F : Type)
  | nan
  | inf (negative : Bool)
  | fin (f : F)

/-- Values of Python. -/
inductive Val (F : Type)
  | none
  | bool (b : Bool)
  | int (i : Int)
  | float (f : Flt F)
  | str (s : Text)
  | tuple (l : List (Val F))
  | mapping (d : List (Text × Val F))

/-- Python's reading of the literals whose syntax is not spelled out here: a string literal at the
beginning of a text, with what follows it, and floating point literals. -/
structure Reader (F : Type) where
  string : Text → Option (Text × Text)
  float : Text → Option F

/-- White space within parentheses. -/
def isSpace (c : Char) : Bool := c = ' ' || c = '\n'

def skip (t : Text) : Text := t.dropWhile isSpace

/-- What follows a given text. -/
def eat (p t : Text) : Option Text := if p.isPrefixOf t then some (t.drop p.length) else none

def isDigit (c : Char) : Bool := Scalars.Strict.ascii c

/-- Characters of numbers. -/
def isNumeric (c : Char) : Bool :=
  isDigit c || c = '-' || c = '+' || c = '.' || c = 'e' || c = 'E'

/-- Digits only, after an optional minus sign. -/
def isInteger : Text → Bool
  | '-' :: t => t ≠ [] && t.all isDigit
  | t => t ≠ [] && t.all isDigit

/-- A number literal, with its sign. -/
def number (R : Reader F) (w : Text) : Option (Val F) :=
  if isInteger w then some (.int (Numerals.intValue w)) else (R.float w).map fun f => .float (.fin f)

/-- Names and calls of `float`. -/
def keyword (t : Text) : Option (Val F × Text) :=
  match eat "None".toList t with
  | some r => some (.none, r)
  | none =>
  match eat "True".toList t with
  | some r => some (.bool true, r)
  | none =>
  match eat "False".toList t with
  | some r => some (.bool false, r)
  | none =>
  match eat "float('NaN')".toList t with
  | some r => some (.float .nan, r)
  | none =>
  match eat "float('inf')".toList t with
  | some r => some (.float (.inf false), r)
  | none =>
  match eat "float('-inf')".toList t with
  | some r => some (.float (.inf true), r)
  | none => none

mutual

/-- An expression at the beginning of a text, and what follows it. -/
def expr (R : Reader F) : Nat → Text → Option (Val F × Text)
  | 0, _ => none
  | n + 1, t =>
    match skip t with
    | [] => none
    | c :: r =>
      if c = '"' then (R.string (c :: r)).map fun p => (.str p.1, p.2)
      else if c = '(' then elements R n [] r
      else if isDigit c ∨ c = '-' then
        (number R ((c :: r).takeWhile isNumeric)).map fun v => (v, (c :: r).dropWhile isNumeric)
      else
        match eat mappingProxy (c :: r) with
        | some r => members R n [] r
        | none => keyword (c :: r)

/-- After an opening parenthesis: the empty tuple, an expression in parentheses, or the elements of a
tuple, with commas between them or after each. -/
def elements (R : Reader F) : Nat → List (Val F) → Text → Option (Val F × Text)
  | 0, _, _ => none
  | n + 1, acc, t =>
    match skip t with
    | [] => none
    | c :: r =>
      if c = ')' then some (.tuple acc, r)
      else
        match expr R n (c :: r) with
        | none => none
        | some (v, u) =>
          match skip u with
          | [] => none
          | c :: r =>
            if c = ',' then elements R n (acc ++ [v]) r
            else if c = ')' then
              match acc with
              | [] => some (v, r)
              | acc => some (.tuple (acc ++ [v]), r)
            else none

/-- After `MappingProxyType({`: the entries of a dictionary, each followed by a comma, and the closing
brackets.  Of equal keys the last counts. -/
def members (R : Reader F) : Nat → List (Text × Val F) → Text → Option (Val F × Text)
  | 0, _, _ => none
  | n + 1, acc, t =>
    match skip t with
    | [] => none
    | c :: r =>
      if c = '}' then (eat ")".toList (skip r)).map fun r => (.mapping acc, r)
      else
        match R.string (c :: r) with
        | none => none
        | some (k, u) =>
          match eat ":".toList (skip u) with
          | none => none
          | some u =>
            match expr R n u with
            | none => none
            | some (v, u) =>
              match eat ",".toList (skip u) with
              | none => none
              | some r => members R n (Dict.put acc k v) r

end

/-- The value of an expression. -/
def eval (R : Reader F) (t : Text) : Option (Val F) :=
  match expr R (t.length + 1) t with
  | some (v, u) => if skip u = [] then some v else none
  | none => none

/-- The value that a number stands for. -/
def numValue : Num F → Val F
  | .nan => .float .nan
  | .inf s => .float (.inf s)
  | .floating f => .float (.fin f)
  | .whole i => .int i

mutual

/-- The value that a node stands for. -/
def value : Node F → Val F
  | .null => .none
  | .bool b => .bool b
  | .num n => numValue n
  | .str s => .str s
  | .arr l => .tuple (values l)
  | .obj l => .mapping (entries l)

def values : Nodes F → List (Val F)
  | .nil => []
  | .cons x r => value x :: values r

def entries : Members F → List (Text × Val F)
  | .nil => []
  | .cons k x r => (k, value x) :: entries r

end

def Members.keys : Members F → List Text
  | .nil => []
  | .cons k _ r => k :: r.keys

mutual

/-- Integers have at most 64 bits, and the keys of an object differ. -/
def Fits : Node F → Prop
  | .num (.whole i) => -9223372036854775808 ≤ i ∧ i < 9223372036854775808
  | .arr l => FitsAll l
  | .obj l => l.keys.Nodup ∧ FitsMembers l
  | _ => True

def FitsAll : Nodes F → Prop
  | .nil => True
  | .cons x r => Fits x ∧ FitsAll r

def FitsMembers : Members F → Prop
  | .nil => True
  | .cons _ x r => Fits x ∧ FitsMembers r

end

/-- What can follow a value: the end, or one of these characters. -/
def Stop (t : Text) : Prop := t = [] ∨ ∃ c r, t = c :: r ∧ (c = ',' ∨ c = ':' ∨ c = ')')

/-- The libraries fit together: Python reads the string and floating point literals that are written as
what they were written for. -/
structure Agree (L : Library F) (R : Reader F) : Prop where
  /-- Literals of strings begin with a quotation mark. -/
  quoted : ∀ i s, ∃ r, L.quote i s = '"' :: r
  strings : ∀ i s t, Stop t → R.string (L.quote i s ++ t) = some (s, t)
  /-- Floating point numbers begin with a digit or a minus sign, are made of the characters of numbers,
  and are not integers (`Double.toString` always has a point). -/
  numeric : ∀ f, ∃ c r, L.double f = c :: r ∧ (isDigit c ∨ c = '-') ∧
    (∀ d ∈ c :: r, isNumeric d) ∧ isInteger (c :: r) = false
  floats : ∀ f, R.float (L.double f) = some f
  /-- Indentation is made of spaces. -/
  step : ∀ c ∈ L.step, c = ' '

/-! ## Lemmas -/

mutual

/-- Fuel that is enough. -/
def need : Node F → Nat
  | .arr l => needAll l + 1
  | .obj l => needMembers l + 1
  | _ => 1

def needAll : Nodes F → Nat
  | .nil => 1
  | .cons x r => need x + needAll r + 1

def needMembers : Members F → Nat
  | .nil => 1
  | .cons _ x r => need x + needMembers r + 1

end

theorem skip_spaces (s t : Text) (h : ∀ c ∈ s, isSpace c = true) : skip (s ++ t) = skip t := by
  induction s with
  | nil => rfl
  | cons c s ih =>
    rw [List.cons_append, skip, List.dropWhile_cons, if_pos (h c List.mem_cons_self)]
    exact ih fun d hd => h d (List.mem_cons_of_mem _ hd)

theorem skip_cons {c : Char} (t : Text) (h : isSpace c = false) : skip (c :: t) = c :: t := by
  rw [skip, List.dropWhile_cons, h]
  rfl

theorem eat_append (p t : Text) : eat p (p ++ t) = some t := by
  rw [eat, if_pos (by simp)]
  simp

theorem eat_none (p q t : Text) (h : (p.zip q).any (fun e => e.1 != e.2) = true) :
    eat p (q ++ t) = none := by
  have hp : ∀ p q : Text, (p.zip q).any (fun e => e.1 != e.2) = true →
      p.isPrefixOf (q ++ t) = false := by
    intro p
    induction p with
    | nil => intro q h; simp at h
    | cons c p ih =>
      intro q h
      cases q with
      | nil => simp at h
      | cons d q =>
        rw [List.zip_cons_cons, List.any_cons, Bool.or_eq_true] at h
        rw [List.cons_append, List.isPrefixOf_cons_cons]
        rcases h with h | h
        · have : (c == d) = false := by simpa using h
          rw [this]
          rfl
        · rw [ih q h, Bool.and_false]
  rw [eat, hp p q h]
  rfl

/-- Reading names. -/
theorem expr_keyword (R : Reader F) (w t : Text) (v : Val F) (n : Nat)
    (hk : keyword (w ++ t) = some (v, t))
    (hw : ∃ c r, w = c :: r ∧ isSpace c = false ∧ c ≠ '"' ∧ c ≠ '(' ∧ ¬ (isDigit c ∨ c = '-'))
    (hm : (mappingProxy.zip w).any (fun e => e.1 != e.2) = true) :
    expr R (n + 1) (w ++ t) = some (v, t) := by
  have h := eat_none _ _ t hm
  obtain ⟨c, r, rfl, h1, h2, h3, h4⟩ := hw
  rw [List.cons_append] at h hk ⊢
  rw [expr, skip_cons _ h1]
  dsimp only
  rw [if_neg h2, if_neg h3, if_neg h4, h]
  exact hk

theorem longValue_id {i : Int} (h : -9223372036854775808 ≤ i ∧ i < 9223372036854775808) :
    longValue i = i := by
  unfold longValue
  omega

theorem fits_whole (i : Int) : Fits (F := F) (.num (.whole i)) ↔
    -9223372036854775808 ≤ i ∧ i < 9223372036854775808 := by
  simp only [Fits]

theorem digit_range {c : Char} (h : isDigit c = true) : '0'.toNat ≤ c.toNat ∧ c.toNat ≤ '9'.toNat := by
  simp only [isDigit, Scalars.Strict.ascii, Bool.and_eq_true, decide_eq_true_eq] at h
  exact h

theorem digit_ne {c d : Char} (h : isDigit c = true) (hd : isDigit d = false) : c ≠ d := by
  rintro rfl
  rw [h] at hd
  cases hd

theorem intText_shape (i : Int) : ∃ c r, Numerals.intText i = c :: r ∧ (isDigit c ∨ c = '-') ∧
    (∀ d ∈ c :: r, isNumeric d) ∧ isInteger (c :: r) = true := by
  have hd : ∀ n, ∀ c ∈ Numerals.natText n, isDigit c = true := Numerals.natText_ascii
  have hn : ∀ c, isDigit c = true → isNumeric c = true := by
    intro c h
    simp [isNumeric, h]
  unfold Numerals.intText
  split
  · refine ⟨'-', _, rfl, .inr rfl, fun d h => ?_, ?_⟩
    · rcases List.mem_cons.1 h with rfl | h
      · decide
      · exact hn d (hd _ d h)
    · simp only [isInteger, Bool.and_eq_true, decide_eq_true_eq, List.all_eq_true]
      exact ⟨by simpa using Numerals.natText_ne_nil _, hd _⟩
  · cases h : Numerals.natText i.natAbs with
    | nil => exact absurd h (Numerals.natText_ne_nil _)
    | cons c r =>
      have hall := hd i.natAbs
      rw [h] at hall
      refine ⟨c, r, rfl, .inl (hall c List.mem_cons_self), fun d h => hn d (hall d h), ?_⟩
      have hc := Numerals.natText_head_ne _ c r h
      unfold isInteger
      split
      · rename_i heq
        exact absurd (List.cons.inj heq).1 hc
      · simp only [Bool.and_eq_true, List.all_eq_true]
        exact ⟨by simp, hall⟩

theorem stop_numeric {t : Text} (h : Stop t) : t.takeWhile isNumeric = [] ∧ t.dropWhile isNumeric = t := by
  rcases h with rfl | ⟨c, r, rfl, h⟩
  · exact ⟨rfl, rfl⟩
  · have : isNumeric c = false := by
      rcases h with rfl | rfl | rfl <;> decide
    rw [List.takeWhile_cons, List.dropWhile_cons, this]
    exact ⟨rfl, rfl⟩

/-- Reading numbers. -/
theorem expr_number (R : Reader F) {w t : Text} {c : Char} {r : Text} (hw : w = c :: r)
    (hc : isDigit c ∨ c = '-') (ha : ∀ d ∈ c :: r, isNumeric d) (ht : Stop t) {v : Val F}
    (hv : number R w = some v) (n : Nat) : expr R (n + 1) (w ++ t) = some (v, t) := by
  subst hw
  have hs : isSpace c = false := by
    rcases hc with hc | rfl
    · simp only [isSpace, Bool.or_eq_false_iff, decide_eq_false_iff_not]
      exact ⟨digit_ne hc (by decide), digit_ne hc (by decide)⟩
    · decide
  have h1 : c ≠ '"' := by
    rcases hc with hc | rfl
    · exact digit_ne hc (by decide)
    · decide
  have h2 : c ≠ '(' := by
    rcases hc with hc | rfl
    · exact digit_ne hc (by decide)
    · decide
  rw [expr, List.cons_append, skip_cons _ hs]
  show (if c = '"' then _ else _) = _
  rw [if_neg h1, if_neg h2, if_pos hc]
  have e1 : (c :: (r ++ t)).takeWhile isNumeric = c :: r := by
    rw [← List.cons_append, List.takeWhile_append_of_pos ha, (stop_numeric ht).1, List.append_nil]
  have e2 : (c :: (r ++ t)).dropWhile isNumeric = t := by
    rw [← List.cons_append, List.dropWhile_append_of_pos ha, (stop_numeric ht).2]
  rw [e1, e2, hv]
  rfl

theorem expr_open (R : Reader F) (n : Nat) (t : Text) (v : Val F × Text)
    (h : elements R n [] t = some v) : expr R (n + 1) ('(' :: t) = some v := by
  rw [expr, skip_cons _ (by decide)]
  dsimp only
  rw [if_neg (by decide), if_pos rfl, h]

theorem expr_mapping (R : Reader F) (n : Nat) (t : Text) (v : Val F × Text)
    (h : members R n [] t = some v) :
    expr R (n + 1) (mappingProxy ++ t) = some v := by
  have e := eat_append mappingProxy t
  have e2 : ∃ r, mappingProxy ++ t = 'M' :: r := ⟨_, rfl⟩
  obtain ⟨r, hr⟩ := e2
  rw [hr] at e ⊢
  rw [expr, skip_cons _ (by decide)]
  dsimp only
  rw [if_neg (by decide), if_neg (by decide), if_neg (by decide), e]
  exact h

/-- What is written begins with none of these. -/
theorem write_head {L : Library F} {R : Reader F} (A : Agree L R) (i : Text) (x : Node F) :
    ∃ c r, write L i x = c :: r ∧ isSpace c = false ∧ c ≠ ')' ∧ c ≠ '}' := by
  have hn : ∀ c, (isDigit c ∨ c = '-') → isSpace c = false ∧ c ≠ ')' ∧ c ≠ '}' := by
    rintro c (hc | rfl)
    · refine ⟨?_, digit_ne hc (by decide), digit_ne hc (by decide)⟩
      simp only [isSpace, Bool.or_eq_false_iff, decide_eq_false_iff_not]
      exact ⟨digit_ne hc (by decide), digit_ne hc (by decide)⟩
    · decide
  cases x with
  | null => exact ⟨'N', _, rfl, by decide, by decide, by decide⟩
  | bool b =>
    cases b
    · exact ⟨'F', _, rfl, by decide, by decide, by decide⟩
    · exact ⟨'T', _, rfl, by decide, by decide, by decide⟩
  | num n =>
    cases n with
    | nan => exact ⟨'f', _, rfl, by decide, by decide, by decide⟩
    | inf s =>
      cases s
      · exact ⟨'f', _, rfl, by decide, by decide, by decide⟩
      · exact ⟨'f', _, rfl, by decide, by decide, by decide⟩
    | floating f =>
      obtain ⟨c, r, h, hc, _⟩ := A.numeric f
      exact ⟨c, r, h, hn c hc⟩
    | whole j =>
      obtain ⟨c, r, h, hc, _⟩ := intText_shape (longValue j)
      exact ⟨c, r, h, hn c hc⟩
  | str s =>
    obtain ⟨r, h⟩ := A.quoted i s
    exact ⟨'"', r, h, by decide, by decide, by decide⟩
  | arr l =>
    cases l
    · exact ⟨'(', _, rfl, by decide, by decide, by decide⟩
    · exact ⟨'(', _, rfl, by decide, by decide, by decide⟩
  | obj l =>
    cases l
    · exact ⟨'M', _, rfl, by decide, by decide, by decide⟩
    · exact ⟨'M', _, rfl, by decide, by decide, by decide⟩

theorem put_new {K V : Type} [DecidableEq K] (k : K) (v : V) : ∀ d : List (K × V),
    k ∉ d.map Prod.fst → Dict.put d k v = d ++ [(k, v)]
  | [], _ => rfl
  | e :: d, h => by
    simp only [List.map_cons, List.mem_cons, not_or] at h
    rw [Dict.put, if_neg (Ne.symm h.1), put_new k v d h.2]
    rfl

theorem spaces_append {i s : Text} (hi : ∀ c ∈ i, c = ' ') (hs : ∀ c ∈ s, c = ' ') :
    ∀ c ∈ i ++ s, c = ' ' := by
  intro c hc
  rcases List.mem_append.1 hc with h | h
  · exact hi c h
  · exact hs c h

theorem space_of {i : Text} (hi : ∀ c ∈ i, c = ' ') : ∀ c ∈ i, isSpace c = true := by
  intro c hc
  rw [hi c hc]
  rfl

theorem expr_null (R : Reader F) (t : Text) (n : Nat) :
    expr R (n + 1) ("None".toList ++ t) = some (.none, t) := by
  refine expr_keyword R _ t _ n ?_ ⟨_, _, rfl, by decide⟩ (by decide)
  rw [keyword, eat_append]

theorem expr_true (R : Reader F) (t : Text) (n : Nat) :
    expr R (n + 1) ("True".toList ++ t) = some (.bool true, t) := by
  refine expr_keyword R _ t _ n ?_ ⟨_, _, rfl, by decide⟩ (by decide)
  rw [keyword, eat_none "None".toList "True".toList t (by decide), eat_append]

theorem expr_false (R : Reader F) (t : Text) (n : Nat) :
    expr R (n + 1) ("False".toList ++ t) = some (.bool false, t) := by
  refine expr_keyword R _ t _ n ?_ ⟨_, _, rfl, by decide⟩ (by decide)
  rw [keyword, eat_none "None".toList "False".toList t (by decide), eat_none "True".toList "False".toList t (by decide), eat_append]

theorem expr_nan (R : Reader F) (t : Text) (n : Nat) :
    expr R (n + 1) ("float('NaN')".toList ++ t) = some (.float .nan, t) := by
  refine expr_keyword R _ t _ n ?_ ⟨_, _, rfl, by decide⟩ (by decide)
  rw [keyword, eat_none "None".toList "float('NaN')".toList t (by decide), eat_none "True".toList "float('NaN')".toList t (by decide), eat_none "False".toList "float('NaN')".toList t (by decide), eat_append]

theorem expr_inf (R : Reader F) (t : Text) (n : Nat) :
    expr R (n + 1) ("float('inf')".toList ++ t) = some (.float (.inf false), t) := by
  refine expr_keyword R _ t _ n ?_ ⟨_, _, rfl, by decide⟩ (by decide)
  rw [keyword, eat_none "None".toList "float('inf')".toList t (by decide), eat_none "True".toList "float('inf')".toList t (by decide), eat_none "False".toList "float('inf')".toList t (by decide), eat_none "float('NaN')".toList "float('inf')".toList t (by decide), eat_append]

theorem expr_ninf (R : Reader F) (t : Text) (n : Nat) :
    expr R (n + 1) ("float('-inf')".toList ++ t) = some (.float (.inf true), t) := by
  refine expr_keyword R _ t _ n ?_ ⟨_, _, rfl, by decide⟩ (by decide)
  rw [keyword, eat_none "None".toList "float('-inf')".toList t (by decide), eat_none "True".toList "float('-inf')".toList t (by decide), eat_none "False".toList "float('-inf')".toList t (by decide), eat_none "float('NaN')".toList "float('-inf')".toList t (by decide), eat_none "float('inf')".toList "float('-inf')".toList t (by decide), eat_append]

mutual

theorem expr_write {L : Library F} {R : Reader F} (A : Agree L R) : ∀ (x : Node F) (i t : Text)
    (n : Nat), Fits x → Stop t → (∀ c ∈ i, c = ' ') → need x ≤ n →
    expr R n (write L i x ++ t) = some (value x, t)
  | x, _, _, 0, _, _, _, hn => by
    exfalso
    cases x <;> simp [need] at hn
  | .null, _, t, n + 1, _, _, _, _ => expr_null R t n
  | .bool true, _, t, n + 1, _, _, _, _ => expr_true R t n
  | .bool false, _, t, n + 1, _, _, _, _ => expr_false R t n
  | .num .nan, _, t, n + 1, _, _, _, _ => expr_nan R t n
  | .num (.inf true), _, t, n + 1, _, _, _, _ => expr_ninf R t n
  | .num (.inf false), _, t, n + 1, _, _, _, _ => expr_inf R t n
  | .num (.floating f), i, t, n + 1, _, ht, _, _ => by
    obtain ⟨c, r, h, hc, ha, hi⟩ := A.numeric f
    refine expr_number R h hc ha ht ?_ n
    rw [number, h, hi, ← h, A.floats]
    rfl
  | .num (.whole j), i, t, n + 1, hf, ht, _, _ => by
    obtain ⟨c, r, h, hc, ha, hi⟩ := intText_shape (longValue j)
    refine expr_number R h hc ha ht ?_ n
    rw [number, h, hi, ← h, Numerals.intValue_intText, longValue_id ((fits_whole j).1 hf)]
    rfl
  | .str s, i, t, n + 1, _, ht, _, _ => by
    have h := A.strings i s t ht
    obtain ⟨r, hr⟩ := A.quoted i s
    show expr R (n + 1) (L.quote i s ++ t) = some (.str s, t)
    rw [expr]
    rw [hr, List.cons_append] at h ⊢
    rw [skip_cons _ (by decide)]
    dsimp only
    rw [if_pos rfl, h]
    rfl
  | .arr .nil, i, t, n + 1, _, _, _, hn => by
    obtain ⟨m, rfl⟩ : ∃ m, n = m + 1 := ⟨n - 1, by simp [need, needAll] at hn; omega⟩
    rw [show write L i (.arr .nil) = ['(', ')'] by simp [write]]
    exact expr_open R (m + 1) (')' :: t) _ (by rw [elements, skip_cons _ (by decide)]; rfl)
  | .arr (.cons x r), i, t, n + 1, hf, _, hi, hn => by
    have h := elements_write A (.cons x r) ['\n'] i (i ++ L.step) t n [] hf
      (spaces_append hi A.step) hi (by simp [isSpace]) (by rw [need] at hn; omega)
    have e : write L i (.arr (.cons x r)) ++ t =
        '(' :: (['\n'] ++ writeElements L (i ++ L.step) (.cons x r) ++ i ++ ')' :: t) := by
      simp [write]
    rw [e]
    exact expr_open R n _ _ h
  | .obj .nil, i, t, n + 1, _, _, _, hn => by
    obtain ⟨m, rfl⟩ : ∃ m, n = m + 1 := ⟨n - 1, by simp [need, needMembers] at hn; omega⟩
    rw [show write L i (.obj .nil) = mappingProxy ++ ['}', ')'] by simp [write], List.append_assoc]
    exact expr_mapping R (m + 1) _ _ (by
      show members R (m + 1) [] ('}' :: ')' :: t) = _
      rw [members, skip_cons _ (by decide)]; rfl)
  | .obj (.cons k x r), i, t, n + 1, hf, _, hi, hn => by
    have h := members_write A (.cons k x r) ['\n'] i (i ++ L.step) t n [] hf.2 (by simpa using hf.1)
      (spaces_append hi A.step) hi (by simp [isSpace]) (by rw [need] at hn; omega)
    have e : write L i (.obj (.cons k x r)) ++ t = mappingProxy ++
        (['\n'] ++ writeMembers L (i ++ L.step) (.cons k x r) ++ i ++ '}' :: ')' :: t) := by
      simp [write]
    rw [e]
    exact expr_mapping R n _ _ h

theorem elements_write {L : Library F} {R : Reader F} (A : Agree L R) : ∀ (l : Nodes F)
    (s o i t : Text) (n : Nat) (acc : List (Val F)), FitsAll l → (∀ c ∈ i, c = ' ') →
    (∀ c ∈ o, c = ' ') → (∀ c ∈ s, isSpace c = true) → needAll l ≤ n →
    elements R n acc (s ++ writeElements L i l ++ o ++ ')' :: t) = some (.tuple (acc ++ values l), t)
  | l, _, _, _, _, 0, _, _, _, _, _, hn => by
    exfalso
    cases l <;> simp [needAll] at hn
  | .nil, s, o, i, t, n + 1, acc, _, _, ho, hs, _ => by
    rw [elements, writeElements, List.append_nil, List.append_assoc, skip_spaces s _ hs,
      skip_spaces o _ (space_of ho), skip_cons _ (by decide)]
    show (if ')' = ')' then _ else _) = _
    rw [if_pos rfl, values, List.append_nil]
  | .cons x r, s, o, i, t, n + 1, acc, hf, hi, ho, hs, hn => by
    rw [needAll] at hn
    have h1 := expr_write A x i (',' :: '\n' :: (writeElements L i r ++ o ++ ')' :: t)) n hf.1
      (.inr ⟨_, _, rfl, .inl rfl⟩) hi (by omega)
    have h2 := elements_write A r ['\n'] o i t n (acc ++ [value x]) hf.2 hi ho (by simp [isSpace])
      (by omega)
    obtain ⟨c, w, hw, hc1, hc2, _⟩ := write_head A i x
    have e : s ++ writeElements L i (.cons x r) ++ o ++ ')' :: t =
        s ++ (i ++ (write L i x ++ ',' :: '\n' :: (writeElements L i r ++ o ++ ')' :: t))) := by
      rw [writeElements]
      simp [List.append_assoc]
    rw [elements, e, skip_spaces s _ hs, skip_spaces i _ (space_of hi)]
    rw [hw, List.cons_append] at h1 ⊢
    rw [skip_cons _ hc1]
    show (if c = ')' then _ else _) = _
    rw [if_neg hc2, h1]
    dsimp only
    rw [skip_cons _ (by decide)]
    dsimp only
    rw [if_pos rfl]
    simp only [List.append_assoc, List.cons_append, List.nil_append] at h2 ⊢
    rw [h2, values]

theorem members_write {L : Library F} {R : Reader F} (A : Agree L R) : ∀ (l : Members F)
    (s o i t : Text) (n : Nat) (acc : List (Text × Val F)), FitsMembers l →
    (acc.map Prod.fst ++ l.keys).Nodup → (∀ c ∈ i, c = ' ') →
    (∀ c ∈ o, c = ' ') → (∀ c ∈ s, isSpace c = true) → needMembers l ≤ n →
    members R n acc (s ++ writeMembers L i l ++ o ++ '}' :: ')' :: t) =
      some (.mapping (acc ++ entries l), t)
  | l, _, _, _, _, 0, _, _, _, _, _, _, hn => by
    exfalso
    cases l <;> simp [needMembers] at hn
  | .nil, s, o, i, t, n + 1, acc, _, _, _, ho, hs, _ => by
    rw [members, writeMembers, List.append_nil, List.append_assoc, skip_spaces s _ hs,
      skip_spaces o _ (space_of ho), skip_cons _ (by decide)]
    show (if '}' = '}' then _ else _) = _
    rw [if_pos rfl, skip_cons _ (by decide), entries, List.append_nil]
    rfl
  | .cons k x r, s, o, i, t, n + 1, acc, hf, hk, hi, ho, hs, hn => by
    rw [needMembers] at hn
    have h1 := expr_write A x i (',' :: '\n' :: (writeMembers L i r ++ o ++ '}' :: ')' :: t)) n hf.1
      (.inr ⟨_, _, rfl, .inl rfl⟩) hi (by omega)
    have hk' : k ∉ acc.map Prod.fst := by
      intro h
      rw [List.nodup_append] at hk
      exact hk.2.2 k h k (by rw [Members.keys]; exact List.mem_cons_self) rfl
    have h2 := members_write A r ['\n'] o i t n (acc ++ [(k, value x)]) hf.2
      (by simpa [Members.keys] using hk) hi ho (by simp [isSpace]) (by omega)
    obtain ⟨w, hw⟩ := A.quoted i k
    obtain ⟨c, w', hw', hc1, _⟩ := write_head A i x
    have h3 := A.strings i k (':' :: ' ' :: (write L i x ++
      ',' :: '\n' :: (writeMembers L i r ++ o ++ '}' :: ')' :: t))) (.inr ⟨_, _, rfl, .inr (.inl rfl)⟩)
    have e : s ++ writeMembers L i (.cons k x r) ++ o ++ '}' :: ')' :: t =
        s ++ (i ++ (L.quote i k ++ ':' :: ' ' :: (write L i x ++ ',' :: '\n' ::
          (writeMembers L i r ++ o ++ '}' :: ')' :: t)))) := by
      rw [writeMembers]
      simp [List.append_assoc]
    rw [members, e, skip_spaces s _ hs, skip_spaces i _ (space_of hi)]
    rw [hw, List.cons_append] at h3 ⊢
    rw [skip_cons _ (by decide)]
    show (if '"' = '}' then _ else _) = _
    have e2 : ∀ u : Text, eat ":".toList (':' :: u) = some u := eat_append [':']
    have e3 : ∀ u : Text, eat ",".toList (',' :: u) = some u := eat_append [',']
    have e4 : ∀ u : Text, expr R n (' ' :: u) = expr R n u := by
      intro u
      cases n with
      | zero => rw [expr, expr]
      | succ n => rw [expr, expr]; rfl
    rw [if_neg (by decide), h3]
    dsimp only
    rw [skip_cons _ (by decide), e2]
    dsimp only
    rw [e4, h1]
    dsimp only
    rw [skip_cons _ (by decide), e3]
    dsimp only
    rw [put_new k _ acc hk']
    simp only [List.append_assoc, List.cons_append, List.nil_append] at h2 ⊢
    rw [h2, entries]

end

mutual

theorem need_le {L : Library F} {R : Reader F} (A : Agree L R) : ∀ (x : Node F) (i : Text),
    need x ≤ (write L i x).length + 1
  | .null, _ => by simp [need]
  | .bool _, _ => by simp [need]
  | .num _, _ => by simp [need]
  | .str _, _ => by simp [need]
  | .arr .nil, i => by simp [need, needAll, write]
  | .arr (.cons x r), i => by
    have := needAll_le A (.cons x r) (i ++ L.step)
    simp only [need, write, List.length_append]
    have e : ['(', '\n'].length = 2 := rfl
    omega
  | .obj .nil, i => by simp [need, needMembers, write]
  | .obj (.cons k x r), i => by
    have := needMembers_le A (.cons k x r) (i ++ L.step)
    simp only [need, write, List.length_append]
    have e : ['\n'].length = 1 := rfl
    omega

theorem needAll_le {L : Library F} {R : Reader F} (A : Agree L R) : ∀ (l : Nodes F) (i : Text),
    needAll l ≤ (writeElements L i l).length + 1
  | .nil, _ => by simp [needAll]
  | .cons x r, i => by
    have h1 := need_le A x i
    have h2 := needAll_le A r i
    simp only [needAll, writeElements, List.length_append]
    have e : [',', '\n'].length = 2 := rfl
    omega

theorem needMembers_le {L : Library F} {R : Reader F} (A : Agree L R) : ∀ (l : Members F) (i : Text),
    needMembers l ≤ (writeMembers L i l).length + 1
  | .nil, _ => by simp [needMembers]
  | .cons k x r, i => by
    have h1 := need_le A x i
    have h2 := needMembers_le A r i
    simp only [needMembers, writeMembers, List.length_append]
    have e : [',', '\n'].length = 2 := rfl
    omega

end

/-! ## Properties -/

/-- The expression that is written for a node has the value that the node stands for, if integers have
at most 64 bits. -/
theorem C112_literals_partial {L : Library F} {R : Reader F} (A : Agree L R) (x : Node F) (i : Text)
    (hi : ∀ c ∈ i, c = ' ') (hx : Fits x) : eval R (write L i x) = some (value x) := by
  have h := expr_write A x i [] ((write L i x).length + 1) hx (.inl rfl) hi (need_le A x i)
  rw [List.append_nil] at h
  rw [eval, h]
  rfl

/-- The same in the place of an argument: what follows is left. -/
theorem C112_argument_partial {L : Library F} {R : Reader F} (A : Agree L R) (x : Node F) (i t : Text)
    (hi : ∀ c ∈ i, c = ' ') (hx : Fits x) (n : Nat) (hn : (write L i x).length < n) :
    expr R n (write L i x ++ ')' :: t) = some (value x, ')' :: t) :=
  expr_write A x i _ n hx (.inr ⟨_, _, rfl, .inr (.inr rfl)⟩) hi
    (Nat.le_trans (need_le A x i) hn)

/-- Other integers are written with their lowest 64 bits, and mean something else. -/
theorem C112_integers_fails {L : Library F} {R : Reader F} (A : Agree L R) (j : Int)
    (h : j < -9223372036854775808 ∨ 9223372036854775808 ≤ j) :
    ∃ k, k ≠ j ∧ eval R (write L [] (.num (.whole j))) = some (.int k) := by
  have hb : -9223372036854775808 ≤ longValue j ∧ longValue j < 9223372036854775808 := by
    unfold longValue
    omega
  refine ⟨longValue j, by omega, ?_⟩
  have h2 : eval R (Numerals.intText (longValue (longValue j))) = some (.int (longValue j)) :=
    C112_literals_partial A (.num (.whole (longValue j))) [] (by simp) ((fits_whole _).2 hb)
  rw [longValue_id hb] at h2
  exact h2

/-! ## Examples -/

namespace Example

/-- Escapes as in Java and Python. -/
def escape : Text → Text
  | [] => []
  | c :: s =>
    if c = '"' then '\\' :: '"' :: escape s
    else if c = '\\' then '\\' :: '\\' :: escape s
    else if c = '\n' then '\\' :: 'n' :: escape s
    else c :: escape s

/-- The rest of a string literal, and what follows it. -/
def unescape : Text → Option (Text × Text)
  | [] => none
  | c :: t =>
    if c = '"' then some ([], t)
    else if c = '\\' then
      match t with
      | [] => none
      | d :: t => (unescape t).map fun p => ((if d = 'n' then '\n' else d) :: p.1, p.2)
    else (unescape t).map fun p => (c :: p.1, p.2)

theorem unescape_quote (t : Text) : unescape ('"' :: t) = some ([], t) := by
  cases t <;> simp [unescape]

theorem unescape_plain (c : Char) (t : Text) (h1 : c ≠ '"') (h2 : c ≠ '\\') :
    unescape (c :: t) = (unescape t).map fun p => (c :: p.1, p.2) := by
  cases t <;> simp [unescape, h1, h2]

theorem unescape_escape (t : Text) : ∀ s : Text, unescape (escape s ++ '"' :: t) = some (s, t)
  | [] => by
    simp [escape, unescape_quote]
  | c :: s => by
    have ih := unescape_escape t s
    rw [escape]
    by_cases h1 : c = '"'
    · subst h1
      simp [unescape, ih]
    · by_cases h2 : c = '\\'
      · subst h2
        simp [unescape, ih]
      · by_cases h3 : c = '\n'
        · subst h3
          simp [unescape, ih]
        · rw [if_neg h1, if_neg h2, if_neg h3, List.cons_append, unescape_plain c _ h1 h2,
            ih]
          rfl

/-- Floating point numbers are taken to be integers here, written with a point and a zero. -/
def library : Library Int where
  quote _ s := '"' :: (escape s ++ ['"'])
  double f := Numerals.intText f ++ ['.', '0']
  step := [' ', ' ', ' ', ' ']

def reader : Reader Int where
  string t := unescape t.tail
  float w := some (Numerals.intValue w.dropLast.dropLast)

theorem agree : Agree library reader where
  quoted i s := ⟨_, rfl⟩
  strings i s t _ := by
    show unescape ((escape s ++ ['"']) ++ t) = _
    rw [List.append_assoc]
    exact unescape_escape t s
  numeric f := by
    obtain ⟨c, r, h, h1, h2, _⟩ := intText_shape f
    refine ⟨c, r ++ ['.', '0'], by show Numerals.intText f ++ _ = _; rw [h]; rfl, h1, ?_, ?_⟩
    · intro d hd
      rw [← List.cons_append] at hd
      rcases List.mem_append.1 hd with hd | hd
      · exact h2 d hd
      · rcases List.mem_cons.1 hd with rfl | hd
        · decide
        · rw [List.mem_singleton.1 hd]; decide
    · have hall : ∀ u : Text, (u ++ ['.', '0']).all isDigit = false := by
        intro u
        rw [List.all_append]
        have : ['.', '0'].all isDigit = false := by decide
        rw [this, Bool.and_false]
      unfold isInteger
      split
      · rename_i t heq
        obtain ⟨_, ht⟩ := List.cons.inj heq
        rw [← ht, hall r, Bool.and_false]
      · rw [← List.cons_append, hall (c :: r), Bool.and_false]
  floats f := by
    show some (Numerals.intValue (Numerals.intText f ++ ['.', '0']).dropLast.dropLast) = _
    rw [show Numerals.intText f ++ ['.', '0'] = (Numerals.intText f ++ ['.']) ++ ['0'] by simp,
      List.dropLast_concat, List.dropLast_concat, Numerals.intValue_intText]
  step c hc := by
    simp only [library, List.mem_cons, List.not_mem_nil, or_false, or_self] at hc
    exact hc

def sample : Node Int :=
  .obj (.cons "http".toList (.arr (.cons (.str "http/1.1".toList) .nil))
    (.cons "n".toList (.num (.whole (-5))) .nil))

/-- What is written for it. -/
example : write library [] sample =
    "MappingProxyType({\n    \"http\": (\n        \"http/1.1\",\n    ),\n    \"n\": -5,\n})".toList := by
  decide +kernel

example : eval reader (write library [] sample) =
    some (.mapping [("http".toList, .tuple [.str "http/1.1".toList]), ("n".toList, .int (-5))]) :=
  C112_literals_partial agree sample [] (by simp) (by
    simp only [sample, Fits, FitsAll, FitsMembers, Members.keys, and_true, true_and]
    exact ⟨by decide, by omega⟩)

/-- Without the comma it would not be a tuple. -/
example : eval reader "(5)".toList = some (.int 5) ∧ eval reader "(5,)".toList = some (.tuple [.int 5]) :=
  ⟨rfl, rfl⟩

/-- A default of 2^63 becomes -2^63. -/
example : write library [] (.num (.whole 9223372036854775808)) = "-9223372036854775808".toList := by
  decide +kernel

end Example

end Verif.Literals
