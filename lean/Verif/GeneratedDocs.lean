import Mathlib.Tactic.Common
import Verif.Common
import Verif.Text

/-!
# Documentation in generated code (C116)

Documentation of a service becomes docstrings: pandoc makes Markdown of it, MarkdownConverter.java mends
the result so that it can stand in a string literal, and PythonWriter.java writes it between triple quotes.
-/

set_option autoImplicit false

namespace Verif.GeneratedDocs

abbrev Text := List Char

/-! ## Model -/

/-- `String.trim` of Java: characters up to the space are removed at both ends. -/
def trimChar (c : Char) : Bool := c.toNat ≤ 32

def trimEnd (p : Char → Bool) (t : Text) : Text := (t.reverse.dropWhile p).reverse

def trim (t : Text) : Text := trimEnd trimChar (t.dropWhile trimChar)

/-- `VALID_ESCAPE_CHARS` (MarkdownConverter.java:186-188). -/
def validEscape : List Char :=
  ['\\', '"', 'a', 'b', 'f', 'n', 'r', 't', 'v', '0', '1', '2', '3', '4', '5', '6', '7', 'x', 'N', 'u', 'U',
    '\r', '\n']

/-- `MARKDOWN_ONLY_CHARS` (MarkdownConverter.java:183-185). -/
def markdownOnly : List Char :=
  ['[', ']', '(', ')', '{', '}', '<', '>', '`', '@', '_', '*', '|', '!', '~', '$', '#', '^', '\'', '.']

/-- The number of backslashes written for `n` of them in a row before a character
(MarkdownConverter.java:206-215). -/
def kept (n : Nat) (c : Char) : Nat :=
  n / 2 * 2 + if n % 2 ≠ 0 then (if c ∈ validEscape then 1 else if c ∉ markdownOnly then 2 else 0) else 0

/-- `normalizeBackslashEscapes` (MarkdownConverter.java:189-220), after `n` backslashes. -/
def normalizeFrom : Nat → Text → Text
  | n, [] => List.replicate (n / 2 * 2 + if n % 2 ≠ 0 then 2 else 0) '\\'
  | n, c :: r =>
    if c = '\\' then normalizeFrom (n + 1) r
    else List.replicate (kept n c) '\\' ++ c :: normalizeFrom 0 r

def normalize (t : Text) : Text := normalizeFrom 0 t

/-- The text before the first place where `close` stands, and the text after it. -/
def splitAt (close : Text) : Text → Option (Text × Text)
  | [] => if close.isPrefixOf [] then some ([], []) else none
  | c :: r =>
    if close.isPrefixOf (c :: r) then some ([], (c :: r).drop close.length)
    else (splitAt close r).map fun p => (c :: p.1, p.2)

/-- What takes the place of a tag with its content (MarkdownConverter.java:237-247).  The white space that
the regular expression leaves out at the ends of the content is part of what `trim` removes. -/
def admonition (label raw : Text) : Text :=
  trim (label ++ [':', '\n'] ++
    (Text.split '\n' (trim raw)).flatMap fun line => [' ', ' ', ' ', ' '] ++ trim line ++ ['\n'])

/-- The matches of `<tag>\s*([\s\S]*?)\s*</tag>` replaced one after the other
(MarkdownConverter.java:230-252); the number is for Lean only, and is the length of the text. -/
def replaceFrom (opening closing label : Text) : Nat → Text → Text
  | 0, t => t
  | _, [] => []
  | n + 1, c :: r =>
    match if opening.isPrefixOf (c :: r) then splitAt closing ((c :: r).drop opening.length) else none with
    | some (raw, rest) => admonition label raw ++ replaceFrom opening closing label n rest
    | none => c :: replaceFrom opening closing label n r

/-- `replaceAdmonitionTags` (MarkdownConverter.java:230-252). -/
def replaceTag (opening closing label : Text) (t : Text) : Text :=
  replaceFrom opening closing label t.length t

def noteOpen : Text := ['<', 'n', 'o', 't', 'e', '>']
def noteClose : Text := ['<', '/', 'n', 'o', 't', 'e', '>']
def importantOpen : Text := ['<', 'i', 'm', 'p', 'o', 'r', 't', 'a', 'n', 't', '>']
def importantClose : Text := ['<', '/', 'i', 'm', 'p', 'o', 'r', 't', 'a', 'n', 't', '>']

/-- What `postProcessPandocOutput` makes of the text read from pandoc, but for the dollar signs
(MarkdownConverter.java:167-177). -/
def mend (out : Text) : Text :=
  replaceTag importantOpen importantClose "Warning".toList
    (replaceTag noteOpen noteClose "Note".toList (normalize (trim out)))

/-- `output.replace("$", "$$")` (MarkdownConverter.java:179-180). -/
def escapeDollars (t : Text) : Text := t.flatMap fun c => if c = '$' then ['$', '$'] else [c]

/-- `formatDocs` (PythonWriter.java:204-206; MarkdownConverter.java:51-71) for documentation that is not
empty.  Pandoc, and what is done to its input, is not modelled: `out` is the text that is read from it. -/
def formatDocs (out : Text) : Text := escapeDollars (mend out)

/-- `write` of Smithy's writer without arguments: two dollar signs stand for one, and one alone begins an
expression, which there are no arguments for. -/
def format : Text → Option Text
  | [] => some []
  | '$' :: '$' :: r => (format r).map ('$' :: ·)
  | '$' :: _ => none
  | c :: r => (format r).map (c :: ·)

/-- A line as Smithy's writer has it: indented if it is not empty, without spaces at the end
(`trimTrailingSpaces`, PythonWriter.java:78). -/
def writeLine (indent line : Text) : Text :=
  if line = [] then [] else trimEnd (· = ' ') (indent ++ line)

/-- `trimBlankLines` (PythonWriter.java:77): of blank lines in a row only the first is kept.  `ws` is
`Character.isWhitespace`. -/
def dropBlank (ws : Char → Bool) : Bool → List Text → List Text
  | _, [] => []
  | blank, l :: ls =>
    if l.all ws then (if blank then dropBlank ws true ls else l :: dropBlank ws true ls)
    else l :: dropBlank ws false ls

def tripleQuote : Text := ['"', '"', '"']

/-- `writeSingleLineDocs` (PythonWriter.java:122-130), from the opening quotes on.  `ws` is
`Character.isWhitespace` (`trimTrailingWhitespaces`, 171-193). -/
def singleLine (ws : Char → Bool) (t : Text) : Text := tripleQuote ++ trimEnd ws t ++ tripleQuote

/-- `writeMultiLineDocs` (PythonWriter.java:138-147), from the opening quotes on. -/
def multiLine (ws : Char → Bool) (indent t : Text) : Text :=
  tripleQuote ++ '\n' ::
    (dropBlank ws false ((Text.split '\n' (trimEnd ws t)).map (writeLine indent))).flatMap (· ++ ['\n']) ++
    indent ++ tripleQuote

/-- `writeDocs` (PythonWriter.java:156-164): what is in the file from the opening to the closing quotes. -/
def writeDocs (ws : Char → Bool) (indent out : Text) : Option Text :=
  (format (formatDocs out)).map fun t =>
    if '\n' ∈ formatDocs out then multiLine ws indent t else singleLine ws t

/-- The docstring of an operation (ClientGenerator.java:197-225): the documentation is an argument of the
template, so its dollar signs are not looked at again.  `tail` is what follows it in the template, with the
names of input and output put in. -/
def writeOperationDocs (ws : Char → Bool) (indent out tail : Text) : Text :=
  multiLine ws indent (formatDocs out ++ tail)

/-! ## Specification -/

/-- Python's lexer after three opening quotes: a backslash and the character after it belong together, and
the first three quotes in a row end the literal.  The result is the text between the quotes, and what
follows. -/
def scan : Text → Option (Text × Text)
  | [] => none
  | c :: r =>
    if c = '\\' then
      match r with
      | [] => none
      | d :: r' => (scan r').map fun p => (c :: d :: p.1, p.2)
    else if ['"', '"'].isPrefixOf r ∧ c = '"' then some ([], r.drop 2)
    else (scan r).map fun p => (c :: p.1, p.2)

def octalDigit (c : Char) : Bool := '0' ≤ c && c ≤ '7'

def hexValue (t : Text) : Option Nat :=
  t.foldlM (fun n c =>
    if '0' ≤ c ∧ c ≤ '9' then some (n * 16 + (c.toNat - 48))
    else if 'a' ≤ c ∧ c ≤ 'f' then some (n * 16 + (c.toNat - 87))
    else if 'A' ≤ c ∧ c ≤ 'F' then some (n * 16 + (c.toNat - 55))
    else none) 0

def charOf (n : Nat) : Option Char := if n.isValidChar then some (Char.ofNat n) else none

def octal (t : Text) : Char := Char.ofNat (t.foldl (fun n c => n * 8 + (c.toNat - 48)) 0)

/-- Escape sequences of one character. -/
def simpleEscape : Char → Option Text
  | '\n' => some []
  | '\r' => some []
  | '\\' => some ['\\']
  | '\'' => some ['\'']
  | '"' => some ['"']
  | 'a' => some [Char.ofNat 7]
  | 'b' => some [Char.ofNat 8]
  | 'f' => some [Char.ofNat 12]
  | 'n' => some ['\n']
  | 'r' => some ['\r']
  | 't' => some ['\t']
  | 'v' => some [Char.ofNat 11]
  | _ => none

/-- The value of a string literal; nothing if Python refuses an escape sequence or warns about it.
Simplified: sequences for surrogates and `\N{…}` have no value. -/
def decode : Text → Option Text
  | [] => some []
  | c :: r =>
    if c = '\\' then
      match r with
      | [] => none
      | d :: r1 =>
        match simpleEscape d with
        | some v => (decode r1).map (v ++ ·)
        | none =>
          if octalDigit d then
            match r1 with
            | [] => some [octal [d]]
            | d2 :: r2 =>
              if octalDigit d2 then
                match r2 with
                | [] => some [octal [d, d2]]
                | d3 :: r3 =>
                  if octalDigit d3 then (decode r3).map (octal [d, d2, d3] :: ·)
                  else (decode (d3 :: r3)).map (octal [d, d2] :: ·)
              else (decode (d2 :: r2)).map (octal [d] :: ·)
          else if d = 'x' then
            match r1 with
            | a :: b :: r2 =>
              (hexValue [a, b]).bind fun n => (charOf n).bind fun x => (decode r2).map (x :: ·)
            | _ => none
          else if d = 'u' then
            match r1 with
            | a :: b :: e :: f :: r2 =>
              (hexValue [a, b, e, f]).bind fun n => (charOf n).bind fun x => (decode r2).map (x :: ·)
            | _ => none
          else if d = 'U' then
            match r1 with
            | a :: b :: e :: f :: g :: h :: i :: j :: r2 =>
              (hexValue [a, b, e, f, g, h, i, j]).bind fun n => (charOf n).bind fun x =>
                (decode r2).map (x :: ·)
            | _ => none
          else none
    else (decode r).map (c :: ·)

/-- The number of backslashes at the end. -/
def slashes (t : Text) : Nat := (t.reverse.takeWhile (· = '\\')).length

/-- A character after `before` has a backslash in front that is not itself the second of a pair. -/
def Escaped (before : Text) : Prop := slashes before % 2 = 1

/-- The text written is one string literal, whatever follows in the file, and Python has nothing to say
about what is in it. -/
def IsLiteral (written : Text) : Prop :=
  ∃ body value, written = tripleQuote ++ body ++ tripleQuote ∧ decode body = some value ∧
    ∀ following, scan (body ++ tripleQuote ++ following) = some (body, following)

/-! ## Lemmas -/

theorem of_mem_takeWhile {p : Char → Bool} {t : Text} {c : Char} (h : c ∈ t.takeWhile p) : p c = true := by
  induction t with
  | nil => simp at h
  | cons x t ih =>
    rw [List.takeWhile_cons] at h
    split at h
    · next hx =>
      rcases List.mem_cons.1 h with rfl | h
      · exact hx
      · exact ih h
    · simp at h

theorem trimEnd_prefix (p : Char → Bool) (t : Text) : ∃ s, t = trimEnd p t ++ s ∧ ∀ c ∈ s, p c = true := by
  refine ⟨(t.reverse.takeWhile p).reverse, ?_, ?_⟩
  · unfold trimEnd
    rw [← List.reverse_append, List.takeWhile_append_dropWhile, List.reverse_reverse]
  · intro c hc
    exact of_mem_takeWhile (by simpa using hc)

theorem trim_spec (t : Text) : ∃ a b, t = a ++ trim t ++ b ∧ (∀ c ∈ a, trimChar c = true) ∧
    ∀ c ∈ b, trimChar c = true := by
  obtain ⟨b, h1, h2⟩ := trimEnd_prefix trimChar (t.dropWhile trimChar)
  refine ⟨t.takeWhile trimChar, b, ?_, fun c hc => of_mem_takeWhile hc, h2⟩
  rw [List.append_assoc]
  show t = t.takeWhile trimChar ++ (trimEnd trimChar (t.dropWhile trimChar) ++ b)
  rw [← h1, List.takeWhile_append_dropWhile]

/-! ### Reading from left to right -/

/-- After how many quotes in a row, after a backslash, or after something that must not be. -/
inductive State
  | ok (quotes : Nat)
  | esc
  | bad
deriving DecidableEq

/-- `E` are the characters that may have a backslash in front, `Q` says whether quotes may be without. -/
def step (E : Char → Bool) (Q : Bool) : State → Char → State
  | .bad, _ => .bad
  | .esc, c => if E c then .ok 0 else .bad
  | .ok q, c =>
    if c = '\\' then .esc
    else if c = '"' then (if Q = true ∧ q < 2 then .ok (q + 1) else .bad)
    else .ok 0

def run (E : Char → Bool) (Q : Bool) (s : State) (t : Text) : State := t.foldl (step E Q) s

section Run
variable {E : Char → Bool} {Q : Bool}

theorem run_nil (s : State) : run E Q s [] = s := rfl
theorem run_cons (s : State) (c : Char) (t : Text) : run E Q s (c :: t) = run E Q (step E Q s c) t := rfl
theorem run_append (s : State) (a b : Text) : run E Q s (a ++ b) = run E Q (run E Q s a) b :=
  List.foldl_append ..

theorem run_bad (t : Text) : run E Q .bad t = .bad := by
  induction t with
  | nil => rfl
  | cons c t ih => rw [run_cons]; exact ih

theorem run_prefix {s : State} {a b : Text} (h : run E Q s (a ++ b) ≠ .bad) : run E Q s a ≠ .bad := by
  intro h'
  rw [run_append, h', run_bad] at h
  exact h rfl

theorem step_plain {c : Char} (h1 : c ≠ '\\') (h2 : c ≠ '"') (q : Nat) : step E Q (.ok q) c = .ok 0 := by
  simp [step, h1, h2]

theorem run_plain {t : Text} (h1 : ∀ c ∈ t, c ≠ '\\' ∧ c ≠ '"') : run E Q (.ok 0) t = .ok 0 := by
  induction t with
  | nil => rfl
  | cons c t ih =>
    rw [run_cons, step_plain (h1 c (by simp)).1 (h1 c (by simp)).2]
    exact ih fun x hx => h1 x (by simp [hx])

theorem plain_of_trimChar {c : Char} (h : trimChar c = true) : c ≠ '\\' ∧ c ≠ '"' := by
  constructor <;> (rintro rfl; revert h; decide)

theorem run_blank {t : Text} (h : ∀ c ∈ t, trimChar c = true) : run E Q (.ok 0) t = .ok 0 :=
  run_plain fun c hc => plain_of_trimChar (h c hc)

/-- An even number of backslashes is whole. -/
theorem run_pairs (hE : E '\\' = true) (q k : Nat) :
    run E Q (.ok q) (List.replicate (2 * k) '\\') = if k = 0 then .ok q else .ok 0 := by
  induction k generalizing q with
  | zero => rfl
  | succ k ih =>
    rw [show 2 * (k + 1) = 2 * k + 1 + 1 by omega, List.replicate_succ, List.replicate_succ, run_cons, run_cons,
      show step E Q (.ok q) '\\' = .esc by simp [step], show step E Q .esc '\\' = .ok 0 by simp [step, hE], ih]
    simp

end Run

theorem slashes_nil : slashes [] = 0 := rfl
theorem slashes_concat (t : Text) (c : Char) :
    slashes (t ++ [c]) = if c = '\\' then slashes t + 1 else 0 := by
  unfold slashes
  rw [List.reverse_append]
  simp only [List.reverse_cons, List.reverse_nil, List.nil_append, List.singleton_append, List.takeWhile_cons]
  by_cases h : c = '\\'
  · simp [h]
  · simp [h]

/-- What `normalize` makes of a text can be read, if the escape sequences it keeps can. -/
theorem run_normalizeFrom {E : Char → Bool} {Q : Bool} (hE : E '\\' = true) :
    ∀ (r pre : Text) (q : Nat),
    (∀ a c b, pre ++ r = a ++ c :: b → Escaped a → c ∈ validEscape → E c = true) →
    (Q = false → ∀ a b, pre ++ r = a ++ '"' :: b → Escaped a) →
    (Q = true → q ≤ 2 ∧ ¬ tripleQuote <:+: (if slashes pre = 0 then List.replicate q '"' ++ r else r)) →
    ∃ k, run E Q (.ok q) (normalizeFrom (slashes pre) r) = .ok k ∧
      (Q = false → q = 0 → k = 0) ∧
      (0 < k → 0 < q ∧ r = [] ∨ ∃ a, pre ++ r = a ++ ['"'] ∧ ¬ Escaped a) := by
  intro r
  induction r with
  | nil =>
    intro pre q _ _ _
    have : (slashes pre / 2 * 2 + if slashes pre % 2 ≠ 0 then 2 else 0) =
        2 * (slashes pre / 2 + if slashes pre % 2 ≠ 0 then 1 else 0) := by split <;> omega
    rw [normalizeFrom, this, run_pairs hE]
    generalize (slashes pre / 2 + if slashes pre % 2 ≠ 0 then 1 else 0) = j
    by_cases hj : j = 0
    · rw [if_pos hj]; exact ⟨q, rfl, fun _ h => h, fun h => .inl ⟨h, rfl⟩⟩
    · rw [if_neg hj]; exact ⟨0, rfl, fun _ _ => rfl, fun h => absurd h (by omega)⟩
  | cons c r ih =>
    intro pre q hv hs hq
    have hpre : pre ++ c :: r = pre ++ [c] ++ r := by simp
    by_cases hc : c = '\\'
    · subst hc
      rw [normalizeFrom, if_pos rfl]
      have := ih (pre ++ ['\\']) q (by rw [← hpre]; exact hv) (by rw [← hpre]; exact hs) (by
        intro hQ
        refine ⟨(hq hQ).1, ?_⟩
        rw [slashes_concat, if_pos rfl, if_neg (by omega)]
        intro hin
        refine (hq hQ).2 (hin.trans ?_)
        split
        · exact ⟨List.replicate q '"' ++ ['\\'], [], by simp⟩
        · exact ⟨['\\'], [], by simp⟩)
      rw [slashes_concat, if_pos rfl] at this
      obtain ⟨k, h1, h2, h3⟩ := this
      refine ⟨k, h1, h2, fun hk => ?_⟩
      rw [← hpre] at h3
      rcases h3 hk with ⟨hq0, rfl⟩ | h3
      · exfalso
        rw [normalizeFrom] at h1
        have hj : (((slashes pre + 1) / 2 * 2 + if (slashes pre + 1) % 2 ≠ 0 then 2 else 0)) =
            2 * ((slashes pre + 1) / 2 + if (slashes pre + 1) % 2 ≠ 0 then 1 else 0) := by split <;> omega
        rw [hj, run_pairs hE, if_neg (by split <;> omega)] at h1
        cases h1
        omega
      · exact .inr h3
    · rw [normalizeFrom, if_neg hc, run_append, run_cons]
      obtain ⟨n, hn⟩ : ∃ n, n = slashes pre := ⟨_, rfl⟩
      have hv' : Escaped pre → c ∈ validEscape → E c = true := hv pre c r rfl
      have hnext : ∀ q', (Q = true → q' ≤ 2 ∧ ¬ tripleQuote <:+: List.replicate q' '"' ++ r) →
          ∃ k, run E Q (.ok q') (normalizeFrom 0 r) = .ok k ∧ (Q = false → q' = 0 → k = 0) ∧
          (0 < k → 0 < q' ∧ r = [] ∨ ∃ a, pre ++ c :: r = a ++ ['"'] ∧ ¬ Escaped a) := by
        intro q' h'
        have := ih (pre ++ [c]) q' (by rw [← hpre]; exact hv) (by rw [← hpre]; exact hs) (by
          rw [slashes_concat, if_neg hc, if_pos rfl]; exact h')
        rw [slashes_concat, if_neg hc, ← hpre] at this
        exact this
      have hr0 : Q = true → 0 ≤ 2 ∧ ¬ tripleQuote <:+: List.replicate 0 '"' ++ r := by
        intro hQ
        refine ⟨by omega, fun hin => (hq hQ).2 ?_⟩
        refine List.IsInfix.trans (l₂ := r) (by simpa using hin) ?_
        split
        · exact ⟨List.replicate q '"' ++ [c], [], by simp⟩
        · exact ⟨[c], [], by simp⟩
      obtain ⟨k0, e0, hk0, hk1⟩ := hnext 0 hr0
      have hk2 : 0 < k0 → 0 < q ∧ c :: r = [] ∨ ∃ a, pre ++ c :: r = a ++ ['"'] ∧ ¬ Escaped a := by
        intro h
        rcases hk1 h with ⟨h, -⟩ | h
        · omega
        · exact .inr h
      by_cases hodd : n % 2 = 1
      · -- escaped
        have hesc : Escaped pre := by unfold Escaped; omega
        by_cases hval : c ∈ validEscape
        · have : kept (slashes pre) c = 2 * (n / 2) + 1 := by
            unfold kept; rw [if_pos (by omega), if_pos hval]; omega
          rw [this, List.replicate_succ', run_append, run_pairs hE]
          have : step E Q (run E Q (if n / 2 = 0 then .ok q else .ok 0) ['\\']) c = .ok 0 := by
            have h1 : run E Q (if n / 2 = 0 then .ok q else .ok 0) ['\\'] = .esc := by
              split <;> simp [run, step]
            rw [h1]; simp [step, hv' hesc hval]
          rw [this]
          exact ⟨k0, e0, fun h _ => hk0 h rfl, hk2⟩
        · have hcq : c ≠ '"' := by rintro rfl; exact hval (by decide)
          have hdbl : ∃ j, kept (slashes pre) c = 2 * j := by
            unfold kept; rw [if_pos (by omega), if_neg hval]
            split
            · exact ⟨n / 2 + 1, by omega⟩
            · exact ⟨n / 2, by omega⟩
          obtain ⟨j, hj⟩ := hdbl
          rw [hj, run_pairs hE]
          have : step E Q (if j = 0 then .ok q else .ok 0) c = .ok 0 := by
            split <;> exact step_plain hc hcq _
          rw [this]
          exact ⟨k0, e0, fun h _ => hk0 h rfl, hk2⟩
      · have hk : kept (slashes pre) c = 2 * (n / 2) := by
          unfold kept; rw [if_neg (by omega)]; omega
        rw [hk, run_pairs hE]
        by_cases hcq : c = '"'
        · subst hcq
          have hne : ¬ Escaped pre := by unfold Escaped; omega
          cases hQ : Q with
          | false => exact absurd (hs hQ pre r rfl) hne
          | true =>
            subst hQ
            obtain ⟨hq1, hq2⟩ := hq rfl
            by_cases hn0 : n / 2 = 0
            · have hn0' : slashes pre = 0 := by omega
              rw [if_pos hn0]
              rw [if_pos hn0'] at hq2
              have hlt : q < 2 := by
                by_contra hge
                have : q = 2 := by omega
                subst this
                exact hq2 ⟨[], r, by simp [tripleQuote, List.replicate]⟩
              have : step E true (.ok q) '"' = .ok (q + 1) := by simp [step, hlt]
              rw [this]
              obtain ⟨k, h1, h2, h3⟩ := hnext (q + 1) (fun _ => ⟨by omega, by
                rw [List.replicate_succ']; simpa using hq2⟩)
              refine ⟨k, h1, (fun h => by cases h), fun hk => .inr ?_⟩
              rcases h3 hk with ⟨-, rfl⟩ | h3
              · exact ⟨pre, rfl, hne⟩
              · exact h3
            · rw [if_neg hn0]
              have : step E true (.ok 0) '"' = .ok 1 := by simp [step]
              rw [this]
              rw [if_neg (by omega)] at hq2
              obtain ⟨k, h1, h2, h3⟩ := hnext 1 (fun _ => ⟨by omega, by simpa using hq2⟩)
              refine ⟨k, h1, (fun h => by cases h), fun hk => .inr ?_⟩
              rcases h3 hk with ⟨-, rfl⟩ | h3
              · exact ⟨pre, rfl, hne⟩
              · exact h3
        · have : step E Q (if n / 2 = 0 then .ok q else .ok 0) c = .ok 0 := by
            split <;> exact step_plain hc hcq _
          rw [this]
          exact ⟨k0, e0, fun h _ => hk0 h rfl, hk2⟩

/-! ### Mending -/

theorem slashes_append {a : Text} (h : ∀ c ∈ a, c ≠ '\\') (x : Text) : slashes (a ++ x) = slashes x := by
  obtain ⟨r, hr⟩ : ∃ r, r = x.reverse := ⟨_, rfl⟩
  have hx : x = r.reverse := by rw [hr, List.reverse_reverse]
  subst hx
  clear hr
  induction r with
  | nil =>
    rcases List.eq_nil_or_concat a with rfl | ⟨a', c, rfl⟩
    · rfl
    · rw [List.reverse_nil, List.append_nil, List.concat_eq_append, slashes_concat,
        if_neg (h c (by simp)), slashes_nil]
  | cons c r ih =>
    rw [List.reverse_cons, ← List.append_assoc, slashes_concat, slashes_concat, ih]

/-- What holds for all places of a text holds for those between white space. -/
theorem escaped_within {out A t B : Text} (h : out = A ++ t ++ B) (hA : ∀ c ∈ A, trimChar c = true) {a b : Text} {c : Char}
    (ht : t = a ++ c :: b) : out = (A ++ a) ++ c :: (b ++ B) ∧ (Escaped (A ++ a) ↔ Escaped a) := by
  refine ⟨by rw [h, ht]; simp, ?_⟩
  unfold Escaped
  rw [slashes_append fun c hc => (plain_of_trimChar (hA c hc)).1]

theorem filter_normalizeFrom (n : Nat) (r : Text) :
    (normalizeFrom n r).filter (· ≠ '\\') = r.filter (· ≠ '\\') := by
  induction r generalizing n with
  | nil => simp [normalizeFrom]
  | cons c r ih =>
    rw [normalizeFrom]
    by_cases hc : c = '\\'
    · rw [if_pos hc, ih]; simp [hc]
    · rw [if_neg hc]; simp [List.filter_append, hc] at ih ⊢; exact ih 0

theorem replaceFrom_none (opening closing label : Text) : ∀ (n : Nat) (t : Text), ¬ opening <:+: t →
    replaceFrom opening closing label n t = t := by
  intro n
  induction n with
  | zero => intro t _; rfl
  | succ n ih =>
    intro t h
    cases t with
    | nil => rfl
    | cons c r =>
      rw [replaceFrom, if_neg]
      · simp only [List.cons.injEq, true_and]
        exact ih r fun hin => h (hin.trans ⟨[c], [], by simp⟩)
      · intro hp
        exact h (List.isPrefixOf_iff_prefix.1 hp).isInfix

theorem infix_of_filter {o t : Text} (ho : o.filter (· ≠ '\\') = o) (h : o <:+: t) :
    o <:+: t.filter (· ≠ '\\') := by
  have := h.filter (· ≠ '\\')
  rwa [ho] at this

theorem trim_infix (t : Text) : trim t <:+: t := by
  obtain ⟨a, b, h, -⟩ := trim_spec t
  exact ⟨a, b, h.symm⟩

/-- Without tags there is only `normalize`. -/
theorem mend_plain {out : Text} (h1 : ¬ noteOpen <:+: out.filter (· ≠ '\\'))
    (h2 : ¬ importantOpen <:+: out.filter (· ≠ '\\')) : mend out = normalize (trim out) := by
  have key : ∀ o : Text, o.filter (· ≠ '\\') = o → ¬ o <:+: out.filter (· ≠ '\\') →
      ¬ o <:+: normalize (trim out) := by
    intro o ho hn hin
    refine hn ?_
    have := infix_of_filter ho hin
    rw [normalize, filter_normalizeFrom] at this
    exact this.trans ((trim_infix out).filter _)
  unfold mend replaceTag
  rw [replaceFrom_none noteOpen _ _ _ _ (key noteOpen (by decide) h1),
    replaceFrom_none importantOpen _ _ _ _ (key importantOpen (by decide) h2)]

section Strict
variable {E : Char → Bool}

theorem run_false (s : State) (t : Text) (hs : s = .ok 0 ∨ s = .esc) (h : run E false s t ≠ .bad) :
    run E false s t = .ok 0 ∨ run E false s t = .esc := by
  induction t generalizing s with
  | nil => exact hs
  | cons c t ih =>
    rw [run_cons] at h ⊢
    refine ih _ ?_ h
    have hne : step E false s c ≠ .bad := by
      intro h'; rw [h', run_bad] at h; exact h rfl
    rcases hs with rfl | rfl
    · simp only [step] at hne ⊢
      split
      · exact .inr rfl
      · next h1 =>
        rw [if_neg h1] at hne
        split
        · next h2 => rw [if_pos h2] at hne; simp at hne
        · exact .inl rfl
    · simp only [step] at hne ⊢
      split
      · exact .inl rfl
      · next h1 => rw [if_neg h1] at hne; simp at hne

theorem ok_of_next {s : State} {c : Char} {t : Text} (hs : s = .ok 0 ∨ s = .esc) (hE : E c = false)
    (h : run E false s (c :: t) ≠ .bad) : s = .ok 0 := by
  rcases hs with rfl | rfl
  · rfl
  · rw [run_cons] at h
    simp [step, hE, run_bad] at h

/-- White space at the ends does not count. -/
theorem run_strip {A t B : Text} (hE : ∀ c, trimChar c = true → E c = false)
    (hA : ∀ c ∈ A, trimChar c = true) (hB : ∀ c ∈ B, trimChar c = true)
    (h : run E false (.ok 0) (A ++ t ++ B) = .ok 0) : run E false (.ok 0) t = .ok 0 := by
  rw [run_append, run_append, run_blank hA] at h
  cases B with
  | nil => exact h
  | cons b B =>
    have hne : run E false (run E false (.ok 0) t) (b :: B) ≠ .bad := by rw [h]; simp
    have h1 : run E false (.ok 0) t ≠ .bad := by
      intro h'; rw [h', run_bad] at hne; exact hne rfl
    exact ok_of_next (run_false _ _ (.inl rfl) h1) (hE b (hB b (by simp))) hne

theorem run_trim {t : Text} (hE : ∀ c, trimChar c = true → E c = false)
    (h : run E false (.ok 0) t = .ok 0) : run E false (.ok 0) (trim t) = .ok 0 := by
  obtain ⟨A, B, h1, h2, h3⟩ := trim_spec t
  rw [h1] at h
  exact run_strip hE h2 h3 h

theorem split_cons_ne (c : Char) (t : Text) (h : c ≠ '\n') :
    ∃ p ps, Text.split '\n' t = p :: ps ∧ Text.split '\n' (c :: t) = (c :: p) :: ps := by
  cases hs : Text.split '\n' t with
  | nil => exact absurd hs (Text.split_ne_nil _ _)
  | cons p ps =>
    refine ⟨p, ps, rfl, ?_⟩
    rw [Text.split, if_neg h, hs]

/-- Every line can be read by itself. -/
theorem run_lines (hE : E '\n' = false) : ∀ (t : Text) (s : State), (s = .ok 0 ∨ s = .esc) →
    run E false s t = .ok 0 →
    ∃ p ps, Text.split '\n' t = p :: ps ∧ run E false s p = .ok 0 ∧
      ∀ l ∈ ps, run E false (.ok 0) l = .ok 0 := by
  intro t
  induction t with
  | nil => intro s _ h; exact ⟨[], [], rfl, h, by simp⟩
  | cons c t ih =>
    intro s hs h
    have hne : run E false s (c :: t) ≠ .bad := by rw [h]; simp
    by_cases hc : c = '\n'
    · subst hc
      have := ok_of_next hs hE hne
      subst this
      have h0 : step E false (.ok 0) '\n' = .ok 0 := by simp [step]
      rw [run_cons, h0] at h
      obtain ⟨p, ps, h1, h2, h3⟩ := ih (.ok 0) (.inl rfl) h
      refine ⟨[], p :: ps, by rw [Text.split, if_pos rfl, h1], rfl, ?_⟩
      intro l hl
      rcases List.mem_cons.1 hl with rfl | hl
      · exact h2
      · exact h3 l hl
    · obtain ⟨p, ps, h1, h2⟩ := split_cons_ne c t hc
      have hs' : step E false s c = .ok 0 ∨ step E false s c = .esc := by
        have := run_false (E := E) s [c] hs (by
          intro h'
          have : run E false s (c :: t) = run E false (run E false s [c]) t := rfl
          rw [this, h', run_bad] at hne
          exact hne rfl)
        exact this
      rw [run_cons] at h
      obtain ⟨p', ps', h3, h4, h5⟩ := ih _ hs' h
      rw [h1] at h3
      cases h3
      exact ⟨c :: p, ps, h2, h4, h5⟩

theorem run_flatMap {Q : Bool} {α : Type} (f : α → Text) (l : List α) (h : ∀ x ∈ l, run E Q (.ok 0) (f x) = .ok 0) :
    run E Q (.ok 0) (l.flatMap f) = .ok 0 := by
  induction l with
  | nil => rfl
  | cons x l ih =>
    rw [List.flatMap_cons, run_append, h x (by simp)]
    exact ih fun y hy => h y (by simp [hy])

theorem run_admonition (hE : ∀ c, trimChar c = true → E c = false) {label raw : Text}
    (hl : ∀ c ∈ label, c ≠ '\\' ∧ c ≠ '"') (h : run E false (.ok 0) raw = .ok 0) :
    run E false (.ok 0) (admonition label raw) = .ok 0 := by
  unfold admonition
  refine run_trim hE ?_
  rw [run_append, run_append, run_plain hl]
  show run E false (run E false (.ok 0) [':', '\n']) _ = _
  have : run E false (.ok 0) [':', '\n'] = .ok 0 := by simp [run, step]
  rw [this]
  refine run_flatMap _ _ fun line hline => ?_
  obtain ⟨p, ps, h1, h2, h3⟩ := run_lines (hE '\n' (by decide)) (trim raw) (.ok 0) (.inl rfl) (run_trim hE h)
  have hok : run E false (.ok 0) line = .ok 0 := by
    rw [h1] at hline
    rcases List.mem_cons.1 hline with rfl | hl
    · exact h2
    · exact h3 line hl
  have h4 : run E false (.ok 0) [' ', ' ', ' ', ' '] = .ok 0 := by simp [run, step]
  rw [run_append, run_append, h4, run_trim hE hok]
  simp [run, step]

theorem splitAt_some {closing : Text} : ∀ {t raw rest : Text}, splitAt closing t = some (raw, rest) →
    t = raw ++ closing ++ rest := by
  intro t
  induction t with
  | nil =>
    intro raw rest h
    rw [splitAt] at h
    split at h
    · next hp =>
      have := List.isPrefixOf_iff_prefix.1 hp
      simp only [Option.some.injEq, Prod.mk.injEq] at h
      obtain ⟨rfl, rfl⟩ := h
      simpa using List.prefix_nil.1 this
    · cases h
  | cons c t ih =>
    intro raw rest h
    rw [splitAt] at h
    split at h
    · next hp =>
      obtain ⟨z, hz⟩ := List.isPrefixOf_iff_prefix.1 hp
      simp only [Option.some.injEq, Prod.mk.injEq] at h
      obtain ⟨rfl, rfl⟩ := h
      rw [← hz]
      simp
    · cases hs : splitAt closing t with
      | none => rw [hs] at h; cases h
      | some q =>
        rw [hs] at h
        simp only [Option.map_some, Option.some.injEq, Prod.mk.injEq] at h
        obtain ⟨rfl, rfl⟩ := h
        have := ih (raw := q.1) (rest := q.2) hs
        rw [List.cons_append, List.cons_append, ← this]

theorem run_replaceFrom (hE : ∀ c, trimChar c = true → E c = false) (hlt : E '<' = false)
    {opening closing label : Text} {o1 c1 : Text} (ho : opening = '<' :: o1) (hc : closing = '<' :: c1)
    (ho1 : ∀ c ∈ o1, c ≠ '\\' ∧ c ≠ '"') (hc1 : ∀ c ∈ c1, c ≠ '\\' ∧ c ≠ '"')
    (hl : ∀ c ∈ label, c ≠ '\\' ∧ c ≠ '"') :
    ∀ (n : Nat) (t : Text) (s : State), (s = .ok 0 ∨ s = .esc) → run E false s t ≠ .bad →
    run E false s (replaceFrom opening closing label n t) = run E false s t := by
  have hstep : step E false (.ok 0) '<' = .ok 0 := by simp [step]
  have hopen : run E false (.ok 0) opening = .ok 0 := by rw [ho, run_cons, hstep, run_plain ho1]
  have hclose : run E false (.ok 0) closing = .ok 0 := by rw [hc, run_cons, hstep, run_plain hc1]
  intro n
  induction n with
  | zero => intro t s _ _; rfl
  | succ n ih =>
    intro t s hs h
    cases t with
    | nil => rfl
    | cons c r =>
      rw [replaceFrom]
      have hplain : run E false s (c :: replaceFrom opening closing label n r) = run E false s (c :: r) := by
        rw [run_cons, run_cons]
        rw [run_cons] at h
        refine ih r _ ?_ h
        refine run_false (E := E) s [c] hs ?_
        intro h'
        have e : step E false s c = .bad := h'
        rw [e, run_bad] at h
        exact h rfl
      split
      · next raw rest heq =>
        split at heq
        · next hp =>
          obtain ⟨z, hz⟩ := List.isPrefixOf_iff_prefix.1 hp
          have hdrop : (c :: r).drop opening.length = z := by rw [← hz]; simp
          rw [hdrop] at heq
          have hz' := splitAt_some heq
          rw [← hz, hz'] at h ⊢
          have hs0 : s = .ok 0 := by
            rw [ho] at h
            exact ok_of_next hs hlt h
          subst hs0
          rw [run_append, hopen, run_append, run_append] at h
          have hraw : run E false (.ok 0) raw = .ok 0 := by
            have h1 : run E false (run E false (.ok 0) raw) closing ≠ .bad := by
              intro h'; rw [h', run_bad] at h; exact h rfl
            have h2 : run E false (.ok 0) raw ≠ .bad := by
              intro h'; rw [h', run_bad] at h1; exact h1 rfl
            rw [hc] at h1
            exact ok_of_next (run_false _ _ (.inl rfl) h2) hlt h1
          rw [hraw, hclose] at h
          rw [run_append, run_admonition hE hl hraw, ih rest _ (.inl rfl) h, run_append, hopen, run_append,
            run_append, hraw, hclose]
        · cases heq
      · exact hplain

end Strict

theorem run_mono {E E' : Char → Bool} {Q Q' : Bool} (hE : ∀ c, E c = true → E' c = true)
    (hQ : Q = true → Q' = true) (t : Text) : ∀ s, run E Q s t ≠ .bad → run E' Q' s t = run E Q s t := by
  induction t with
  | nil => intro s _; rfl
  | cons c t ih =>
    intro s h
    rw [run_cons] at h
    have hne : step E Q s c ≠ .bad := by
      intro h'; rw [h', run_bad] at h; exact h rfl
    have : step E' Q' s c = step E Q s c := by
      cases s with
      | bad => rfl
      | esc =>
        simp only [step] at hne ⊢
        by_cases hc : E c = true
        · rw [if_pos hc, if_pos (hE c hc)]
        · rw [if_neg hc] at hne; exact absurd rfl hne
      | ok q =>
        simp only [step] at hne ⊢
        by_cases h1 : c = '\\'
        · rw [if_pos h1, if_pos h1]
        · rw [if_neg h1] at hne
          rw [if_neg h1, if_neg h1]
          by_cases h2 : c = '"'
          · rw [if_pos h2] at hne
            rw [if_pos h2, if_pos h2]
            by_cases h3 : Q = true ∧ q < 2
            · rw [if_pos h3, if_pos ⟨hQ h3.1, h3.2⟩]
            · rw [if_neg h3] at hne; exact absurd rfl hne
          · rw [if_neg h2, if_neg h2]
    rw [run_cons, run_cons, this]
    exact ih _ h

/-! ### Writing -/

theorem format_cons {c : Char} (h : c ≠ '$') (r : Text) : format (c :: r) = (format r).map (c :: ·) := by
  rw [format]
  · exact fun _ h1 _ => h h1
  · exact fun h1 => h h1

theorem format_escape (t : Text) : format (escapeDollars t) = some t := by
  induction t with
  | nil => rfl
  | cons c t ih =>
    unfold escapeDollars at ih ⊢
    rw [List.flatMap_cons]
    by_cases h : c = '$'
    · subst h
      rw [if_pos rfl]
      show format ('$' :: '$' :: List.flatMap _ t) = _
      rw [format, ih]; rfl
    · rw [if_neg h]
      show format (c :: List.flatMap _ t) = _
      rw [format_cons h, ih]; rfl

theorem mem_escapeDollars (t : Text) : '\n' ∈ escapeDollars t ↔ '\n' ∈ t := by
  unfold escapeDollars
  rw [List.mem_flatMap]
  constructor
  · rintro ⟨c, hc, h⟩
    split at h
    · next h' => revert h; simp
    · simp only [List.mem_singleton] at h; exact h ▸ hc
  · intro h
    exact ⟨_, h, by rw [if_neg (by decide)]; simp⟩

theorem writeDocs_eq (ws : Char → Bool) (indent out : Text) : writeDocs ws indent out =
    some (if '\n' ∈ mend out then multiLine ws indent (mend out) else singleLine ws (mend out)) := by
  unfold writeDocs formatDocs
  rw [format_escape]
  simp only [mem_escapeDollars, Option.map_some]

section Write
variable {E : Char → Bool}

theorem run_newline (hE : E '\n' = true) {s : State} (h : s ≠ .bad) : step E true s '\n' = .ok 0 := by
  cases s with
  | bad => exact absurd rfl h
  | esc => simp [step, hE]
  | ok q => simp [step]

/-- Every line can be read by itself. -/
theorem fine_lines (hE : E '\n' = true) : ∀ (t : Text) (s : State), run E true s t ≠ .bad →
    ∃ p ps, Text.split '\n' t = p :: ps ∧ run E true s p ≠ .bad ∧ ∀ l ∈ ps, run E true (.ok 0) l ≠ .bad := by
  intro t
  induction t with
  | nil => intro s h; exact ⟨[], [], rfl, h, by simp⟩
  | cons c t ih =>
    intro s h
    rw [run_cons] at h
    by_cases hc : c = '\n'
    · subst hc
      have hs : s ≠ .bad := by rintro rfl; exact h (run_bad _)
      rw [run_newline hE hs] at h
      obtain ⟨p, ps, h1, h2, h3⟩ := ih _ h
      refine ⟨[], p :: ps, by rw [Text.split, if_pos rfl, h1], hs, ?_⟩
      intro l hl
      rcases List.mem_cons.1 hl with rfl | hl
      · exact h2
      · exact h3 l hl
    · obtain ⟨p, ps, h1, h2⟩ := split_cons_ne c t hc
      obtain ⟨p', ps', h3, h4, h5⟩ := ih _ h
      rw [h1] at h3
      cases h3
      exact ⟨c :: p, ps, h2, h4, h5⟩

theorem run_trimEnd {p : Char → Bool} {t : Text} {s : State} (h : run E true s t ≠ .bad) :
    run E true s (trimEnd p t) ≠ .bad := by
  obtain ⟨z, hz, -⟩ := trimEnd_prefix p t
  rw [hz] at h
  exact run_prefix h

theorem fine_writeLine {indent line : Text} (hi : ∀ c ∈ indent, c = ' ') (h : run E true (.ok 0) line ≠ .bad) :
    run E true (.ok 0) (writeLine indent line) ≠ .bad := by
  unfold writeLine
  split
  · simp [run]
  · refine run_trimEnd ?_
    rw [run_append, run_blank fun c hc => by rw [hi c hc]; decide]
    exact h

theorem mem_dropBlank {ws : Char → Bool} {b : Bool} {ls : List Text} {l : Text} (h : l ∈ dropBlank ws b ls) : l ∈ ls := by
  induction ls generalizing b with
  | nil => simp [dropBlank] at h
  | cons x ls ih =>
    rw [dropBlank] at h
    split at h
    · split at h
      · exact List.mem_cons_of_mem _ (ih h)
      · rcases List.mem_cons.1 h with rfl | h
        · exact List.mem_cons_self
        · exact List.mem_cons_of_mem _ (ih h)
    · rcases List.mem_cons.1 h with rfl | h
      · exact List.mem_cons_self
      · exact List.mem_cons_of_mem _ (ih h)

/-- What is between the quotes of `multiLine`. -/
def multiBody (ws : Char → Bool) (indent t : Text) : Text :=
  '\n' :: (dropBlank ws false ((Text.split '\n' (trimEnd ws t)).map (writeLine indent))).flatMap (· ++ ['\n']) ++
    indent

theorem multiLine_eq (ws : Char → Bool) (indent t : Text) :
    multiLine ws indent t = tripleQuote ++ multiBody ws indent t ++ tripleQuote := by
  simp [multiLine, multiBody]

theorem run_multiBody (hE : E '\n' = true) (ws : Char → Bool) {indent t : Text} (hi : ∀ c ∈ indent, c = ' ')
    (h : run E true (.ok 0) t ≠ .bad) : run E true (.ok 0) (multiBody ws indent t) = .ok 0 := by
  obtain ⟨p, ps, h1, h2, h3⟩ := fine_lines hE (trimEnd ws t) (.ok 0) (run_trimEnd h)
  have hind : run E true (.ok 0) indent = .ok 0 := run_blank fun c hc => by rw [hi c hc]; decide
  unfold multiBody
  rw [List.cons_append, run_cons, run_newline hE (by simp), run_append]
  rw [run_flatMap (E := E) (Q := true), hind]
  intro l hl
  have hl' := mem_dropBlank hl
  obtain ⟨line, hline, rfl⟩ := List.mem_map.1 hl'
  have hfine : run E true (.ok 0) line ≠ .bad := by
    rw [h1] at hline
    rcases List.mem_cons.1 hline with rfl | hm
    · exact h2
    · exact h3 line hm
  rw [run_append]
  exact run_newline hE (fine_writeLine hi hfine)

end Write

/-- Escape sequences of one character, and those that begin with a digit. -/
def simple (c : Char) : Bool := (simpleEscape c).isSome || octalDigit c

theorem isPrefixOf_two {r : Text} (h : ['"', '"'].isPrefixOf r = true) : ∃ z, r = '"' :: '"' :: z := by
  obtain ⟨z, hz⟩ := List.isPrefixOf_iff_prefix.1 h
  exact ⟨z, hz.symm⟩

theorem scan_run : ∀ (n : Nat) (t : Text), t.length ≤ n → ∀ (q : Nat) (following : Text), q ≤ 2 →
    run simple true (.ok q) t = .ok 0 →
    scan (List.replicate q '"' ++ (t ++ tripleQuote ++ following)) =
      some (List.replicate q '"' ++ t, following) := by
  have plain : ∀ (c : Char) (x : Text) (p : Text × Text), c ≠ '\\' → c ≠ '"' → scan x = some p → ∀ q ≤ 2,
      scan (List.replicate q '"' ++ c :: x) = some (List.replicate q '"' ++ c :: p.1, p.2) := by
    intro c x p h1 h2 hx q hq
    have h0 : scan (c :: x) = some (c :: p.1, p.2) := by
      rw [scan.eq_def]
      simp only
      rw [if_neg h1, if_neg (fun h => h2 h.2), hx]; rfl
    have hq' : q = 0 ∨ q = 1 ∨ q = 2 := by omega
    rcases hq' with rfl | rfl | rfl
    · exact h0
    · show scan ('"' :: c :: x) = _
      rw [scan.eq_def]
      simp only
      rw [if_neg (by decide), if_neg, h0]
      · rfl
      · rintro ⟨h, -⟩
        obtain ⟨z, hz⟩ := isPrefixOf_two h
        cases hz; exact h2 rfl
    · show scan ('"' :: '"' :: c :: x) = _
      have h3 : scan ('"' :: c :: x) = some ('"' :: c :: p.1, p.2) := by
        rw [scan.eq_def]
        simp only
        rw [if_neg (by decide), if_neg, h0]
        · rfl
        · rintro ⟨h, -⟩
          obtain ⟨z, hz⟩ := isPrefixOf_two h
          cases hz; exact h2 rfl
      rw [scan.eq_def]
      simp only
      rw [if_neg (by decide), if_neg, h3]
      · rfl
      · rintro ⟨h, -⟩
        obtain ⟨z, hz⟩ := isPrefixOf_two h
        cases hz; exact h2 rfl
  have slash : ∀ (d : Char) (x : Text) (p : Text × Text), scan x = some p → ∀ q ≤ 2,
      scan (List.replicate q '"' ++ '\\' :: d :: x) = some (List.replicate q '"' ++ '\\' :: d :: p.1, p.2) := by
    intro d x p hx q hq
    have h0 : scan ('\\' :: d :: x) = some ('\\' :: d :: p.1, p.2) := by
      rw [scan.eq_def]
      simp only [if_true]
      rw [hx]; rfl
    have h1 : scan ('"' :: '\\' :: d :: x) = some ('"' :: '\\' :: d :: p.1, p.2) := by
      rw [scan.eq_def]
      simp only
      rw [if_neg (by decide), if_neg, h0]
      · rfl
      · rintro ⟨h, -⟩
        obtain ⟨z, hz⟩ := isPrefixOf_two h
        cases hz
    have hq' : q = 0 ∨ q = 1 ∨ q = 2 := by omega
    rcases hq' with rfl | rfl | rfl
    · exact h0
    · exact h1
    · show scan ('"' :: '"' :: '\\' :: d :: x) = _
      rw [scan.eq_def]
      simp only
      rw [if_neg (by decide), if_neg, h1]
      · rfl
      · rintro ⟨h, -⟩
        obtain ⟨z, hz⟩ := isPrefixOf_two h
        cases hz
  intro n
  induction n with
  | zero =>
    intro t ht q following hq h
    have : t = [] := List.length_eq_zero_iff.1 (by omega)
    subst this
    simp only [run_nil, State.ok.injEq] at h
    subst h
    rfl
  | succ n ih =>
    intro t ht q following hq h
    cases t with
    | nil =>
      simp only [run_nil, State.ok.injEq] at h
      subst h
      rfl
    | cons c t =>
      rw [run_cons] at h
      by_cases hc : c = '\\'
      · subst hc
        have hst : step simple true (.ok q) '\\' = .esc := by simp [step]
        rw [hst] at h
        cases t with
        | nil => cases h
        | cons d t =>
          rw [run_cons] at h
          by_cases hd : simple d = true
          · have hst : step simple true .esc d = .ok 0 := by simp [step, hd]
            rw [hst] at h
            have := ih t (by simp at ht; omega) 0 following (by omega) h
            exact slash d _ (t, following) this q hq
          · have hst : step simple true .esc d = .bad := by simp [step, hd]
            rw [hst, run_bad] at h
            cases h
      · by_cases hcq : c = '"'
        · subst hcq
          by_cases hlt : q < 2
          · have hst : step simple true (.ok q) '"' = .ok (q + 1) := by simp [step, hlt]
            rw [hst] at h
            have := ih t (by simp at ht; omega) (q + 1) following (by omega) h
            rw [List.replicate_succ'] at this
            simpa using this
          · have hst : step simple true (.ok q) '"' = .bad := by simp [step, hlt]
            rw [hst, run_bad] at h
            cases h
        · rw [step_plain hc hcq] at h
          have := ih t (by simp at ht; omega) 0 following (by omega) h
          exact plain c _ (t, following) hc hcq this q hq

theorem decode_simple {d : Char} {v : Text} (h : simpleEscape d = some v) (r : Text) :
    decode ('\\' :: d :: r) = (decode r).map (v ++ ·) := by
  rw [decode.eq_def]
  simp only [if_true, h]

theorem decode_plain {c : Char} (h : c ≠ '\\') (r : Text) : decode (c :: r) = (decode r).map (c :: ·) := by
  rw [decode.eq_def]
  simp only [if_neg h]

theorem octalDigit_plain {c : Char} (h : octalDigit c = true) : c ≠ '\\' ∧ c ≠ '"' := by
  constructor <;> (rintro rfl; revert h; decide)

theorem decode_run : ∀ (n : Nat) (t : Text), t.length ≤ n → ∀ q, (∃ k, run simple true (.ok q) t = .ok k) →
    ∃ v, decode t = some v := by
  intro n
  induction n with
  | zero =>
    intro t ht q _
    have : t = [] := List.length_eq_zero_iff.1 (by omega)
    subst this
    exact ⟨[], by rw [decode]⟩
  | succ n ih =>
    intro t ht q h
    cases t with
    | nil => exact ⟨[], by rw [decode]⟩
    | cons c t =>
      obtain ⟨k, h⟩ := h
      rw [run_cons] at h
      by_cases hc : c = '\\'
      · subst hc
        have hst : step simple true (.ok q) '\\' = .esc := by simp [step]
        rw [hst] at h
        cases t with
        | nil => cases h
        | cons d t =>
          rw [run_cons] at h
          simp only [List.length_cons] at ht
          by_cases hd : simple d = true
          · have hst : step simple true .esc d = .ok 0 := by simp [step, hd]
            rw [hst] at h
            cases hs : simpleEscape d with
            | some v =>
              obtain ⟨w, hw⟩ := ih t (by omega) 0 ⟨k, h⟩
              exact ⟨v ++ w, by rw [decode_simple hs, hw]; rfl⟩
            | none =>
              have ho : octalDigit d = true := by simpa [simple, hs] using hd
              rw [decode.eq_def]
              simp only [if_true, hs, ho]
              cases t with
              | nil => exact ⟨_, rfl⟩
              | cons d2 t2 =>
                simp only
                simp only [List.length_cons] at ht
                by_cases ho2 : octalDigit d2 = true
                · rw [if_pos ho2]
                  rw [run_cons, step_plain (octalDigit_plain ho2).1 (octalDigit_plain ho2).2] at h
                  cases t2 with
                  | nil => exact ⟨_, rfl⟩
                  | cons d3 t3 =>
                    simp only
                    simp only [List.length_cons] at ht
                    by_cases ho3 : octalDigit d3 = true
                    · rw [if_pos ho3]
                      rw [run_cons, step_plain (octalDigit_plain ho3).1 (octalDigit_plain ho3).2] at h
                      obtain ⟨w, hw⟩ := ih t3 (by omega) 0 ⟨k, h⟩
                      exact ⟨_, by rw [hw]; rfl⟩
                    · rw [if_neg ho3]
                      obtain ⟨w, hw⟩ := ih (d3 :: t3) (by simp only [List.length_cons]; omega) 0 ⟨k, h⟩
                      exact ⟨_, by rw [hw]; rfl⟩
                · rw [if_neg ho2]
                  obtain ⟨w, hw⟩ := ih (d2 :: t2) (by simp only [List.length_cons]; omega) 0 ⟨k, h⟩
                  exact ⟨_, by rw [hw]; rfl⟩
          · have hst : step simple true .esc d = .bad := by simp [step, hd]
            rw [hst, run_bad] at h
            cases h
      · have hne : step simple true (.ok q) c ≠ .bad := by
          intro h'; rw [h', run_bad] at h; cases h
        obtain ⟨q', hq'⟩ : ∃ q', step simple true (.ok q) c = .ok q' := by
          simp only [step, if_neg hc] at hne ⊢
          split
          · next h1 =>
            rw [if_pos h1] at hne
            split
            · exact ⟨_, rfl⟩
            · next h2 => rw [if_neg h2] at hne; exact absurd rfl hne
          · exact ⟨_, rfl⟩
        rw [hq'] at h
        simp only [List.length_cons] at ht
        obtain ⟨w, hw⟩ := ih t (by omega) q' ⟨k, h⟩
        exact ⟨c :: w, by rw [decode_plain hc, hw]; rfl⟩

theorem literal_of_run {body : Text} (h : run simple true (.ok 0) body = .ok 0) :
    IsLiteral (tripleQuote ++ body ++ tripleQuote) := by
  obtain ⟨v, hv⟩ := decode_run body.length body (Nat.le_refl _) 0 ⟨0, h⟩
  exact ⟨body, v, rfl, hv, fun following => scan_run body.length body (Nat.le_refl _) 0 following (by omega) h⟩

theorem trimEnd_last (p : Char → Bool) (t : Text) :
    trimEnd p t = [] ∨ ∃ u c, trimEnd p t = u ++ [c] ∧ p c = false := by
  unfold trimEnd
  cases h : t.reverse.dropWhile p with
  | nil => exact .inl rfl
  | cons c r =>
    refine .inr ⟨r.reverse, c, by simp, ?_⟩
    have := List.head?_dropWhile_not p t.reverse
    rw [h] at this
    simpa using this

theorem trimEnd_append {p : Char → Bool} {y s : Text} (hs : ∀ c ∈ s, p c = true)
    (hy : y = [] ∨ ∃ u c, y = u ++ [c] ∧ p c = false) : trimEnd p (y ++ s) = y := by
  unfold trimEnd
  rw [List.reverse_append, List.dropWhile_append_of_pos (by simpa using hs)]
  rcases hy with rfl | ⟨u, c, rfl, hc⟩
  · rfl
  · simp [hc]

theorem normalizeFrom_append {s : Text} (hs : ∀ c ∈ s, c ≠ '\\' ∧ c ∉ validEscape ∧ c ∉ markdownOnly) :
    ∀ (r : Text) (n : Nat), normalizeFrom n (r ++ s) = normalizeFrom n r ++ s := by
  have h0 : ∀ s : Text, (∀ c ∈ s, c ≠ '\\' ∧ c ∉ validEscape ∧ c ∉ markdownOnly) → normalizeFrom 0 s = s := by
    intro s
    induction s with
    | nil => intro _; rfl
    | cons c s ih =>
      intro h
      rw [normalizeFrom, if_neg (h c (by simp)).1, ih fun x hx => h x (by simp [hx])]
      rfl
  intro r
  induction r with
  | nil =>
    intro n
    cases s with
    | nil => simp
    | cons c s =>
      obtain ⟨h1, h2, h3⟩ := hs c (by simp)
      have e1 : normalizeFrom n (c :: s) = List.replicate (kept n c) '\\' ++ c :: normalizeFrom 0 s := by
        rw [normalizeFrom, if_neg h1]
      have e2 : normalizeFrom n [] = List.replicate (n / 2 * 2 + if n % 2 ≠ 0 then 2 else 0) '\\' := by
        rw [normalizeFrom]
      rw [List.nil_append, e1, e2, h0 s fun x hx => hs x (by simp [hx])]
      unfold kept
      rw [if_neg h2, if_pos h3]
  | cons c r ih =>
    intro n
    rw [List.cons_append, normalizeFrom, normalizeFrom]
    split
    · exact ih _
    · rw [ih]; simp

theorem normalizeFrom_last (c : Char) : ∀ (r : Text) (n : Nat), ∃ u, normalizeFrom n (r ++ [c]) = u ++ [c] := by
  intro r
  induction r with
  | nil =>
    intro n
    rw [List.nil_append, normalizeFrom]
    split
    · next h =>
      subst h
      rw [normalizeFrom]
      obtain ⟨j, hj⟩ : ∃ j, ((n + 1) / 2 * 2 + if (n + 1) % 2 ≠ 0 then 2 else 0) = j + 1 :=
        ⟨((n + 1) / 2 * 2 + if (n + 1) % 2 ≠ 0 then 2 else 0) - 1, by split <;> omega⟩
      rw [hj, List.replicate_succ']
      exact ⟨_, rfl⟩
    · exact ⟨List.replicate (kept n c) '\\', rfl⟩
  | cons d r ih =>
    intro n
    rw [List.cons_append, normalizeFrom]
    split
    · exact ih _
    · obtain ⟨u, hu⟩ := ih 0
      exact ⟨List.replicate (kept n d) '\\' ++ d :: u, by rw [hu]; simp⟩

/-- White space at the end is not touched by `normalize`. -/
theorem trimEnd_normalize {ws : Char → Bool} (hws : ∀ c : Char, 33 ≤ c.toNat → c.toNat ≤ 126 → ws c = false)
    {r : Text} (h1 : '\n' ∉ r) (h2 : '\r' ∉ r) : trimEnd ws (normalize r) = normalize (trimEnd ws r) := by
  obtain ⟨s, hs, hs'⟩ := trimEnd_prefix ws r
  have hr : normalize r = normalize (trimEnd ws r) ++ s := by
    conv => lhs; rw [hs]
    refine normalizeFrom_append (fun c hc => ?_) _ 0
    have hmem : c ∈ r := by rw [hs]; exact List.mem_append_right _ hc
    have hc' := hs' c hc
    refine ⟨?_, ?_, ?_⟩
    · rintro rfl
      rw [hws '\\' (by decide) (by decide)] at hc'
      cases hc'
    · intro hv
      have : ∀ x ∈ validEscape, x = '\n' ∨ x = '\r' ∨ 33 ≤ x.toNat ∧ x.toNat ≤ 126 := by decide
      rcases this c hv with rfl | rfl | ⟨g1, g2⟩
      · exact h1 hmem
      · exact h2 hmem
      · rw [hws c g1 g2] at hc'; cases hc'
    · intro hv
      have : ∀ x ∈ markdownOnly, 33 ≤ x.toNat ∧ x.toNat ≤ 126 := by decide
      obtain ⟨g1, g2⟩ := this c hv
      rw [hws c g1 g2] at hc'; cases hc'
  rw [hr]
  refine trimEnd_append hs' ?_
  rcases trimEnd_last ws r with h | ⟨u, c, h, hc⟩
  · rw [h]; exact .inl rfl
  · rw [h]
    obtain ⟨v, hv⟩ := normalizeFrom_last c u 0
    exact .inr ⟨v, c, hv, hc⟩

/-! ## Conditions on what pandoc writes -/

/-- There is text on more than one line. -/
def MultiLine (out : Text) : Prop :=
  ∃ a b, out = a ++ '\n' :: b ∧ (∃ x ∈ a, 32 < x.toNat) ∧ ∃ x ∈ b, 32 < x.toNat

/-- The text does not end with a quote that has no backslash in front. -/
def EndsWell (ws : Char → Bool) (out : Text) : Prop :=
  ∀ a b, out = a ++ '"' :: b → (∀ x ∈ b, x.toNat ≤ 32 ∨ ws x = true) → Escaped a

/-- No backslash alone before the letters that begin longer escape sequences in Python. -/
def NoLong (out : Text) : Prop :=
  ∀ a c b, out = a ++ c :: b → Escaped a → c ≠ 'x' ∧ c ≠ 'N' ∧ c ≠ 'u' ∧ c ≠ 'U'

/-- There are no three quotes in a row, and no tags for notes, also when backslashes are left out. -/
structure Plain (out : Text) : Prop where
  long : NoLong out
  quotes : ¬ "\"\"\"".toList <:+: out
  note : ¬ "<note>".toList <:+: out.filter (· ≠ '\\')
  important : ¬ "<important>".toList <:+: out.filter (· ≠ '\\')

/-- All quotes have a backslash in front, and line breaks do not. -/
structure Careful (out : Text) : Prop where
  long : NoLong out
  quotes : ∀ a b, out = a ++ '"' :: b → Escaped a
  breaks : ∀ a b, out = a ++ '\n' :: b → ¬ Escaped a

/-! ### Lemmas with these conditions -/

theorem run_plainDocs {E : Char → Bool} {out : Text} (hE : E '\\' = true) (h : ¬ "\"\"\"".toList <:+: out)
    (hv : ∀ a c b, out = a ++ c :: b → Escaped a → c ∈ validEscape → E c = true) :
    ∃ k, run E true (.ok 0) (normalize out) = .ok k ∧ (0 < k → ∃ a, out = a ++ ['"'] ∧ ¬ Escaped a) := by
  obtain ⟨k, h1, -, h3⟩ := run_normalizeFrom (E := E) (Q := true) hE out [] 0 hv (fun h => by cases h) (fun _ =>
    ⟨by omega, by
      rw [slashes_nil, if_pos rfl]
      exact h⟩)
  refine ⟨k, h1, fun hk => ?_⟩
  rcases h3 hk with ⟨h, -⟩ | h
  · omega
  · exact h

theorem valid_within {E : Char → Bool} {out A t B : Text} (h : out = A ++ t ++ B) (hA : ∀ c ∈ A, trimChar c = true)
    (hv : ∀ a c b, out = a ++ c :: b → Escaped a → c ∈ validEscape → E c = true) :
    ∀ a c b, t = a ++ c :: b → Escaped a → c ∈ validEscape → E c = true := by
  intro a c b ht he
  obtain ⟨h1, h2⟩ := escaped_within h hA ht
  exact hv _ c _ h1 (h2.2 he)

theorem simple_of_valid {c : Char} (h : c ∈ validEscape) (hc : c ≠ 'x' ∧ c ≠ 'N' ∧ c ≠ 'u' ∧ c ≠ 'U') :
    simple c = true := by
  have : ∀ x ∈ validEscape, x = 'x' ∨ x = 'N' ∨ x = 'u' ∨ x = 'U' ∨ simple x = true := by decide
  rcases this c h with h | h | h | h | h
  · exact absurd h hc.1
  · exact absurd h hc.2.1
  · exact absurd h hc.2.2.1
  · exact absurd h hc.2.2.2
  · exact h

theorem newline_of_multiLine {out : Text} (h : MultiLine out) : '\n' ∈ trim out := by
  obtain ⟨a, b, h1, ⟨x, hx, hx'⟩, y, hy, hy'⟩ := h
  obtain ⟨A, B, h2, hA, hB⟩ := trim_spec out
  have hxt : trimChar x = false := by simp [trimChar]; omega
  have hyt : trimChar y = false := by simp [trimChar]; omega
  rw [h2, List.append_assoc, List.append_eq_append_iff] at h1
  rcases h1 with ⟨a', rfl, h1⟩ | ⟨c', rfl, h1⟩
  · rw [List.append_eq_append_iff] at h1
    rcases h1 with ⟨z, rfl, h3⟩ | ⟨z, h3, h4⟩
    · have : y ∈ B := by rw [h3]; simp [hy]
      rw [hB y this] at hyt; cases hyt
    · cases z with
      | nil =>
        have : y ∈ B := by simp only [List.nil_append] at h4; rw [← h4]; simp [hy]
        rw [hB y this] at hyt; cases hyt
      | cons d z =>
        simp only [List.cons_append, List.cons.injEq] at h4
        rw [h3, ← h4.1]; simp
  · have : x ∈ a ++ c' := by simp [hx]
    rw [hA x this] at hxt; cases hxt

theorem mend_newline {out : Text} (hm : mend out = normalize (trim out)) : '\n' ∈ mend out ↔ '\n' ∈ trim out := by
  have h := filter_normalizeFrom 0 (trim out)
  have : ∀ t : Text, '\n' ∈ t ↔ '\n' ∈ t.filter (· ≠ '\\') := fun t => by simp
  rw [hm, this, this (trim out), normalize, h]

/-- What is between the quotes, if there are no tags. -/
theorem plain_body {E : Char → Bool} {ws : Char → Bool} {indent out : Text} (hE : E '\\' = true) (hE' : E '\n' = true)
    (hws : ∀ c : Char, 33 ≤ c.toNat → c.toNat ≤ 126 → ws c = false) (hi : ∀ c ∈ indent, c = ' ') (hcr : '\r' ∉ out)
    (hq : ¬ "\"\"\"".toList <:+: out) (hend : MultiLine out ∨ EndsWell ws out)
    (hm : mend out = normalize (trim out))
    (hv : ∀ a c b, out = a ++ c :: b → Escaped a → c ∈ validEscape → E c = true) :
    ∃ body, writeDocs ws indent out = some (tripleQuote ++ body ++ tripleQuote) ∧
      run E true (.ok 0) body = .ok 0 ∧
      (body = multiBody ws indent (normalize (trim out)) ∨ body = trimEnd ws (normalize (trim out))) := by
  obtain ⟨A, B, h2, hA, hB⟩ := trim_spec out
  have hq' : ¬ "\"\"\"".toList <:+: trim out := fun h => hq (h.trans (trim_infix out))
  rw [writeDocs_eq]
  by_cases hn : '\n' ∈ mend out
  · rw [if_pos hn, hm]
    refine ⟨_, by rw [multiLine_eq], run_multiBody hE' ws hi ?_, .inl rfl⟩
    obtain ⟨k, hk, -⟩ := run_plainDocs hE hq' (valid_within h2 hA hv)
    rw [hk]; simp
  · rw [if_neg hn, hm]
    refine ⟨_, rfl, ?_, .inr rfl⟩
    rw [mend_newline hm] at hn
    have hends : EndsWell ws out := hend.resolve_left fun h => hn (newline_of_multiLine h)
    rw [trimEnd_normalize hws hn fun h => hcr ((trim_infix out).subset h)]
    obtain ⟨z, hz, hz'⟩ := trimEnd_prefix ws (trim out)
    have h3 : out = A ++ trimEnd ws (trim out) ++ (z ++ B) := by
      conv => lhs; rw [h2]
      conv => lhs; rw [hz]
      simp
    obtain ⟨k, hk, hk'⟩ := run_plainDocs hE (out := trimEnd ws (trim out))
      (fun h => hq' (h.trans ⟨[], z, by simpa using hz.symm⟩)) (valid_within h3 hA hv)
    rw [hk]
    by_cases h0 : k = 0
    · rw [h0]
    · exfalso
      obtain ⟨a, ha, hne⟩ := hk' (by omega)
      obtain ⟨g1, g2⟩ := escaped_within h3 hA (a := a) (c := '"') (b := []) ha
      refine hne (g2.1 (hends _ _ g1 ?_))
      intro x hx
      rcases List.mem_append.1 (by simpa using hx) with hx | hx
      · exact .inr (hz' x hx)
      · have := hB x hx
        simp only [trimChar, decide_eq_true_eq] at this
        exact .inl this

theorem valid_of_noLong {out : Text} (h : NoLong out) :
    ∀ a c b, out = a ++ c :: b → Escaped a → c ∈ validEscape → simple c = true :=
  fun a c b h1 h2 h3 => simple_of_valid h3 (h a c b h1 h2)

/-- Escape sequences in careful texts. -/
def careful (c : Char) : Bool := simple c && !trimChar c

theorem careful_run {out : Text} (h : Careful out) (hcr : '\r' ∉ out) :
    run careful false (.ok 0) (mend out) = .ok 0 := by
  obtain ⟨A, B, h2, hA, hB⟩ := trim_spec out
  have hv : ∀ a c b, trim out = a ++ c :: b → Escaped a → c ∈ validEscape → careful c = true := by
    intro a c b ht he hval
    obtain ⟨g1, g2⟩ := escaped_within h2 hA ht
    have h3 := valid_of_noLong h.long _ c _ g1 (g2.2 he) hval
    have : ∀ x ∈ validEscape, x = '\n' ∨ x = '\r' ∨ trimChar x = false := by decide
    rcases this c hval with rfl | rfl | h4
    · exact absurd (g2.2 he) (h.breaks _ _ g1)
    · exact absurd (by rw [g1]; simp) hcr
    · simp [careful, h3, h4]
  obtain ⟨k, h1, h3, -⟩ := run_normalizeFrom (E := careful) (Q := false) (by decide) (trim out) [] 0 hv
    (fun _ a b ht => by
      obtain ⟨g1, g2⟩ := escaped_within h2 hA ht
      exact g2.1 (h.quotes _ _ g1)) (fun h => by cases h)
  rw [h3 rfl rfl] at h1
  have hE : ∀ c, trimChar c = true → careful c = false := fun c hc => by simp [careful, hc]
  have h4 := run_replaceFrom (E := careful) hE (by decide) (opening := noteOpen) (closing := noteClose)
    (label := "Note".toList) rfl rfl (by decide) (by decide) (by decide +kernel)
    (normalize (trim out)).length (normalize (trim out)) (.ok 0) (.inl rfl) (by
      have : run careful false (.ok 0) (normalize (trim out)) = .ok 0 := h1
      rw [this]; simp)
  have h5 : run careful false (.ok 0) (replaceTag noteOpen noteClose "Note".toList (normalize (trim out))) = .ok 0 :=
    h4.trans h1
  have h6 := run_replaceFrom (E := careful) hE (by decide) (opening := importantOpen) (closing := importantClose)
    (label := "Warning".toList) rfl rfl (by decide) (by decide) (by decide +kernel)
    (replaceTag noteOpen noteClose "Note".toList (normalize (trim out))).length
    (replaceTag noteOpen noteClose "Note".toList (normalize (trim out))) (.ok 0) (.inl rfl) (by rw [h5]; simp)
  exact h6.trans h5

theorem careful_simple {t : Text} {s : State} (h : run careful false s t ≠ .bad) :
    run simple true s t = run careful false s t :=
  run_mono (fun c hc => by simp only [careful, Bool.and_eq_true] at hc; exact hc.1) (fun h => by cases h) t s h

theorem mend_run {out : Text} (hcr : '\r' ∉ out) (h : Plain out ∨ Careful out) :
    run simple true (.ok 0) (mend out) ≠ .bad := by
  rcases h with h | h
  · obtain ⟨A, B, h2, hA, -⟩ := trim_spec out
    rw [mend_plain h.note h.important]
    obtain ⟨k, hk, -⟩ := run_plainDocs (E := simple) (by decide)
      (fun hin => h.quotes (hin.trans (trim_infix out))) (valid_within h2 hA (valid_of_noLong h.long))
    rw [hk]; simp
  · have := careful_run h hcr
    rw [careful_simple (by rw [this]; simp), this]
    simp

theorem run_escapeDollars {E : Char → Bool} (hE : E '$' = false) (t : Text) : ∀ s, run E true s t ≠ .bad →
    run E true s (escapeDollars t) = run E true s t := by
  induction t with
  | nil => intro s _; rfl
  | cons c t ih =>
    intro s h
    unfold escapeDollars at ih ⊢
    rw [List.flatMap_cons, run_append]
    rw [run_cons] at h
    have : run E true s (if c = '$' then ['$', '$'] else [c]) = step E true s c := by
      by_cases hc : c = '$'
      · subst hc
        rw [if_pos rfl]
        show step E true (step E true s '$') '$' = _
        cases s with
        | bad => rfl
        | esc => simp [step, hE]
        | ok q => simp [step]
      · rw [if_neg hc]; rfl
    rw [this, ih _ h]; rfl

/-! ## Theorems -/

/-- Documentation becomes one string literal, and nothing else, wherever it stands in the file. -/
theorem C116_literal_partial (ws : Char → Bool) (hws : ∀ c : Char, 33 ≤ c.toNat → c.toNat ≤ 126 → ws c = false)
    (indent : Text) (hi : ∀ c ∈ indent, c = ' ') (out : Text) (hcr : '\r' ∉ out)
    (h : Plain out ∧ (MultiLine out ∨ EndsWell ws out) ∨ Careful out) :
    ∃ written, writeDocs ws indent out = some written ∧ IsLiteral written := by
  rcases h with ⟨h, hend⟩ | h
  · obtain ⟨body, h1, h2, -⟩ := plain_body (E := simple) (by decide) (by decide) hws hi hcr h.quotes hend
      (mend_plain h.note h.important) (valid_of_noLong h.long)
    exact ⟨_, h1, literal_of_run h2⟩
  · have hr := careful_run h hcr
    rw [writeDocs_eq]
    refine ⟨_, rfl, ?_⟩
    split
    · rw [multiLine_eq]
      exact literal_of_run (run_multiBody (by decide) ws hi (mend_run hcr (.inr h)))
    · refine literal_of_run ?_
      obtain ⟨z, hz, hz'⟩ := trimEnd_prefix ws (mend out)
      have hne : run careful false (.ok 0) (trimEnd ws (mend out)) ≠ .bad := by
        refine run_prefix (b := z) ?_
        rw [← hz, hr]; simp
      have h0 : run careful false (.ok 0) (trimEnd ws (mend out)) = .ok 0 := by
        cases z with
        | nil => rw [hz, List.append_nil] at hr; exact hr
        | cons c z =>
          rw [hz, run_append] at hr
          refine ok_of_next (c := c) (t := z) (run_false _ _ (.inl rfl) hne) ?_ (by rw [hr]; simp)
          have hc := hz' c (by simp)
          by_cases hcc : careful c = true
          · exfalso
            have hs : simple c = true := by simp only [careful, Bool.and_eq_true] at hcc; exact hcc.1
            have ht : trimChar c = false := by
              simp only [careful, Bool.and_eq_true, Bool.not_eq_true'] at hcc; exact hcc.2
            have h33 : 33 ≤ c.toNat := by simp only [trimChar, decide_eq_false_iff_not] at ht; omega
            have h126 : c.toNat ≤ 126 := by
              simp only [simple, Bool.or_eq_true] at hs
              rcases hs with hs | hs
              · unfold simpleEscape at hs
                split at hs <;> first | decide | (simp at hs)
              · simp only [octalDigit, Bool.and_eq_true, decide_eq_true_eq] at hs
                have : c.toNat ≤ 55 := hs.2
                omega
            rw [hws c h33 h126] at hc
            cases hc
          · simpa using hcc
      rw [careful_simple hne, h0]

/-- So does the documentation of operations, with what the generator adds to it. -/
theorem C116_operation_partial (ws : Char → Bool) (indent : Text) (hi : ∀ c ∈ indent, c = ' ') (out tail : Text)
    (ht : ∀ c ∈ tail, c ≠ '\\' ∧ c ≠ '"') (hcr : '\r' ∉ out) (h : Plain out ∨ Careful out) :
    IsLiteral (writeOperationDocs ws indent out ('\n' :: tail)) := by
  unfold writeOperationDocs
  rw [multiLine_eq]
  refine literal_of_run (run_multiBody (by decide) ws hi ?_)
  have hr := mend_run hcr h
  unfold formatDocs
  rw [run_append, run_escapeDollars (by decide) _ _ hr, run_cons, run_newline (by decide) hr, run_plain ht]
  simp

/-! ### What the docstring says -/

/-- Escape sequences that do not stand for another character. -/
def literal (c : Char) : Bool := c = '\\' || c = '"' || c = '\n' || c = '\r'

theorem decode_filter (keep : Char → Bool) (h1 : keep '\\' = false) (h2 : keep '\n' = false) (h3 : keep '\r' = false) :
    ∀ (n : Nat) (t : Text), t.length ≤ n → ∀ q k, run literal true (.ok q) t = .ok k →
    ∃ v, decode t = some v ∧ v.filter keep = t.filter keep := by
  intro n
  induction n with
  | zero =>
    intro t ht q k _
    have : t = [] := List.length_eq_zero_iff.1 (by omega)
    subst this
    exact ⟨[], by rw [decode], rfl⟩
  | succ n ih =>
    intro t ht q k h
    cases t with
    | nil => exact ⟨[], by rw [decode], rfl⟩
    | cons c t =>
      rw [run_cons] at h
      simp only [List.length_cons] at ht
      by_cases hc : c = '\\'
      · subst hc
        have hst : step literal true (.ok q) '\\' = .esc := by simp [step]
        rw [hst] at h
        cases t with
        | nil => cases h
        | cons d t =>
          rw [run_cons] at h
          simp only [List.length_cons] at ht
          by_cases hd : literal d = true
          · have hst : step literal true .esc d = .ok 0 := by simp [step, hd]
            rw [hst] at h
            obtain ⟨w, hw, hw'⟩ := ih t (by omega) 0 k h
            have hd' : d = '\\' ∨ d = '"' ∨ d = '\n' ∨ d = '\r' := by
              simpa [literal, or_assoc] using hd
            rcases hd' with rfl | rfl | rfl | rfl
            · exact ⟨['\\'] ++ w, by rw [decode_simple rfl, hw]; rfl, by simp [h1, hw']⟩
            · exact ⟨['"'] ++ w, by rw [decode_simple rfl, hw]; rfl, by simp [h1, hw', List.filter_cons]⟩
            · exact ⟨[] ++ w, by rw [decode_simple rfl, hw]; rfl, by simp [h1, h2, hw']⟩
            · exact ⟨[] ++ w, by rw [decode_simple rfl, hw]; rfl, by simp [h1, h3, hw']⟩
          · have hst : step literal true .esc d = .bad := by simp [step, hd]
            rw [hst, run_bad] at h
            cases h
      · have hne : step literal true (.ok q) c ≠ .bad := by
          intro h'; rw [h', run_bad] at h; cases h
        obtain ⟨q', hq'⟩ : ∃ q', step literal true (.ok q) c = .ok q' := by
          simp only [step, if_neg hc] at hne ⊢
          split
          · next h1 =>
            rw [if_pos h1] at hne
            split
            · exact ⟨_, rfl⟩
            · next h2 => rw [if_neg h2] at hne; exact absurd rfl hne
          · exact ⟨_, rfl⟩
        rw [hq'] at h
        obtain ⟨w, hw, hw'⟩ := ih t (by omega) q' k h
        exact ⟨c :: w, by rw [decode_plain hc, hw]; rfl, by simp [List.filter_cons, hw']⟩

theorem filter_all {keep p : Char → Bool} {t : Text} (h : ∀ c ∈ t, p c = true) (hp : ∀ c, p c = true → keep c = false) :
    t.filter keep = [] := by
  rw [List.filter_eq_nil_iff]
  intro c hc
  rw [hp c (h c hc)]
  simp

theorem filter_trimEnd {keep p : Char → Bool} (hp : ∀ c, p c = true → keep c = false) (t : Text) :
    (trimEnd p t).filter keep = t.filter keep := by
  obtain ⟨z, hz, hz'⟩ := trimEnd_prefix p t
  conv => rhs; rw [hz]
  rw [List.filter_append, filter_all hz' hp, List.append_nil]

theorem filter_dropBlank {keep ws : Char → Bool} (hk : ∀ c, ws c = true → keep c = false) :
    ∀ (ls : List Text) (b : Bool), (dropBlank ws b ls).flatMap (·.filter keep) = ls.flatMap (·.filter keep) := by
  intro ls
  induction ls with
  | nil => intro b; rfl
  | cons l ls ih =>
    intro b
    rw [dropBlank]
    split
    · next hl =>
      have : l.filter keep = [] := filter_all (p := ws) (by simpa using hl) hk
      split
      · rw [ih, List.flatMap_cons, this, List.nil_append]
      · rw [List.flatMap_cons, List.flatMap_cons, ih]
    · rw [List.flatMap_cons, List.flatMap_cons, ih]

theorem filter_split {keep : Char → Bool} (hk : keep '\n' = false) (t : Text) :
    (Text.split '\n' t).flatMap (·.filter keep) = t.filter keep := by
  induction t with
  | nil => rfl
  | cons c t ih =>
    by_cases hc : c = '\n'
    · subst hc
      rw [Text.split, if_pos rfl, List.flatMap_cons, ih]
      simp [hk]
    · obtain ⟨p, ps, h1, h2⟩ := split_cons_ne c t hc
      rw [h1] at ih
      rw [h2, List.flatMap_cons]
      rw [List.flatMap_cons] at ih
      rw [List.filter_cons, List.filter_cons, ← ih]
      split <;> rfl

theorem filter_multiBody {keep ws : Char → Bool} (hk : ∀ c, trimChar c = true → keep c = false)
    (hw : ∀ c, ws c = true → keep c = false) {indent : Text} (hi : ∀ c ∈ indent, c = ' ') (t : Text) :
    (multiBody ws indent t).filter keep = t.filter keep := by
  have hind : indent.filter keep = [] :=
    filter_all (p := trimChar) (fun c hc => by rw [hi c hc]; decide) hk
  have hn : keep '\n' = false := hk _ (by decide)
  have hline : ∀ l, (writeLine indent l).filter keep = l.filter keep := by
    intro l
    unfold writeLine
    split
    · next h => rw [h]
    · rw [filter_trimEnd (p := (· = ' ')), List.filter_append, hind, List.nil_append]
      intro c hc
      simp only [decide_eq_true_eq] at hc
      rw [hc]; exact hk _ (by decide)
  unfold multiBody
  rw [List.cons_append, List.filter_cons, hn, List.filter_append, hind, List.append_nil]
  have : ∀ ls : List Text, (ls.flatMap (· ++ ['\n'])).filter keep = ls.flatMap (·.filter keep) := by
    intro ls
    induction ls with
    | nil => rfl
    | cons l ls ih => simp [List.flatMap_cons, List.filter_append, ih, hn]
  rw [if_neg (by simp), this, filter_dropBlank hw, List.flatMap_map]
  simp only [hline]
  rw [filter_split hn, filter_trimEnd hw]

/-- What may get lost in a docstring: white space and backslashes. -/
def lossy (ws : Char → Bool) (c : Char) : Bool := c.toNat ≤ 32 || ws c || c = '\\'

/-- The docstring says what pandoc's text says, but for white space and backslashes, if there are no
backslashes alone before letters or digits. -/
theorem C116_text_partial (ws : Char → Bool) (hws : ∀ c : Char, 33 ≤ c.toNat → c.toNat ≤ 126 → ws c = false)
    (indent : Text) (hi : ∀ c ∈ indent, c = ' ') (out : Text) (hcr : '\r' ∉ out) (h : Plain out)
    (hend : MultiLine out ∨ EndsWell ws out)
    (hletters : ∀ a c b, out = a ++ c :: b → Escaped a → c.isAlphanum = false) :
    ∃ body value, writeDocs ws indent out = some ("\"\"\"".toList ++ body ++ "\"\"\"".toList) ∧
      decode body = some value ∧ value.filter (!lossy ws ·) = out.filter (!lossy ws ·) := by
  obtain ⟨body, h1, h2, h3⟩ := plain_body (E := literal) (by decide) (by decide) hws hi hcr h.quotes hend
    (mend_plain h.note h.important) (by
      intro a c b g1 g2 g3
      have := hletters a c b g1 g2
      have hall : ∀ x ∈ validEscape, x.isAlphanum = true ∨ literal x = true := by decide
      rcases hall c g3 with g | g
      · rw [this] at g; cases g
      · exact g)
  have k1 : ∀ c, trimChar c = true → (!lossy ws c) = false := by
    intro c hc
    simp only [trimChar, decide_eq_true_eq] at hc
    simp [lossy, hc]
  have k2 : ∀ c, ws c = true → (!lossy ws c) = false := fun c hc => by simp [lossy, hc]
  have k3 : (!lossy ws '\\') = false := by simp [lossy]
  obtain ⟨v, hv, hv'⟩ := decode_filter (!lossy ws ·) k3 (k1 _ (by decide)) (k1 _ (by decide)) body.length body
    (Nat.le_refl _) 0 0 h2
  refine ⟨body, v, h1, hv, ?_⟩
  rw [hv']
  have hnorm : (normalize (trim out)).filter (!lossy ws ·) = (trim out).filter (!lossy ws ·) := by
    have hf : ∀ t : Text, t.filter (!lossy ws ·) = (t.filter (· ≠ '\\')).filter (!lossy ws ·) := by
      intro t
      rw [List.filter_filter]
      refine List.filter_congr fun c _ => ?_
      by_cases hc : c = '\\'
      · subst hc; simp [k3]
      · simp [hc]
    rw [hf, normalize, filter_normalizeFrom, ← hf]
  have htrim : (trim out).filter (!lossy ws ·) = out.filter (!lossy ws ·) := by
    obtain ⟨A, B, g1, gA, gB⟩ := trim_spec out
    conv => rhs; rw [g1]
    rw [List.filter_append, List.filter_append, filter_all gA k1, filter_all gB k1]
    simp
  rcases h3 with rfl | rfl
  · rw [filter_multiBody k1 k2 hi, hnorm, htrim]
  · rw [filter_trimEnd k2, hnorm, htrim]

/-! ## Where it fails -/

/-- `Character.isWhitespace` for the examples. -/
def space (c : Char) : Bool := c.toNat ≤ 32

/-- Pandoc leaves code as it is, also quotes: what comes after three of them is run when the module is
imported. -/
theorem C116_quotes_fails :
    (writeDocs space [] "`\"\"\"; run() #`\n".toList).bind (fun w => scan (w.drop 3)) =
      some ("`".toList, "; run() #`\"\"\"".toList) := by
  decide +kernel

/-- A block of code at the end may end with a quote, and the module cannot be imported. -/
theorem C116_end_fails :
    (writeDocs space [] "    x = \"a\"\n".toList).bind (fun w => scan (w.drop 3)) =
      some ("x = \"a".toList, "\"".toList) := by
  decide +kernel

/-- Backslashes in code are not doubled either: before `u` Python wants four digits. -/
theorem C116_users_fails :
    writeDocs space [] "`C:\\users`\n".toList = some "\"\"\"`C:\\users`\"\"\"".toList ∧
      decode "`C:\\users`".toList = none := by
  refine ⟨?_, ?_⟩ <;> decide +kernel

/-- Before `n` they are a line break. -/
theorem C116_new_fails :
    (writeDocs space [] "`C:\\new`\n".toList).bind (fun w => (scan (w.drop 3)).bind fun p => decode p.1) =
      some "`C:\new`".toList := by
  decide +kernel

/-- A line break at the end of a note leaves a backslash before what follows. -/
theorem C116_break_fails :
    (writeDocs space [] "<note>\na\\\n</note>users\n".toList) =
      some ("\"\"\"\nNote:\n    a\\users\n\"\"\"".toList) ∧
    decode "\nNote:\n    a\\users\n".toList = none := by
  refine ⟨?_, ?_⟩ <;> decide +kernel

/-- Dollar signs are doubled in the documentation of operations, where nothing halves them. -/
theorem C116_dollars_fails :
    (scan ((writeOperationDocs space [] "costs $5\n".toList "\n".toList).drop 3)).bind (fun p => decode p.1) =
      some "\ncosts $$5\n".toList := by
  decide +kernel

/-! ## Examples -/

namespace Example

theorem at_place {out a b : Text} {c : Char} (h : out = a ++ c :: b) :
    a.length < out.length ∧ out.take a.length = a ∧ out[a.length]? = some c ∧ out.drop (a.length + 1) = b := by
  subst h
  refine ⟨by simp, by simp, by simp, ?_⟩
  rw [← List.drop_drop, List.drop_left]
  rfl

instance (a : Text) : Decidable (Escaped a) := inferInstanceAs (Decidable (_ = _))

/-- Two paragraphs with a code span, escaped characters and quotes. -/
def plain : Text := "A `\"b\"` of \\*c\\*.\n\nCosts $5, C:\\\\users\\\n\\\"d\\\"\n".toList

theorem plain_ok : Plain plain where
  long := by
    intro a c b h he
    obtain ⟨h1, h2, h3, -⟩ := at_place h
    have : ∀ i < plain.length, ∀ x ∈ plain[i]?, Escaped (plain.take i) → x ≠ 'x' ∧ x ≠ 'N' ∧ x ≠ 'u' ∧ x ≠ 'U' := by
      decide +kernel
    exact this _ h1 c h3 (by rw [h2]; exact he)
  quotes := by decide +kernel
  note := by decide +kernel
  important := by decide +kernel

theorem plain_multiLine : MultiLine plain :=
  ⟨"A `\"b\"` of \\*c\\*.".toList, "\nCosts $5, C:\\\\users\\\n\\\"d\\\"\n".toList, by decide +kernel,
    ⟨'A', by decide +kernel, by decide +kernel⟩, ⟨'C', by decide +kernel, by decide +kernel⟩⟩

theorem plain_endsWell : EndsWell space plain := by
  intro a b h hb
  obtain ⟨h1, h2, h3, h4⟩ := at_place h
  have : ∀ i < plain.length, plain[i]? = some '"' →
      (∀ x ∈ plain.drop (i + 1), x.toNat ≤ 32 ∨ space x = true) → Escaped (plain.take i) := by
    decide +kernel
  have := this _ h1 h3 (by rw [h4]; exact hb)
  rwa [h2] at this

example : '\r' ∉ plain := by decide +kernel
example : ∀ a c b, plain = a ++ c :: b → Escaped a → c.isAlphanum = false := by
  intro a c b h he
  obtain ⟨h1, h2, h3, -⟩ := at_place h
  have : ∀ i < plain.length, ∀ x ∈ plain[i]?, Escaped (plain.take i) → x.isAlphanum = false := by decide +kernel
  exact this _ h1 c h3 (by rw [h2]; exact he)

example : writeDocs space "  ".toList plain =
    some "\"\"\"\n  A `\"b\"` of *c*.\n\n  Costs $5, C:\\\\users\\\n  \\\"d\\\"\n  \"\"\"".toList := by
  decide +kernel

/-- A text with a note. -/
def careful : Text := "A\n\n<note>\n\nSay \\\"b\\\".\nTwice.\n\n</note>\n".toList

theorem careful_ok : Careful careful where
  long := by
    intro a c b h he
    obtain ⟨h1, h2, h3, -⟩ := at_place h
    have : ∀ i < careful.length, ∀ x ∈ careful[i]?, Escaped (careful.take i) →
        x ≠ 'x' ∧ x ≠ 'N' ∧ x ≠ 'u' ∧ x ≠ 'U' := by decide +kernel
    exact this _ h1 c h3 (by rw [h2]; exact he)
  quotes := by
    intro a b h
    obtain ⟨h1, h2, h3, -⟩ := at_place h
    have : ∀ i < careful.length, careful[i]? = some '"' → Escaped (careful.take i) := by decide +kernel
    have := this _ h1 h3
    rwa [h2] at this
  breaks := by
    intro a b h
    obtain ⟨h1, h2, h3, -⟩ := at_place h
    have : ∀ i < careful.length, careful[i]? = some '\n' → ¬ Escaped (careful.take i) := by decide +kernel
    have := this _ h1 h3
    rwa [h2] at this

example : writeDocs space "  ".toList careful =
    some "\"\"\"\n  A\n\n  Note:\n      Say \\\"b\\\".\n      Twice.\n  \"\"\"".toList := by
  decide +kernel

end Example

end Verif.GeneratedDocs
