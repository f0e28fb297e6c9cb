import Verif.AwsConfig.Parse
import Verif.Common

/-!
# Shared configuration files (C47): lines, errors, the last assignment, and files that are written
-/

set_option autoImplicit false

namespace Verif.AwsConfig

open Verif.Dict Verif.Text

/-! ## Lines -/

theorem linesFrom_text (line : Text) : ∀ (acc t : Text), (∀ c ∈ line, isBreak c = false) →
    (acc ++ line ≠ [] ∨ line = []) → linesFrom acc false (line ++ t) = linesFrom (acc ++ line) false t := by
  induction line with
  | nil => intro acc t _ _; simp
  | cons c line ih =>
    intro acc t h _
    have hc := h c (by simp)
    rw [List.cons_append, linesFrom, if_neg (by simp), if_neg (by simp [hc]), ih (acc ++ [c]) t
      (fun x hx => h x (by simp [hx])) (.inl (by simp))]
    simp

/-- Lines end with a line feed, or a carriage return and a line feed; the last one may end with the file. -/
theorem C47_lines (ls : List (Text × Text)) (last : Text) (hl : ∀ c ∈ last, isBreak c = false)
    (h : ∀ e ∈ ls, (∀ c ∈ e.1, isBreak c = false) ∧ (e.2 = ['\n'] ∨ e.2 = ['\r', '\n'])) :
    splitLines ((ls.flatMap fun e => e.1 ++ e.2) ++ last) =
      ls.map Prod.fst ++ (if last = [] then [] else [last]) := by
  induction ls with
  | nil =>
    have := linesFrom_text last [] [] hl (by by_cases he : last = [] <;> simp [he])
    rw [List.append_nil] at this
    rw [List.flatMap_nil, List.nil_append, splitLines, this]
    rfl
  | cons e ls ih =>
    have ih := ih fun e he => h e (by simp [he])
    obtain ⟨h1, h2⟩ := h e (by simp)
    have hn : isBreak '\n' = true := by decide
    have hr : isBreak '\r' = true := by decide
    rw [List.flatMap_cons, List.append_assoc, List.append_assoc, splitLines, linesFrom_text e.1 [] _ h1 (by
      by_cases he : e.1 = [] <;> simp [he])]
    rw [List.map_cons, List.cons_append, ← ih]
    rcases h2 with h2 | h2
    · rw [h2, List.singleton_append, linesFrom, if_neg (by simp), if_pos hn]
      rfl
    · rw [h2, List.cons_append, linesFrom, if_neg (by simp), if_pos hr, List.singleton_append, linesFrom,
        if_pos (by simp)]
      rfl

/-! ## Errors -/

/-- A file whose first line other than comments and blank lines does not start a section is refused. -/
theorem C47_outside (content : Text) (c : Char) (t : Text) (ls : List Text)
    (h : (splitLines content).filter significant = (c :: t) :: ls) (hc : c ≠ '[')
    (hs : isSpace c = true → c = ' ' ∨ c = '\t') : parse content = .error .parse := by
  have hsig : significant (c :: t) = true := by
    have : c :: t ∈ (splitLines content).filter significant := by rw [h]; simp
    exact (List.mem_filter.1 this).2
  rw [parse, run_filter, h]
  have : step ⟨[], none, none, false, false⟩ (c :: t) = .error .parse := by
    simp only [significant, Bool.and_eq_true, Bool.not_eq_true', beq_eq_false_iff_ne, ne_eq, List.head?_cons,
      Option.some.injEq] at hsig
    cases hsp : isSpace c with
    | true =>
      rw [step_continuation _ c t (hs hsp), continuation]
      intro he
      rw [strip_eq_nil] at he
      rw [he] at hsig
      exact absurd hsig.1.1 (by simp)
    | false => rw [step_other _ c t hsp hsig.1.2 hsig.2 hc, property]
  simp only [run, this, Except.map]

/-- Lines that are errors wherever they are: a section without end or name, and, without indentation, a
property without equals sign or name. -/
inductive Malformed : Text → Prop
  | noEnd {t} : ']' ∉ t → Malformed ('[' :: t)
  | noName {a rest} : (∀ c ∈ a, isSpace c = true) → Malformed ('[' :: (a ++ ']' :: rest))
  | noEquals {c t} : isSpace c = false → c ≠ '#' → c ≠ ';' → c ≠ '[' → '=' ∉ c :: t → Malformed (c :: t)
  | noKey {t} : Malformed ('=' :: t)

theorem step_malformed (l : Text) (h : Malformed l) (st : St) : ∃ e, step st l = .error e := by
  have hb : isSpace '[' = false := by decide
  have hbracket : ∀ t, parseSection ('[' :: t) = .error .parse → step st ('[' :: t) = .error .parse := by
    intro t he
    have hl : strip ('[' :: t) ≠ [] := by rw [Ne, strip_eq_nil]; simp [hb]
    unfold step
    rw [if_neg hl, if_neg (by simp), if_neg (by simp), if_pos (by simp [hb])]
    simp only [he]
  cases h with
  | @noEnd t h =>
    refine ⟨.parse, hbracket _ ?_⟩
    rw [parseSection]
    have hmem : ']' ∉ strip ('[' :: t) := by
      intro hm
      have : ∀ u : Text, ∀ c ∈ strip u, c ∈ u := by
        intro u c hc
        unfold strip HeaderText.strip at hc
        have h1 := (List.dropWhile_suffix isSpace).subset (List.mem_reverse.1 hc)
        exact (List.dropWhile_suffix isSpace).subset (List.mem_reverse.1 h1)
      have := this _ _ hm
      simp at this
      exact h this
    rw [cut_of_not_mem _ _ hmem]
  | @noName a rest h =>
    refine ⟨.parse, hbracket _ ?_⟩
    rw [parseSection]
    have hr : ∃ rest', strip ('[' :: (a ++ ']' :: rest)) = ('[' :: a) ++ ']' :: rest' := by
      refine ⟨rstrip rest, ?_⟩
      have e : ('[' :: (a ++ ']' :: rest)) = ('[' :: a) ++ ']' :: rest := by simp
      rw [e]
      unfold strip HeaderText.strip rstrip
      rw [HeaderText.dropWhile_head isSpace ('[' :: a ++ ']' :: rest)
        (by intro c hc; simp at hc; rw [← hc]; exact hb)]
      rw [List.reverse_append, List.reverse_cons, List.append_assoc, List.dropWhile_append]
      split
      · rename_i he
        rw [List.isEmpty_iff] at he
        rw [he]
        simp [show isSpace ']' = false by decide]
      · simp
    obtain ⟨rest', hr⟩ := hr
    have hnot : ']' ∉ '[' :: a := by
      simp only [List.mem_cons, not_or]
      exact ⟨by decide, fun hm => (space_ne (h _ hm)).2.2.2.2 rfl⟩
    rw [hr, cut_append _ _ _ hnot]
    have : strip a = [] := HeaderText.strip_blanks a h
    simp [this]
  | @noEquals c t h h1 h2 h3 h4 =>
    refine ⟨.parse, ?_⟩
    rw [step_other st c t h h1 h2 h3, property]
    cases st.section? with
    | none => rfl
    | some s => simp only [parseProperty, cut_of_not_mem _ _ h4]
  | @noKey t =>
    refine ⟨.parse, ?_⟩
    rw [step_other st '=' t (by decide) (by decide) (by decide) (by decide), property]
    cases st.section? with
    | none => rfl
    | some s =>
      have : parseProperty ('=' :: t) = .error .parse := by
        unfold parseProperty
        have := cut_append '=' [] t (by simp)
        rw [List.nil_append] at this
        rw [this]
        simp [show strip [] = [] from rfl]
      simp only [this]

/-- A file with such a line is refused, whatever else is in it. -/
theorem C47_malformed (content l : Text) (hl : l ∈ splitLines content) (h : Malformed l) :
    ∃ e, parse content = .error e := by
  have key : ∀ (ls : List Text) (st : St), l ∈ ls → ∃ e, run st ls = .error e := by
    intro ls
    induction ls with
    | nil => intro st hl; simp at hl
    | cons x ls ih =>
      intro st hl
      simp only [run]
      rcases List.mem_cons.1 hl with rfl | hl
      · obtain ⟨e, he⟩ := step_malformed l h st
        exact ⟨e, by rw [he]⟩
      · cases hx : step st x with
        | error e => exact ⟨e, rfl⟩
        | ok st' => exact ih st' hl
  obtain ⟨e, he⟩ := key _ ⟨[], none, none, false, false⟩ hl
  exact ⟨e, by rw [parse, he]; rfl⟩

/-- The current section exists, as does the current property, which is text unless sub-properties may
follow. -/
def Inv (st : St) : Prop := ∀ s, st.section? = some s → ∃ p, st.sections.lookup s = some p ∧
  ∀ k, st.key = some k → ∃ v, p.lookup k = some v ∧ (st.inSub = false → ∃ t, v = .text t)

theorem handleSub_ok (l : Text) (old : Value) : handleSub l old ≠ .error .crash := by
  unfold handleSub
  simp only
  split
  · simp
  · split
    · simp
    · split <;> simp

theorem step_inv (st : St) (l : Text) (h : Inv st) :
    step st l ≠ .error .crash ∧ ∀ st', step st l = .ok st' → Inv st' := by
  unfold step
  split
  · exact ⟨by simp, fun st' he => by cases he; exact h⟩
  · split
    · unfold continuation
      cases hs : st.section? with
      | none => simp
      | some s =>
        simp only
        cases hi : st.ignore with
        | true => exact ⟨by simp, fun st' he => by simp at he; rw [← he]; exact h⟩
        | false =>
          simp only [Bool.false_eq_true, if_false]
          cases hk : st.key with
          | none => simp
          | some k =>
            obtain ⟨p, hp, hpk⟩ := h s hs
            obtain ⟨v, hv, ht⟩ := hpk k hk
            have hg : getValue st.sections s k = some v := by rw [getValue, hp]; exact hv
            simp only [hg]
            cases hsub : st.inSub with
            | true =>
              simp only [if_true]
              cases hh : handleSub (strip l) v with
              | error e =>
                refine ⟨?_, by simp⟩
                have := handleSub_ok (strip l) v
                rw [hh] at this
                simpa using this
              | ok v' =>
                simp only [setValue, hp]
                refine ⟨by simp, fun st' he => ?_⟩
                simp only [Except.ok.injEq] at he
                rw [← he]
                intro s' hs'
                simp only [Option.some.injEq] at hs'
                subst hs'
                refine ⟨put p k v', by simp [lookup_put], fun k' hk' => ?_⟩
                simp only [Option.some.injEq] at hk'
                subst hk'
                exact ⟨v', by simp [lookup_put], by simp⟩
            | false =>
              obtain ⟨t, rfl⟩ := ht hsub
              simp only [Bool.false_eq_true, if_false, setValue, hp]
              refine ⟨by simp, fun st' he => ?_⟩
              simp only [Except.ok.injEq] at he
              rw [← he]
              intro s' hs'
              simp only [Option.some.injEq] at hs'
              subst hs'
              refine ⟨_, by rw [lookup_put, if_pos rfl], fun k' hk' => ?_⟩
              simp only [Option.some.injEq] at hk'
              subst hk'
              exact ⟨_, by rw [lookup_put, if_pos rfl], fun _ => ⟨_, rfl⟩⟩
    · split
      · exact ⟨by simp, fun st' he => by cases he; exact h⟩
      · split
        · cases hp : parseSection l with
          | error e =>
            simp only
            refine ⟨?_, by simp⟩
            unfold parseSection at hp
            simp only at hp
            split at hp
            · simp only [Except.error.injEq] at hp; simp [← hp]
            · split at hp
              · simp only [Except.error.injEq] at hp; simp [← hp]
              · simp at hp
          | ok name =>
            simp only
            refine ⟨by simp, fun st' he => ?_⟩
            simp only [Except.ok.injEq] at he
            rw [← he]
            intro s hs
            simp only [Option.some.injEq] at hs
            subst hs
            cases hl : st.sections.lookup name with
            | none => exact ⟨[], by simp [lookup_put], by simp⟩
            | some p => exact ⟨p, by simp [hl], by simp⟩
        · unfold property
          cases hs : st.section? with
          | none => simp
          | some s =>
            obtain ⟨p, hp, hpk⟩ := h s hs
            cases hpp : parseProperty l with
            | error e =>
              simp only
              refine ⟨?_, by simp⟩
              unfold parseProperty at hpp
              simp only at hpp
              split at hpp
              · simp only [Except.error.injEq] at hpp; simp [← hpp]
              · split at hpp
                · simp only [Except.error.injEq] at hpp; simp [← hpp]
                · split at hpp <;> simp at hpp
            | ok r =>
              obtain ⟨k, v⟩ := r
              cases k with
              | none =>
                simp only
                refine ⟨by simp, fun st' he => ?_⟩
                simp only [Except.ok.injEq] at he
                rw [← he]
                intro s' hs'
                exact h s' (by rw [hs]; exact hs')
              | some k =>
                simp only [setValue, hp]
                refine ⟨by simp, fun st' he => ?_⟩
                simp only [Except.ok.injEq] at he
                rw [← he]
                intro s' hs'
                simp only [Option.some.injEq] at hs'
                subst hs'
                refine ⟨_, by rw [lookup_put, if_pos rfl], fun k' hk' => ?_⟩
                simp only [Option.some.injEq] at hk'
                subst hk'
                exact ⟨_, by rw [lookup_put, if_pos rfl], fun _ => ⟨_, rfl⟩⟩

/-- Whatever is in the file, it is parsed or refused with the error for malformed files. -/
theorem C47_total (content : Text) : parse content = .error .parse ∨ ∃ d, parse content = .ok d := by
  have key : ∀ (ls : List Text) (st : St), Inv st → run st ls ≠ .error .crash := by
    intro ls
    induction ls with
    | nil => intro st _; simp [run]
    | cons l ls ih =>
      intro st h
      simp only [run]
      have := step_inv st l h
      cases hs : step st l with
      | error e =>
        simp only
        rw [hs] at this
        simpa using this.1
      | ok st' => exact ih st' (this.2 st' hs)
  have := key (splitLines content) ⟨[], none, none, false, false⟩ (by intro s hs; simp at hs)
  unfold parse
  cases hr : run ⟨[], none, none, false, false⟩ (splitLines content) with
  | error e =>
    rw [hr] at this
    cases e with
    | crash => exact absurd rfl this
    | parse => exact .inl rfl
  | ok st => exact .inr ⟨_, rfl⟩

/-! ## The last assignment wins -/

theorem assemble_lookup (s : Text) (bs : List (Text × List (Text × Value))) : ∀ d : Sections,
    (bs.foldl (fun d b => put d b.1 (update ((d.lookup b.1).getD []) b.2)) d).lookup s =
      if ∃ b ∈ bs, b.1 = s then
        some (update ((d.lookup s).getD []) ((bs.filter fun b => b.1 = s).flatMap Prod.snd))
      else d.lookup s := by
  induction bs with
  | nil => intro d; simp
  | cons b bs ih =>
    intro d
    rw [List.foldl_cons, ih, lookup_put]
    by_cases hb : s = b.1
    · subst hb
      rw [if_pos rfl]
      have h1 : ∃ b' ∈ b :: bs, b'.1 = b.1 := ⟨b, by simp, rfl⟩
      rw [if_pos h1]
      simp only [List.filter_cons, decide_true, if_true, List.flatMap_cons, Option.getD_some]
      have hu : ∀ (x y z : List (Text × Value)), update x (y ++ z) = update (update x y) z := by
        intro x y z; simp [update]
      by_cases h2 : ∃ b' ∈ bs, b'.1 = b.1
      · rw [if_pos h2, hu]
      · rw [if_neg h2, List.filter_eq_nil_iff.2]
        · simp
        · intro x hx
          simpa using fun he => h2 ⟨x, hx, he⟩
    · rw [if_neg hb]
      have h2 : (∃ b' ∈ b :: bs, b'.1 = s) ↔ ∃ b' ∈ bs, b'.1 = s := by
        constructor
        · rintro ⟨x, hx, rfl⟩
          rcases List.mem_cons.1 hx with rfl | hx
          · exact absurd rfl hb
          · exact ⟨x, hx, rfl⟩
        · rintro ⟨x, hx, rfl⟩; exact ⟨x, by simp [hx], rfl⟩
      simp only [h2, List.filter_cons, decide_eq_true_eq, if_neg (Ne.symm hb)]

/-- A section is there if the file has a block with its name, and a property has the value of the last
assignment to it in the blocks of its section. -/
theorem C47_last (blocks : List (Text × List (Text × Value))) (s : Text) :
    ((assemble blocks).lookup s = none ↔ ∀ b ∈ blocks, b.1 ≠ s) ∧
    ∀ k, getValue (assemble blocks) s k =
      (((blocks.filter fun b => b.1 = s).flatMap Prod.snd).reverse.find? fun e => e.1 = k).map Prod.snd := by
  have hlook := assemble_lookup s blocks []
  have hfind : ∀ (d : List (Text × Value)) (k : Text), d.lookup k = (d.find? fun e => e.1 = k).map Prod.snd := by
    intro d k
    induction d with
    | nil => rfl
    | cons e d ih =>
      obtain ⟨a, b⟩ := e
      rw [lookup_cons, List.find?_cons, ih]
      by_cases h : k = a
      · subst h; simp
      · simp [h, Ne.symm h]
  constructor
  · unfold assemble
    rw [hlook]
    by_cases h : ∃ b ∈ blocks, b.1 = s
    · rw [if_pos h]
      simpa using h
    · rw [if_neg h]
      simp only [List.lookup_nil, true_iff]
      exact fun b hb he => h ⟨b, hb, he⟩
  · intro k
    rw [getValue, assemble, hlook]
    by_cases h : ∃ b ∈ blocks, b.1 = s
    · rw [if_pos h]
      simp only [List.lookup_nil, Option.getD_none, Option.bind_some, lookup_update, Option.or_none]
      exact hfind _ k
    · rw [if_neg h]
      have : (blocks.filter fun b => b.1 = s) = [] := by
        rw [List.filter_eq_nil_iff]
        intro x hx
        simpa using fun he => h ⟨x, hx, he⟩
      rw [this]
      rfl

/-! ## Files that are written -/

/-- The value of a property to be written: lines of text, or sub-properties. -/
inductive Written where
  | lines (first : Text) (more : List Text)
  | subs (entries : List (Text × Text))
  deriving DecidableEq, Repr

def Written.value : Written → Value
  | .lines first more => .text (join '\n' (first :: more))
  | .subs entries => .subs entries

/-- `key = value`, with further lines indented. -/
def writeProperty (e : Text × Written) : List Text :=
  match e.2 with
  | .lines first more => (e.1 ++ " = ".toList ++ first) :: more.map fun l => ' ' :: ' ' :: l
  | .subs entries => (e.1 ++ " =".toList) :: entries.map fun s => ' ' :: ' ' :: (s.1 ++ " = ".toList ++ s.2)

def writeSection (s : Text × List (Text × Written)) : List Text :=
  ('[' :: (s.1 ++ [']'])) :: s.2.flatMap writeProperty

/-- The text of a file. -/
def write (f : List (Text × List (Text × Written))) : Text :=
  (f.flatMap writeSection).flatMap fun l => l ++ ['\n']

/-- A valid name in lower case. -/
def Name (k : Text) : Prop := isIdent k = true ∧ lower k = k

/-- Text that is on one line, without spaces at its ends or the start of a comment in it; a value that goes on
does so with lines that are not empty.  Sub-properties have distinct names. -/
def Written.Ok : Written → Prop
  | .lines first more => Plain first ∧ (∀ x s y, first = x ++ s ++ y → ¬CommentStart s) ∧
      (first = [] → more = []) ∧ ∀ l ∈ more, Plain l ∧ l ≠ []
  | .subs entries => entries ≠ [] ∧ (entries.map Prod.fst).Nodup ∧ ∀ e ∈ entries, Name e.1 ∧ Plain e.2

/-- Sections and, in each, properties have distinct names. -/
def FileOk (f : List (Text × List (Text × Written))) : Prop :=
  (f.map Prod.fst).Nodup ∧ ∀ s ∈ f, Plain s.1 ∧ s.1 ≠ [] ∧ ']' ∉ s.1 ∧ (s.2.map Prod.fst).Nodup ∧
    ∀ e ∈ s.2, Name e.1 ∧ e.2.Ok

theorem put_new {V : Type} (k : Text) (v : V) : ∀ d : List (Text × V), k ∉ d.map Prod.fst →
    put d k v = d ++ [(k, v)]
  | [], _ => rfl
  | e :: d, h => by
    simp only [List.map_cons, List.mem_cons, not_or] at h
    rw [put, if_neg (fun he => h.1 he.symm), put_new k v d h.2, List.cons_append]

theorem update_new {V : Type} : ∀ (e d : List (Text × V)), ((d ++ e).map Prod.fst).Nodup → update d e = d ++ e
  | [], d, _ => by simp [update]
  | (k, v) :: e, d, h => by
    have hk : k ∉ d.map Prod.fst := by
      rw [List.map_append, List.nodup_append] at h
      exact fun hm => h.2.2 k hm k (by simp) rfl
    have : update d ((k, v) :: e) = update (put d k v) e := rfl
    rw [this, put_new k v d hk, update_new e _ (by simpa using h)]
    simp

theorem assemble_new : ∀ (bs : List (Text × List (Text × Value))) (d : Sections), ((d ++ bs).map Prod.fst).Nodup →
    (∀ b ∈ bs, (b.2.map Prod.fst).Nodup) →
    bs.foldl (fun d b => put d b.1 (update ((d.lookup b.1).getD []) b.2)) d = d ++ bs
  | [], d, _, _ => by simp
  | (k, ps) :: bs, d, h, hp => by
    have hk : k ∉ d.map Prod.fst := by
      rw [List.map_append, List.nodup_append] at h
      exact fun hm => h.2.2 k hm k (by simp) rfl
    rw [List.foldl_cons]
    simp only
    rw [(lookup_eq_none k d).2 hk, Option.getD_none, update_new ps [] (by simpa using hp (k, ps) (by simp)),
      put_new k _ d hk, List.nil_append, assemble_new bs _ (by simpa using h) (fun b hb => hp b (by simp [hb]))]
    simp

theorem blank_nil : Blank [] := by intro c hc; simp at hc

theorem blank_space : Blank [' '] := by
  intro c hc
  simp only [List.mem_singleton] at hc
  subst hc
  decide

theorem plain_nil : Plain [] := by
  refine ⟨?_, ?_, ?_⟩ <;> intro c hc <;> simp at hc

theorem write_defines (e : Text × Written) (hn : Name e.1) (hok : e.2.Ok) :
    Defines (writeProperty e) e.1 e.2.value := by
  obtain ⟨k, w⟩ := e
  cases w with
  | lines first more =>
    obtain ⟨h1, h2, h3, h4⟩ := hok
    simp only [writeProperty, Written.value]
    refine .text ?_ (fun h => by rw [h3 h]; rfl) ?_
    · have := Assigns.mk (tail := []) hn.1 blank_space blank_space h1 h2 (.blank blank_nil)
      rw [hn.2] at this
      simpa using this
    · rw [List.forall₂_map_left_iff]
      apply List.forall₂_same.2
      intro l hl
      obtain ⟨hp, hne⟩ := h4 l hl
      exact ⟨hp, hne, ' ', [' '], [], by simp, .inl rfl, blank_space, blank_nil⟩
  | subs entries =>
    obtain ⟨h1, h2, h3⟩ := hok
    simp only [writeProperty, Written.value]
    have hu := update_new entries [] (by simpa using h2)
    rw [List.nil_append] at hu
    rw [← hu]
    refine .subs ?_ (by rw [hu]; simpa using h1) ?_
    · have := Assigns.mk (tail := []) hn.1 blank_space blank_nil plain_nil (fun x s y h hs => by
        obtain ⟨a, b, rfl, _⟩ := hs
        simp at h) (.blank blank_nil)
      rw [hn.2] at this
      simpa using this
    · rw [hu, List.forall₂_map_left_iff]
      apply List.forall₂_same.2
      intro s hs
      obtain ⟨hn', hp⟩ := h3 s hs
      have := SubAssigns.mk (c := ' ') (tail := []) (.inl rfl) blank_space hn'.1 blank_space blank_space hp blank_nil
      rw [hn'.2] at this
      simpa using this

/-- The lines that are written say something, and end where they should. -/
theorem write_lines (f : List (Text × List (Text × Written))) (h : FileOk f) :
    ∀ l ∈ f.flatMap writeSection, significant l = true ∧ ∀ c ∈ l, isBreak c = false := by
  have hsp : isBreak ' ' = false ∧ isSpace ' ' = true := by decide
  have heq : isBreak '=' = false ∧ isSpace '=' = false := by decide
  have hlb : isBreak '[' = false ∧ isSpace '[' = false ∧ isBreak ']' = false := by decide
  have hname : ∀ (k t : Text), Name k → (∀ c ∈ t, isBreak c = false) →
      significant (k ++ t) = true ∧ ∀ c ∈ k ++ t, isBreak c = false := by
    intro k t hk ht
    obtain ⟨c, u, rfl, hc⟩ := isIdent_head hk.1
    obtain ⟨h1, h2, h3⟩ := ident_facts c hc
    simp only [List.mem_cons, List.not_mem_nil, or_false, not_or] at h3
    refine ⟨by simp [significant, h1, h3], ?_⟩
    intro x hx
    rcases List.mem_append.1 hx with hx | hx
    · exact (isIdent_plain hk.1).2.2 x hx
    · exact ht x hx
  have hsub : ∀ (t : Text), (∃ c ∈ t, isSpace c = false) → (∀ c ∈ t, isBreak c = false) →
      significant (' ' :: ' ' :: t) = true ∧ ∀ c ∈ ' ' :: ' ' :: t, isBreak c = false := by
    intro t ⟨c, hc, hs⟩ ht
    have hany : t.all isSpace = false := by
      rw [List.all_eq_false]
      exact ⟨c, hc, by simp [hs]⟩
    refine ⟨by simp [significant, hsp.2, hany], ?_⟩
    intro x hx
    simp only [List.mem_cons] at hx
    rcases hx with rfl | rfl | hx
    · exact hsp.1
    · exact hsp.1
    · exact ht x hx
  intro l hl
  obtain ⟨s, hs, hl⟩ := List.mem_flatMap.1 hl
  obtain ⟨h1, h2, _, _, h5⟩ := h.2 s hs
  rcases List.mem_cons.1 hl with rfl | hl
  · refine ⟨by simp [significant, hlb.2.1], ?_⟩
    intro c hc
    simp only [List.mem_cons, List.mem_append, List.not_mem_nil, or_false] at hc
    rcases hc with rfl | hc | rfl
    · exact hlb.1
    · exact h1.2.2 c hc
    · exact hlb.2.2
  · obtain ⟨e, he, hl⟩ := List.mem_flatMap.1 hl
    obtain ⟨hn, hok⟩ := h5 e he
    obtain ⟨k, w⟩ := e
    cases w with
    | lines first more =>
      obtain ⟨p1, _, _, p4⟩ := hok
      simp only [writeProperty] at hl
      rcases List.mem_cons.1 hl with rfl | hl
      · rw [List.append_assoc]
        apply hname _ _ hn
        intro c hc
        simp only [String.reduceToList, List.mem_append, List.mem_cons, List.not_mem_nil, or_false] at hc
        rcases hc with (rfl | rfl | rfl) | hc
        · exact hsp.1
        · exact heq.1
        · exact hsp.1
        · exact p1.2.2 c hc
      · obtain ⟨t, ht, rfl⟩ := List.mem_map.1 hl
        obtain ⟨q1, q2⟩ := p4 t ht
        refine hsub t ?_ q1.2.2
        cases t with
        | nil => exact absurd rfl q2
        | cons c t => exact ⟨c, by simp, q1.1 c (by simp)⟩
    | subs entries =>
      obtain ⟨_, _, p3⟩ := hok
      simp only [writeProperty] at hl
      rcases List.mem_cons.1 hl with rfl | hl
      · apply hname _ _ hn
        intro c hc
        simp only [String.reduceToList, List.mem_cons, List.not_mem_nil, or_false] at hc
        rcases hc with rfl | rfl
        · exact hsp.1
        · exact heq.1
      · obtain ⟨t, ht, rfl⟩ := List.mem_map.1 hl
        obtain ⟨q1, q2⟩ := p3 t ht
        refine hsub _ ⟨'=', by simp, heq.2⟩ ?_
        intro c hc
        simp only [String.reduceToList, List.mem_append, List.mem_cons, List.not_mem_nil, or_false] at hc
        rcases hc with (hc | rfl | rfl | rfl) | hc
        · exact (isIdent_plain q1.1).2.2 c hc
        · exact hsp.1
        · exact heq.1
        · exact hsp.1
        · exact q2.2.2 c hc

/-- Parsing a file that is written gives its sections and properties back. -/
theorem C47_round_trip (f : List (Text × List (Text × Written))) (h : FileOk f) :
    parse (write f) = .ok (f.map fun s => (s.1, s.2.map fun e => (e.1, e.2.value))) := by
  have hlines : splitLines (write f) = f.flatMap writeSection := by
    have := C47_lines ((f.flatMap writeSection).map fun l => (l, ['\n'])) [] (by simp) (by
      intro e he
      obtain ⟨l, hl, rfl⟩ := List.mem_map.1 he
      exact ⟨(write_lines f h l hl).2, .inl rfl⟩)
    rw [List.flatMap_map, List.map_map, List.append_nil] at this
    rw [write, this]
    simp [Function.comp_def]
  have hfilter : (splitLines (write f)).filter significant = f.flatMap writeSection := by
    rw [hlines]
    exact List.filter_eq_self.2 fun l hl => (write_lines f h l hl).1
  have hprops : ∀ es : List (Text × Written), (∀ e ∈ es, Name e.1 ∧ e.2.Ok) →
      Properties (es.flatMap writeProperty) (es.map fun e => (e.1, e.2.value)) := by
    intro es
    induction es with
    | nil => intro _; exact .nil
    | cons e es ih =>
      intro h
      obtain ⟨hn, hok⟩ := h e (by simp)
      exact .property (write_defines e hn hok) (ih fun e he => h e (by simp [he]))
  have hdenotes : Denotes (f.flatMap writeSection) (f.map fun s => (s.1, s.2.map fun e => (e.1, e.2.value))) := by
    replace h := h.2
    clear hlines hfilter
    induction f with
    | nil => exact .nil
    | cons s f ih =>
      obtain ⟨h1, h2, h3, _, h5⟩ := h s (by simp)
      rw [List.flatMap_cons, writeSection, List.cons_append]
      refine .block ?_ (hprops s.2 h5) (ih fun s hs => h s (by simp [hs]))
      have := Header.mk (rest := []) blank_nil h1 h2 h3 blank_nil
      simpa using this
  rw [C47_meaning (write f) _ (by rw [hfilter]; exact hdenotes)]
  rw [assemble, assemble_new _ [] (by
    simp only [List.nil_append, List.map_map, Function.comp_def]
    exact h.1) (by
    intro b hb
    obtain ⟨s, hs, rfl⟩ := List.mem_map.1 hb
    simp only [List.map_map, Function.comp_def]
    exact (h.2 s hs).2.2.2.1)]
  rfl

/-! ## A comment where the value should be -/

/-- A comment that follows the equals sign directly is the value: comments do have an effect there. -/
theorem C47_empty_value_fails :
    parse "[s]\nk = # comment\n".toList = .ok [("s".toList, [("k".toList, .text "# comment".toList)])] ∧
    parse "[s]\nk = v # comment\n".toList = .ok [("s".toList, [("k".toList, .text "v".toList)])] := by
  constructor <;> decide +kernel

/-! ## The hypotheses are met -/

def exampleText : Text :=
  "# shared\n\n[profile  dev] ; team\nRegion = us-west-2 ; home\nbad key = x\n more\ns3 =\n  max = 10\n".toList ++
    "[profile  dev]\nregion=eu-west-1\n  # kept\n".toList

/-- The text, and what it says: comments, an ignored key, sub-properties, a repeated section and a value that
goes on. -/
theorem example_denotes : Denotes ((splitLines exampleText).filter significant)
    [("profile  dev".toList, [("region".toList, .text "us-west-2".toList),
        ("s3".toList, .subs [("max".toList, "10".toList)])]),
      ("profile  dev".toList, [("region".toList, .text "eu-west-1\n# kept".toList)])] := by
  have hp : ∀ t : Text, (∀ c ∈ t.head?, isSpace c = false) → (∀ c ∈ t.getLast?, isSpace c = false) →
      (∀ c ∈ t, isBreak c = false) → Plain t := fun t a b c => ⟨a, b, c⟩
  have hno : ∀ v : Text, '#' ∉ v → ';' ∉ v → ∀ x s y, v = x ++ s ++ y → ¬CommentStart s := by
    rintro v h1 h2 x s y rfl ⟨a, b, rfl, _, rfl | rfl⟩
    · simp at h1
    · simp at h2
  have hb : ∀ t : Text, (∀ c ∈ t, isSpace c = true ∧ isBreak c = false) → Blank t := fun t h => h
  have e : (splitLines exampleText).filter significant =
      "[profile  dev] ; team".toList ::
        ((["Region = us-west-2 ; home".toList] ++ (["bad key = x".toList, " more".toList] ++
          (["s3 =".toList, "  max = 10".toList] ++ []))) ++
      ("[profile  dev]".toList :: ((["region=eu-west-1".toList, "  # kept".toList] ++ []) ++ []))) := by
    decide +kernel
  rw [e]
  have name := hp "profile  dev".toList (by decide) (by decide) (by decide)
  refine .block (Header.mk (a := []) (b := []) (rest := " ; team".toList) blank_nil name (by decide) (by decide)
    blank_nil) (.property (.text (more := []) (texts := []) ?_ (by simp) .nil) (.ignored ?_ (.property (.subs
      (entries := [("max".toList, "10".toList)]) ?_ (by simp) (.cons ?_ .nil)) .nil)))
    (.block (Header.mk (a := []) (b := []) (rest := []) blank_nil name (by decide) (by decide) blank_nil)
      (.property (.text (value := "eu-west-1".toList) (texts := ["# kept".toList]) ?_ (by simp) (.cons ?_ .nil)) .nil) .nil)
  · exact Assigns.mk (key := "Region".toList) (a := " ".toList) (b := " ".toList) (value := "us-west-2".toList)
      (tail := [] ++ " ;".toList ++ " home".toList) (by decide) (hb _ (by decide)) (hb _ (by decide))
      (hp _ (by decide) (by decide) (by decide)) (hno _ (by decide) (by decide))
      (.comment (by decide) blank_nil ⟨' ', ';', rfl, .inl rfl, .inr rfl⟩ (by decide))
  · exact ⟨"bad key".toList, " ".toList, " x".toList, [" more".toList], rfl,
      hp _ (by decide) (by decide) (by decide), hb _ (by decide), by decide, by decide, by decide, by decide,
      by decide⟩
  · exact Assigns.mk (key := "s3".toList) (a := " ".toList) (b := []) (value := []) (tail := []) (by decide)
      (hb _ (by decide)) blank_nil plain_nil (hno _ (by decide) (by decide)) (.blank blank_nil)
  · exact SubAssigns.mk (c := ' ') (pad := " ".toList) (key := "max".toList) (a := " ".toList) (b := " ".toList)
      (value := "10".toList) (tail := []) (.inl rfl) (hb _ (by decide)) (by decide) (hb _ (by decide))
      (hb _ (by decide)) (hp _ (by decide) (by decide) (by decide)) blank_nil
  · exact Assigns.mk (key := "region".toList) (a := []) (b := []) (value := "eu-west-1".toList) (tail := [])
      (by decide) blank_nil blank_nil (hp _ (by decide) (by decide) (by decide)) (hno _ (by decide) (by decide))
      (.blank blank_nil)
  · exact ⟨hp _ (by decide) (by decide) (by decide), by decide, ' ', " ".toList, [], rfl, .inl rfl,
      hb _ (by decide), blank_nil⟩

example : parse exampleText = .ok [("profile  dev".toList, [("region".toList, .text "eu-west-1\n# kept".toList),
    ("s3".toList, .subs [("max".toList, "10".toList)])])] := by
  rw [C47_meaning _ _ example_denotes]
  decide +kernel

example : ∃ c t ls, (splitLines "# x\nregion = y\n[s]\n".toList).filter significant = (c :: t) :: ls ∧ c ≠ '[' ∧
    (isSpace c = true → c = ' ' ∨ c = '\t') :=
  ⟨'r', "egion = y".toList, ["[s]".toList], by decide +kernel, by decide, by decide⟩

example : "[profile x".toList ∈ splitLines "[profile x\na = b\n".toList ∧ Malformed "[profile x".toList :=
  ⟨by decide +kernel, .noEnd (by decide)⟩

example : FileOk [("profile dev".toList, [("region".toList, .lines "us-west-2".toList []),
    ("s3".toList, .subs [("max".toList, "10".toList)]), ("note".toList, .lines "a".toList ["b # c".toList])])] := by
  have hno : ∀ v : Text, '#' ∉ v → ';' ∉ v → ∀ x s y, v = x ++ s ++ y → ¬CommentStart s := by
    rintro v h1 h2 x s y rfl ⟨a, b, rfl, _, rfl | rfl⟩
    · simp at h1
    · simp at h2
  refine ⟨by decide, fun s hs => ?_⟩
  rw [List.mem_singleton] at hs
  subst hs
  refine ⟨⟨by decide, by decide, by decide⟩, by decide, by decide, by decide, fun e he => ?_⟩
  simp only [List.mem_cons, List.not_mem_nil, or_false] at he
  rcases he with rfl | rfl | rfl
  · exact ⟨⟨by decide, by decide⟩, ⟨by decide, by decide, by decide⟩, hno _ (by decide) (by decide), by decide,
      by simp⟩
  · exact ⟨⟨by decide, by decide⟩, by simp, by decide, fun e he => by
      rw [List.mem_singleton] at he
      subst he
      exact ⟨⟨by decide, by decide⟩, by decide, by decide, by decide⟩⟩
  · exact ⟨⟨by decide, by decide⟩, ⟨by decide, by decide, by decide⟩, hno _ (by decide) (by decide), by decide,
      fun e he => by
        rw [List.mem_singleton] at he
        subst he
        exact ⟨⟨by decide, by decide, by decide⟩, by decide⟩⟩

end Verif.AwsConfig
