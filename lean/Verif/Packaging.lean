import Mathlib.Data.List.Nodup
import Mathlib.Data.List.Basic

/-!
# The dependencies of generated packages (C137)

Models `gatherDependencies` and `writeDependencyList` (codegen/core/src/main/java/software/amazon/smithy/python/codegen/generators/
SetupGenerator.java:53-97 and 191-207) for dependencies that are made of `PythonDependency` (PythonDependency.java:16-54).

Simplified: the stream is not sorted by the library (91); the theorems are about uses in any order.  Dependencies without properties, for
which the last branch of the merge (87-89) is, are those without extras, for which the first gives the same (72-74).
-/

set_option autoImplicit false

namespace Verif.Packaging

abbrev Text := List Char

/-! ## Model -/

/-- A use of a package by generated code: `SymbolDependency` of a `PythonDependency` (PythonDependency.java:16-54).  `extras` are its
optional dependencies. -/
structure Dependency where
  type : Text
  package : Text
  version : Text
  isLink : Bool := false
  extras : List Text := []
  deriving DecidableEq

/-- `Stream.distinct` (SetupGenerator.java:80-82): the first of equal elements. -/
def distinct : List Text → List Text
  | [] => []
  | x :: xs => x :: (distinct xs).filter (· ≠ x)

/-- `guardedMergeWithProperties` (SetupGenerator.java:56-90); `none` is `CodegenException`. -/
def merge (a b : Dependency) : Option Dependency :=
  if a.version ≠ b.version then none
  else if b.extras = [] then some a
  else if a.extras = [] then some b
  else some { a with extras := distinct (a.extras ++ b.extras) }

/-- The `TreeMap` of packages of one type, with one more (SetupGenerator.java:93-96).  `before` is the order of `String.compareTo`. -/
def put (before : Text → Text → Bool) (d : Dependency) : List Dependency → Option (List Dependency)
  | [] => some [d]
  | a :: r =>
    if a.package = d.package then (merge a d).map (· :: r)
    else if before d.package a.package then some (d :: a :: r)
    else (put before d r).map (a :: ·)

/-- The loop of `gatherDependencies` (SetupGenerator.java:91-96): the packages of each type. -/
def collect (before : Text → Text → Bool) : List Dependency → (Text → List Dependency) → Option (Text → List Dependency)
  | [], m => some m
  | d :: ds, m =>
    match put before d (m d.type) with
    | none => none
    | some t => collect before ds fun type => if type = d.type then t else m type

/-- `gatherDependencies` (SetupGenerator.java:53-97).  A type that no use has is absent from the map, here it has no packages. -/
def gather (before : Text → Text → Bool) (ds : List Dependency) : Option (Text → List Dependency) := collect before ds fun _ => []

/-- `${#deps}${value:L}${^key.last}, ${/key.last}${/deps}` (SetupGenerator.java:200). -/
def commaSeparated : List Text → Text
  | [] => []
  | [x] => x
  | x :: y :: xs => x ++ [',', ' '] ++ commaSeparated (y :: xs)

/-- The text of a requirement, between the quotes (SetupGenerator.java:198-204). -/
def requirement (d : Dependency) : Text :=
  d.package ++ (if d.extras = [] then [] else '[' :: commaSeparated d.extras ++ [']']) ++ (if d.isLink then [' ', '@', ' '] else []) ++
    d.version

/-- `writeDependencyList` (SetupGenerator.java:191-207) in `openBlock`: what is between the brackets, with indented lines. -/
def writeList : List Dependency → Text
  | [] => []
  | [d] => [' ', ' ', ' ', ' ', '"'] ++ requirement d ++ ['"', '\n']
  | d :: e :: ds => [' ', ' ', ' ', ' ', '"'] ++ requirement d ++ ['"', ',', '\n'] ++ writeList (e :: ds)

/-! ## Specification -/

/-- Two uses cannot be satisfied by one version. -/
def Conflict (ds : List Dependency) : Prop :=
  ∃ a ∈ ds, ∃ b ∈ ds, a.type = b.type ∧ a.package = b.package ∧ a.version ≠ b.version

/-- Where the reader of an array of strings in TOML is. -/
inductive Place where
  /-- Before a string, or at the end. -/
  | start
  /-- In a string, of which this was read, the last character first. -/
  | inside (read : Text)
  /-- After a string. -/
  | stop

/-- The strings of an array of strings without escapes in TOML, from what is between the brackets. -/
def readArray : Place → Text → Option (List Text)
  | .start, [] => some []
  | .start, c :: cs =>
    if c = ' ' ∨ c = '\n' then readArray .start cs
    else if c = '"' then readArray (.inside []) cs
    else none
  | .inside _, [] => none
  | .inside read, c :: cs =>
    if c = '"' then (readArray .stop cs).map (read.reverse :: ·)
    else if c = '\\' ∨ c = '\n' then none
    else readArray (.inside (c :: read)) cs
  | .stop, [] => some []
  | .stop, c :: cs =>
    if c = ' ' ∨ c = '\n' then readArray .stop cs
    else if c = ',' then readArray .start cs
    else none

/-- The characters of names of packages and extras. -/
def nameChar (c : Char) : Bool := c.isAlphanum || c = '_' || c = '-' || c = '.'

/-- A name. -/
def IsName (t : Text) : Prop := t ≠ [] ∧ ∀ c ∈ t, nameChar c = true

/-- The names in brackets: separated by a comma and spaces. -/
def readExtras : Text → List Text
  | [] => []
  | c :: cs =>
    if nameChar c then
      match readExtras cs with
      | [] => [[c]]
      | t :: ts => (c :: t) :: ts
    else if c = ',' then [] :: readExtras cs
    else readExtras cs

/-- What `pip` makes of a requirement: the name, the names in brackets, whether `@` and a link follow, and the rest. -/
def readRequirement (t : Text) : Text × List Text × Bool × Text :=
  let name := t.takeWhile nameChar
  let rest := t.dropWhile nameChar
  let (extras, rest) := match rest with
    | '[' :: r => (readExtras (r.takeWhile (· ≠ ']')), (r.dropWhile (· ≠ ']')).drop 1)
    | r => ([], r)
  match rest with
  | ' ' :: '@' :: ' ' :: r => (name, extras, true, r)
  | r => (name, extras, false, r)

/-- The order of names: one of two different names is before the other. -/
structure Order (before : Text → Text → Bool) : Prop where
  irrefl : ∀ a, before a a = false
  trans : ∀ a b c, before a b = true → before b c = true → before a c = true
  total : ∀ a b, a ≠ b → before a b = true ∨ before b a = true

/-- The packages of a type that are listed for uses: each that is used, in order, with the version of every use of it, and the extras of
them all. -/
structure Lists (before : Text → Text → Bool) (us : List Dependency) (type : Text) (t : List Dependency) : Prop where
  sorted : t.Pairwise fun a b => before a.package b.package = true
  all : ∀ u ∈ us, u.type = type → ∃ d ∈ t, d.package = u.package
  used : ∀ d ∈ t, d.type = type ∧ ∃ u ∈ us, u.type = type ∧ u.package = d.package ∧ u.isLink = d.isLink
  versions : ∀ d ∈ t, ∀ u ∈ us, u.type = type → u.package = d.package → u.version = d.version
  extras : ∀ d ∈ t, ∀ e, e ∈ d.extras ↔ ∃ u ∈ us, u.type = type ∧ u.package = d.package ∧ e ∈ u.extras
  once : (∀ u ∈ us, u.extras.Nodup) → ∀ d ∈ t, d.extras.Nodup

/-! ## Lemmas -/

theorem mem_distinct {x : Text} : ∀ {xs : List Text}, x ∈ distinct xs ↔ x ∈ xs
  | [] => Iff.rfl
  | y :: ys => by
    simp only [distinct, List.mem_cons, List.mem_filter, mem_distinct (xs := ys), decide_eq_true_eq]
    by_cases h : x = y <;> simp [h]

theorem distinct_nodup : ∀ xs : List Text, (distinct xs).Nodup
  | [] => List.nodup_nil
  | y :: ys => List.nodup_cons.2 ⟨by simp, (distinct_nodup ys).filter _⟩

theorem merge_none {a b : Dependency} : merge a b = none ↔ a.version ≠ b.version := by
  unfold merge
  by_cases h : a.version = b.version
  · simp only [h, ne_eq, not_true_eq_false, if_false, iff_false]
    repeat' split
    all_goals simp
  · simp [h]

theorem merge_some {a b c : Dependency} (h : merge a b = some c) :
    (c.type = a.type ∨ c.type = b.type) ∧ (c.package = a.package ∨ c.package = b.package) ∧ a.version = b.version ∧
    c.version = a.version ∧ (c.isLink = a.isLink ∨ c.isLink = b.isLink) ∧ (∀ e, e ∈ c.extras ↔ e ∈ a.extras ∨ e ∈ b.extras) ∧
    (a.extras.Nodup → b.extras.Nodup → c.extras.Nodup) := by
  unfold merge at h
  by_cases hv : a.version = b.version
  · rw [if_neg (by simpa using hv)] at h
    by_cases hb : b.extras = []
    · rw [if_pos hb] at h
      cases h
      exact ⟨.inl rfl, .inl rfl, hv, rfl, .inl rfl, by simp [hb], fun h _ => h⟩
    · rw [if_neg hb] at h
      by_cases ha : a.extras = []
      · rw [if_pos ha] at h
        cases h
        exact ⟨.inr rfl, .inr rfl, hv, hv.symm, .inr rfl, by simp [ha], fun _ h => h⟩
      · rw [if_neg ha] at h
        cases h
        exact ⟨.inl rfl, .inl rfl, hv, rfl, .inl rfl, by simp [mem_distinct], fun _ _ => distinct_nodup _⟩
  · rw [if_pos hv] at h
    cases h

section
variable {before : Text → Text → Bool} (ho : Order before)
include ho

theorem put_none {d : Dependency} : ∀ {t : List Dependency}, t.Pairwise (fun a b => before a.package b.package = true) →
    (put before d t = none ↔ ∃ a ∈ t, a.package = d.package ∧ a.version ≠ d.version)
  | [], _ => by simp [put]
  | a :: r, hs => by
    rw [List.pairwise_cons] at hs
    unfold put
    by_cases h : a.package = d.package
    · rw [if_pos h, Option.map_eq_none_iff, merge_none]
      refine ⟨fun hv => ⟨a, List.mem_cons_self, h, hv⟩, ?_⟩
      rintro ⟨b, hb, hp, hv⟩
      rcases List.mem_cons.1 hb with rfl | hb
      · exact hv
      · have := hs.1 b hb
        rw [h, hp, ho.irrefl] at this
        cases this
    · rw [if_neg h]
      by_cases hlt : before d.package a.package = true
      · rw [if_pos hlt]
        refine ⟨(fun h => nomatch h), ?_⟩
        rintro ⟨b, hb, hp, _⟩
        rcases List.mem_cons.1 hb with rfl | hb
        · exact absurd hp h
        · have := ho.trans _ _ _ hlt (hs.1 b hb)
          rw [hp, ho.irrefl] at this
          cases this
      · rw [if_neg hlt, Option.map_eq_none_iff, put_none hs.2]
        constructor
        · rintro ⟨b, hb, hx⟩
          exact ⟨b, List.mem_cons_of_mem _ hb, hx⟩
        · rintro ⟨b, hb, hx⟩
          rcases List.mem_cons.1 hb with rfl | hb
          · exact absurd hx.1 h
          · exact ⟨b, hb, hx⟩

theorem put_some {d : Dependency} : ∀ {t t' : List Dependency}, t.Pairwise (fun a b => before a.package b.package = true) →
    put before d t = some t' → t'.Pairwise (fun a b => before a.package b.package = true) ∧
      ∀ x, x ∈ t' ↔ (x ∈ t ∧ x.package ≠ d.package) ∨ (x = d ∧ ∀ a ∈ t, a.package ≠ d.package) ∨
        ∃ a ∈ t, a.package = d.package ∧ merge a d = some x
  | [], t', _, h => by
    cases h
    simp
  | a :: r, t', hs, h => by
    rw [List.pairwise_cons] at hs
    unfold put at h
    by_cases hp : a.package = d.package
    · rw [if_pos hp, Option.map_eq_some_iff] at h
      obtain ⟨c, hc, rfl⟩ := h
      have hcp : c.package = a.package := by
        rcases (merge_some hc).2.1 with h | h
        · exact h
        · rw [h, hp]
      have hr : ∀ b ∈ r, b.package ≠ d.package := by
        intro b hb he
        have := hs.1 b hb
        rw [he, hp, ho.irrefl] at this
        cases this
      refine ⟨List.pairwise_cons.2 ⟨fun b hb => hcp ▸ hs.1 b hb, hs.2⟩, fun x => ?_⟩
      constructor
      · intro hx
        rcases List.mem_cons.1 hx with rfl | hx
        · exact .inr (.inr ⟨a, List.mem_cons_self, hp, hc⟩)
        · exact .inl ⟨List.mem_cons_of_mem _ hx, hr x hx⟩
      · rintro (⟨hx, hne⟩ | ⟨_, hno⟩ | ⟨b, hb, hbp, hm⟩)
        · rcases List.mem_cons.1 hx with rfl | hx
          · exact absurd hp hne
          · exact List.mem_cons_of_mem _ hx
        · exact absurd hp (hno a List.mem_cons_self)
        · rcases List.mem_cons.1 hb with rfl | hb
          · rw [hc] at hm
            cases hm
            exact List.mem_cons_self
          · exact absurd hbp (hr b hb)
    · rw [if_neg hp] at h
      by_cases hlt : before d.package a.package = true
      · rw [if_pos hlt] at h
        cases h
        have hall : ∀ b ∈ a :: r, before d.package b.package = true := by
          intro b hb
          rcases List.mem_cons.1 hb with rfl | hb
          · exact hlt
          · exact ho.trans _ _ _ hlt (hs.1 b hb)
        have hne : ∀ b ∈ a :: r, b.package ≠ d.package := by
          intro b hb he
          have := hall b hb
          rw [he, ho.irrefl] at this
          cases this
        refine ⟨List.pairwise_cons.2 ⟨hall, List.pairwise_cons.2 hs⟩, fun x => ?_⟩
        constructor
        · intro hx
          rcases List.mem_cons.1 hx with rfl | hx
          · exact .inr (.inl ⟨rfl, hne⟩)
          · exact .inl ⟨hx, hne x hx⟩
        · rintro (⟨hx, _⟩ | ⟨rfl, _⟩ | ⟨b, hb, hbp, _⟩)
          · exact List.mem_cons_of_mem _ hx
          · exact List.mem_cons_self
          · exact absurd hbp (hne b hb)
      · rw [if_neg hlt, Option.map_eq_some_iff] at h
        obtain ⟨r', hr, rfl⟩ := h
        obtain ⟨ih1, ih2⟩ := put_some hs.2 hr
        have had : before a.package d.package = true := (ho.total _ _ hp).resolve_right hlt
        refine ⟨List.pairwise_cons.2 ⟨fun b hb => ?_, ih1⟩, fun x => ?_⟩
        · rcases (ih2 b).1 hb with ⟨hb, _⟩ | ⟨rfl, _⟩ | ⟨c, hc, hcp, hm⟩
          · exact hs.1 b hb
          · exact had
          · have : b.package = d.package := by
              rcases (merge_some hm).2.1 with h | h
              · rw [h, hcp]
              · exact h
            rw [this]
            exact had
        · rw [List.mem_cons, ih2]
          constructor
          · rintro (rfl | ⟨hx, hne⟩ | ⟨rfl, hno⟩ | ⟨b, hb, hx⟩)
            · exact .inl ⟨List.mem_cons_self, hp⟩
            · exact .inl ⟨List.mem_cons_of_mem _ hx, hne⟩
            · refine .inr (.inl ⟨rfl, fun b hb => ?_⟩)
              rcases List.mem_cons.1 hb with rfl | hb
              · exact hp
              · exact hno b hb
            · exact .inr (.inr ⟨b, List.mem_cons_of_mem _ hb, hx⟩)
          · rintro (⟨hx, hne⟩ | ⟨rfl, hno⟩ | ⟨b, hb, hbp, hm⟩)
            · rcases List.mem_cons.1 hx with rfl | hx
              · exact .inl rfl
              · exact .inr (.inl ⟨hx, hne⟩)
            · exact .inr (.inr (.inl ⟨rfl, fun b hb => hno b (List.mem_cons_of_mem _ hb)⟩))
            · rcases List.mem_cons.1 hb with rfl | hb
              · exact absurd hbp hp
              · exact .inr (.inr (.inr ⟨b, hb, hbp, hm⟩))

/-- One more use of the type. -/
theorem lists_put {us : List Dependency} {d : Dependency} {t t' : List Dependency} (h : Lists before us d.type t)
    (hp : put before d t = some t') : Lists before (us ++ [d]) d.type t' := by
  obtain ⟨h1, h2⟩ := put_some ho h.sorted hp
  have hm : ∀ {u : Dependency}, u ∈ us ++ [d] ↔ u ∈ us ∨ u = d := by simp
  -- what is listed after it
  have key : ∀ x ∈ t', (x ∈ t ∧ x.package ≠ d.package) ∨ (x = d ∧ ∀ u ∈ us, u.type = d.type → u.package ≠ d.package) ∨
      ∃ a ∈ t, a.package = d.package ∧ merge a d = some x ∧ x.package = d.package := by
    intro x hx
    rcases (h2 x).1 hx with hx | ⟨rfl, hno⟩ | ⟨a, ha, hap, hmr⟩
    · exact .inl hx
    · refine .inr (.inl ⟨rfl, fun u hu ht he => ?_⟩)
      obtain ⟨b, hb, hbp⟩ := h.all u hu ht
      exact hno b hb (hbp.trans he)
    · refine .inr (.inr ⟨a, ha, hap, hmr, ?_⟩)
      rcases (merge_some hmr).2.1 with h | h
      · rw [h, hap]
      · exact h
  refine ⟨h1, ?_, ?_, ?_, ?_, ?_⟩
  · intro u hu ht
    by_cases hup : u.package = d.package
    · by_cases hex : ∃ a ∈ t, a.package = d.package
      · obtain ⟨a, ha, hap⟩ := hex
        cases hmr : merge a d with
        | none =>
          rw [(put_none ho h.sorted).2 ⟨a, ha, hap, merge_none.1 hmr⟩] at hp
          cases hp
        | some x =>
          refine ⟨x, (h2 x).2 (.inr (.inr ⟨a, ha, hap, hmr⟩)), ?_⟩
          rcases (merge_some hmr).2.1 with h | h
          · rw [h, hap, hup]
          · rw [h, hup]
      · exact ⟨d, (h2 d).2 (.inr (.inl ⟨rfl, fun a ha hap => hex ⟨a, ha, hap⟩⟩)), hup.symm⟩
    · rcases hm.1 hu with hu | rfl
      · obtain ⟨a, ha, hap⟩ := h.all u hu ht
        exact ⟨a, (h2 a).2 (.inl ⟨ha, hap ▸ hup⟩), hap⟩
      · exact absurd rfl hup
  · intro x hx
    rcases key x hx with ⟨hx, _⟩ | ⟨rfl, _⟩ | ⟨a, ha, hap, hmr, hxp⟩
    · obtain ⟨hty, u, hu, hr⟩ := h.used x hx
      exact ⟨hty, u, hm.2 (.inl hu), hr⟩
    · exact ⟨rfl, x, hm.2 (.inr rfl), rfl, rfl, rfl⟩
    · obtain ⟨hty, u, hu, hut, hup, hul⟩ := h.used a ha
      obtain ⟨m1, -, -, -, m5, -, -⟩ := merge_some hmr
      refine ⟨m1.elim (fun h => h.trans hty) id, ?_⟩
      rcases m5 with h | h
      · exact ⟨u, hm.2 (.inl hu), hut, by rw [hup, hap, hxp], hul.trans h.symm⟩
      · exact ⟨d, hm.2 (.inr rfl), rfl, hxp.symm, h.symm⟩
  · intro x hx u hu hut hup
    rcases key x hx with ⟨hx, hne⟩ | ⟨rfl, hno⟩ | ⟨a, ha, hap, hmr, hxp⟩
    · rcases hm.1 hu with hu | rfl
      · exact h.versions x hx u hu hut hup
      · exact absurd hup.symm hne
    · rcases hm.1 hu with hu | rfl
      · exact absurd hup (hno u hu hut)
      · rfl
    · obtain ⟨-, -, m3, m4, -, -, -⟩ := merge_some hmr
      rcases hm.1 hu with hu | rfl
      · rw [m4]
        exact h.versions a ha u hu hut (by rw [hup, hxp, hap])
      · rw [m4, m3]
  · intro x hx e
    rcases key x hx with ⟨hx, hne⟩ | ⟨rfl, hno⟩ | ⟨a, ha, hap, hmr, hxp⟩
    · rw [h.extras x hx e]
      constructor
      · rintro ⟨u, hu, hr⟩
        exact ⟨u, hm.2 (.inl hu), hr⟩
      · rintro ⟨u, hu, hut, hup, hue⟩
        rcases hm.1 hu with hu | rfl
        · exact ⟨u, hu, hut, hup, hue⟩
        · exact absurd hup.symm hne
    · constructor
      · intro he
        exact ⟨x, hm.2 (.inr rfl), rfl, rfl, he⟩
      · rintro ⟨u, hu, hut, hup, hue⟩
        rcases hm.1 hu with hu | rfl
        · exact absurd hup (hno u hu hut)
        · exact hue
    · rw [(merge_some hmr).2.2.2.2.2.1 e, h.extras a ha e]
      constructor
      · rintro (⟨u, hu, hut, hup, hue⟩ | he)
        · exact ⟨u, hm.2 (.inl hu), hut, by rw [hup, hap, hxp], hue⟩
        · exact ⟨d, hm.2 (.inr rfl), rfl, hxp.symm, he⟩
      · rintro ⟨u, hu, hut, hup, hue⟩
        rcases hm.1 hu with hu | rfl
        · exact .inl ⟨u, hu, hut, by rw [hup, hxp, hap], hue⟩
        · exact .inr hue
  · intro hn x hx
    have hn' : ∀ u ∈ us, u.extras.Nodup := fun u hu => hn u (hm.2 (.inl hu))
    rcases key x hx with ⟨hx, _⟩ | ⟨rfl, _⟩ | ⟨a, ha, _, hmr, _⟩
    · exact h.once hn' x hx
    · exact hn x (hm.2 (.inr rfl))
    · exact (merge_some hmr).2.2.2.2.2.2 (h.once hn' a ha) (hn d (hm.2 (.inr rfl)))

omit ho in
/-- A use of another type changes nothing. -/
theorem lists_other {us : List Dependency} {d : Dependency} {type : Text} (hne : type ≠ d.type) {t : List Dependency}
    (h : Lists before us type t) : Lists before (us ++ [d]) type t := by
  have hm : ∀ {u : Dependency}, u.type = type → (u ∈ us ++ [d] ↔ u ∈ us) := by
    intro u hu
    simp only [List.mem_append, List.mem_singleton]
    refine ⟨fun h => h.elim id fun h => absurd (h ▸ hu).symm hne, .inl⟩
  refine ⟨h.sorted, fun u hu ht => h.all u ((hm ht).1 hu) ht, ?_, ?_, ?_, fun hn => h.once fun u hu => hn u (by simp [hu])⟩
  · intro x hx
    obtain ⟨h1, u, hu, hr⟩ := h.used x hx
    exact ⟨h1, u, (hm hr.1).2 hu, hr⟩
  · intro x hx u hu ht
    exact h.versions x hx u ((hm ht).1 hu) ht
  · intro x hx e
    rw [h.extras x hx e]
    constructor
    · rintro ⟨u, hu, hr⟩
      exact ⟨u, (hm hr.1).2 hu, hr⟩
    · rintro ⟨u, hu, hr⟩
      exact ⟨u, (hm hr.1).1 hu, hr⟩

theorem collect_spec : ∀ (ds us : List Dependency) (m : Text → List Dependency), (∀ type, Lists before us type (m type)) →
    ¬ Conflict us → (collect before ds m = none ↔ Conflict (us ++ ds)) ∧
      ∀ m', collect before ds m = some m' → ∀ type, Lists before (us ++ ds) type (m' type)
  | [], us, m, h, hc => by
    rw [List.append_nil]
    refine ⟨⟨(fun h => nomatch h), fun h => absurd h hc⟩, fun m' hm => ?_⟩
    cases hm
    exact h
  | d :: ds, us, m, h, hc => by
    unfold collect
    cases hp : put before d (m d.type) with
    | none =>
      obtain ⟨a, ha, hap, hav⟩ := (put_none ho (h d.type).sorted).1 hp
      obtain ⟨hty, u, hu, hut, hup, _⟩ := (h d.type).used a ha
      refine ⟨⟨fun _ => ⟨u, by simp [hu], d, by simp, hut, hup.trans hap, ?_⟩, fun _ => rfl⟩, fun _ h => nomatch h⟩
      rw [(h d.type).versions a ha u hu hut hup]
      exact hav
    | some t =>
      have h' : ∀ type, Lists before (us ++ [d]) type (if type = d.type then t else m type) := by
        intro type
        by_cases ht : type = d.type
        · rw [if_pos ht, ht]
          exact lists_put ho (h d.type) hp
        · rw [if_neg ht]
          exact lists_other ht (h type)
      have hc' : ¬ Conflict (us ++ [d]) := by
        rintro ⟨a, ha, b, hb, hty, hpk, hv⟩
        obtain ⟨x, hx, hxp⟩ := (h' a.type).all a ha rfl
        exact hv (((h' a.type).versions x hx a ha rfl hxp.symm).trans
          ((h' a.type).versions x hx b hb hty.symm (hpk.symm.trans hxp.symm)).symm)
      have ih := collect_spec ds (us ++ [d]) _ h' hc'
      rw [List.append_assoc] at ih
      exact ih

end

/-! ## Theorems -/

/-- **C137**: there is no package exactly if two uses ask for different versions of a package. -/
theorem C137_conflict {before : Text → Text → Bool} (ho : Order before) (ds : List Dependency) :
    gather before ds = none ↔ Conflict ds :=
  (collect_spec ho ds [] (fun _ => []) (fun _ => ⟨.nil, by simp, by simp, by simp, by simp, by simp⟩) (by simp [Conflict])).1

/-- **C137**: what is listed: every package that is used, once, in the order of names, with its version and all of the extras that uses
ask for, and nothing else, in whatever order the uses are found. -/
theorem C137_listed {before : Text → Text → Bool} (ho : Order before) {ds : List Dependency} {m : Text → List Dependency}
    (h : gather before ds = some m) (type : Text) :
    ((m type).map (·.package)).Pairwise (fun p q => before p q = true) ∧ ((m type).map (·.package)).Nodup ∧
    (∀ p, p ∈ (m type).map (·.package) ↔ ∃ u ∈ ds, u.type = type ∧ u.package = p) ∧
    ∀ d ∈ m type, (∀ u ∈ ds, u.type = type → u.package = d.package → u.version = d.version) ∧
      (∃ u ∈ ds, u.type = type ∧ u.package = d.package ∧ u.isLink = d.isLink) ∧
      (∀ e, e ∈ d.extras ↔ ∃ u ∈ ds, u.type = type ∧ u.package = d.package ∧ e ∈ u.extras) ∧
      ((∀ u ∈ ds, u.extras.Nodup) → d.extras.Nodup) := by
  have hl := (collect_spec ho ds [] (fun _ => []) (fun _ => ⟨.nil, by simp, by simp, by simp, by simp, by simp⟩) (by simp [Conflict])).2
    m h type
  rw [List.nil_append] at hl
  refine ⟨?_, ?_, fun p => ?_, fun d hd => ⟨hl.versions d hd, (hl.used d hd).2, hl.extras d hd, fun hn => hl.once hn d hd⟩⟩
  · rw [List.pairwise_map]
    exact hl.sorted
  · rw [List.Nodup, List.pairwise_map]
    refine hl.sorted.imp fun {a b} hab he => ?_
    rw [he, ho.irrefl] at hab
    cases hab
  · rw [List.mem_map]
    constructor
    · rintro ⟨d, hd, rfl⟩
      obtain ⟨-, u, hu, hut, hup, -⟩ := hl.used d hd
      exact ⟨u, hu, hut, hup⟩
    · rintro ⟨u, hu, hut, rfl⟩
      exact hl.all u hu hut

theorem extras_name : ∀ {x : Text}, x ≠ [] → (∀ c ∈ x, nameChar c = true) → readExtras x = [x]
  | [], h, _ => absurd rfl h
  | [c], _, h => by
    have := h c (by simp)
    simp [readExtras, this]
  | c :: d :: x, _, h => by
    have h1 := h c (by simp)
    have h2 := extras_name (x := d :: x) (by simp) fun e he => h e (List.mem_cons_of_mem _ he)
    unfold readExtras
    rw [if_pos h1, h2]

theorem extras_append {r : Text} {ts : List Text} (hr : readExtras r = [] :: ts) : ∀ {x : Text}, (∀ c ∈ x, nameChar c = true) →
    readExtras (x ++ r) = x :: ts
  | [], _ => hr
  | c :: x, h => by
    have h1 := h c (by simp)
    have h2 := extras_append hr (x := x) fun e he => h e (List.mem_cons_of_mem _ he)
    rw [List.cons_append]
    unfold readExtras
    rw [if_pos h1, h2]

theorem extras_comma : ∀ {xs : List Text}, (∀ x ∈ xs, IsName x) → readExtras (commaSeparated xs) = xs
  | [], _ => rfl
  | [x], h => extras_name (h x (by simp)).1 (h x (by simp)).2
  | x :: y :: xs, h => by
    have ih := extras_comma (xs := y :: xs) fun z hz => h z (List.mem_cons_of_mem _ hz)
    have hc : nameChar ',' = false := by decide
    have hs : nameChar ' ' = false := by decide
    have hr : readExtras (',' :: ' ' :: commaSeparated (y :: xs)) = [] :: y :: xs := by
      rw [readExtras, if_neg (by simp [hc]), if_pos rfl, readExtras, if_neg (by simp [hs]), if_neg (by decide), ih]
    have := extras_append hr (x := x) (h x (by simp)).2
    simpa [commaSeparated] using this

theorem comma_mem : ∀ {xs : List Text}, (∀ x ∈ xs, IsName x) → ∀ c ∈ commaSeparated xs, (c ≠ ']') = true
  | [], _, c, hc => nomatch hc
  | [x], h, c, hc => by
    have := (h x (by simp)).2 c hc
    simp only [ne_eq, eq_iff_iff, iff_true]
    rintro rfl
    revert this
    decide
  | x :: y :: xs, h, c, hc => by
    simp only [commaSeparated, List.mem_append, List.mem_cons, List.not_mem_nil, or_false] at hc
    rcases hc with (hc | rfl | rfl) | hc
    · have := (h x (by simp)).2 c hc
      simp only [ne_eq, eq_iff_iff, iff_true]
      rintro rfl
      revert this
      decide
    · simp
    · simp
    · exact comma_mem (xs := y :: xs) (fun z hz => h z (List.mem_cons_of_mem _ hz)) c hc

theorem name_end {x r : Text} (hx : ∀ c ∈ x, nameChar c = true) (hr : ∀ c, r.head? = some c → nameChar c = false) :
    (x ++ r).takeWhile nameChar = x ∧ (x ++ r).dropWhile nameChar = r := by
  rw [List.takeWhile_append_of_pos hx, List.dropWhile_append_of_pos hx]
  cases r with
  | nil => simp
  | cons c r => simp [hr c rfl]

theorem bracket_end {x r : Text} (hx : ∀ c ∈ x, (c ≠ ']') = true) :
    (x ++ ']' :: r).takeWhile (· ≠ ']') = x ∧ ((x ++ ']' :: r).dropWhile (· ≠ ']')).drop 1 = r := by
  have hx' : ∀ c ∈ x, decide (c ≠ ']') = true := fun c hc => by simpa using hx c hc
  rw [List.takeWhile_append_of_pos hx', List.dropWhile_append_of_pos hx']
  simp

/-- The rest of a requirement, after the name and the extras. -/
theorem rest_link {name : Text} {extras : List Text} {link : Bool} {version : Text}
    (hv : link = false → ∀ c, version.head? = some c → c ≠ ' ') :
    (match (if link then [' ', '@', ' '] else []) ++ version with
      | ' ' :: '@' :: ' ' :: r => (name, extras, true, r)
      | r => (name, extras, false, r)) = (name, extras, link, version) := by
  cases link with
  | true => rfl
  | false =>
    simp only [Bool.false_eq_true, if_false, List.nil_append]
    split
    · exact absurd rfl (hv rfl ' ' rfl)
    · rfl

/-- **C137**: an installer reads the requirement that is written of a dependency as that dependency. -/
theorem C137_requirement (d : Dependency) (hp : IsName d.package) (he : ∀ e ∈ d.extras, IsName e)
    (hv : d.isLink = false → ∀ c, d.version.head? = some c → nameChar c = false ∧ c ≠ '[' ∧ c ≠ ' ') :
    readRequirement (requirement d) = (d.package, d.extras, d.isLink, d.version) := by
  obtain ⟨type, package, version, link, extras⟩ := d
  dsimp only at hp he hv
  have hlink : ∀ c, ((if link then [' ', '@', ' '] else []) ++ version).head? = some c → nameChar c = false ∧ c ≠ '[' := by
    intro c hc
    cases link with
    | true =>
      cases hc
      decide
    | false => exact ⟨(hv rfl c hc).1, (hv rfl c hc).2.1⟩
  have hspace : link = false → ∀ c, version.head? = some c → c ≠ ' ' := fun hl c hc => (hv hl c hc).2.2
  unfold readRequirement requirement
  dsimp only
  by_cases hx : extras = []
  · subst hx
    rw [if_pos rfl, List.append_nil, List.append_assoc, (name_end hp.2 fun c hc => (hlink c hc).1).1,
      (name_end hp.2 fun c hc => (hlink c hc).1).2]
    have : (match (if link = true then [' ', '@', ' '] else []) ++ version with
        | '[' :: r => (readExtras (r.takeWhile (· ≠ ']')), (r.dropWhile (· ≠ ']')).drop 1)
        | r => (([] : List Text), r)) = ([], (if link = true then [' ', '@', ' '] else []) ++ version) := by
      split
      · next r hr => exact absurd rfl (hlink '[' (by rw [hr]; rfl)).2
      · rfl
    rw [this]
    exact rest_link hspace
  · rw [if_neg hx]
    have hform : package ++ ('[' :: commaSeparated extras ++ [']']) ++ (if link = true then [' ', '@', ' '] else []) ++ version =
        package ++ '[' :: (commaSeparated extras ++ ']' :: ((if link = true then [' ', '@', ' '] else []) ++ version)) := by simp
    have hb : ∀ c, ('[' :: (commaSeparated extras ++ ']' :: ((if link = true then [' ', '@', ' '] else []) ++ version))).head? =
        some c → nameChar c = false := by
      intro c hc
      cases hc
      decide
    rw [hform, (name_end hp.2 hb).1, (name_end hp.2 hb).2]
    have : (match '[' :: (commaSeparated extras ++ ']' :: ((if link = true then [' ', '@', ' '] else []) ++ version)) with
        | '[' :: r => (readExtras (r.takeWhile (· ≠ ']')), (r.dropWhile (· ≠ ']')).drop 1)
        | r => (([] : List Text), r)) = (extras, (if link = true then [' ', '@', ' '] else []) ++ version) := by
      refine Prod.ext ((congrArg readExtras (bracket_end (comma_mem he)).1).trans (extras_comma he)) (bracket_end (comma_mem he)).2
    rw [this]
    exact rest_link hspace

theorem array_inside (r : Text) : ∀ (t read : Text), (∀ c ∈ t, c ≠ '"' ∧ c ≠ '\\' ∧ c ≠ '\n') →
    readArray (.inside read) (t ++ '"' :: r) = (readArray .stop r).map ((read.reverse ++ t) :: ·)
  | [], read, _ => by simp [readArray]
  | c :: t, read, h => by
    obtain ⟨h1, h2, h3⟩ := h c (by simp)
    rw [List.cons_append, readArray, if_neg h1, if_neg (by simp [h2, h3]), array_inside r t _ fun e he => h e (List.mem_cons_of_mem _ he)]
    simp

theorem array_start (t : Text) : readArray .start (' ' :: ' ' :: ' ' :: ' ' :: '"' :: t) = readArray (.inside []) t := by
  simp [readArray]

/-- **C137**: the array that is written in `pyproject.toml` has the requirements of all of the dependencies. -/
theorem C137_array : ∀ ds : List Dependency, (∀ d ∈ ds, ∀ c ∈ requirement d, c ≠ '"' ∧ c ≠ '\\' ∧ c ≠ '\n') →
    readArray .start (writeList ds) = some (ds.map requirement)
  | [], _ => by simp [writeList, readArray]
  | [d], h => by
    have := array_inside ['\n'] (requirement d) [] (h d (by simp))
    simp only [writeList, List.cons_append, List.nil_append, array_start, this]
    simp [readArray]
  | d :: e :: ds, h => by
    have := array_inside (',' :: '\n' :: writeList (e :: ds)) (requirement d) [] (h d (by simp))
    have ih := C137_array (e :: ds) fun x hx => h x (List.mem_cons_of_mem _ hx)
    have h2 : readArray .stop (',' :: '\n' :: writeList (e :: ds)) = readArray .start (writeList (e :: ds)) := by
      simp [readArray]
    simp only [writeList, List.cons_append, List.nil_append, array_start, List.append_assoc]
    rw [this, h2, ih]
    rfl

/-! ## Examples -/

/-- The order of `String.compareTo`, for names of ASCII characters. -/
def earlier : Text → Text → Bool
  | [], [] => false
  | [], _ :: _ => true
  | _ :: _, [] => false
  | a :: x, b :: y => if a = b then earlier x y else decide (a.toNat < b.toNat)

/-- It is an order. -/
theorem earlier_order : Order earlier := by
  refine ⟨?_, ?_, ?_⟩
  · intro a
    induction a with
    | nil => rfl
    | cons c a ih => simp [earlier, ih]
  · intro a
    induction a with
    | nil =>
      intro b c
      cases b <;> cases c <;> simp [earlier]
    | cons x a ih =>
      intro b c hab hbc
      cases b with
      | nil => cases hab
      | cons y b =>
        cases c with
        | nil => cases hbc
        | cons z c =>
          simp only [earlier] at hab hbc ⊢
          by_cases hxy : x = y
          · subst hxy
            rw [if_pos rfl] at hab
            by_cases hxz : x = z
            · rw [if_pos hxz] at hbc ⊢
              exact ih b c hab hbc
            · rw [if_neg hxz] at hbc ⊢
              exact hbc
          · rw [if_neg hxy, decide_eq_true_eq] at hab
            by_cases hyz : y = z
            · subst hyz
              rw [if_neg hxy, decide_eq_true_eq]
              exact hab
            · rw [if_neg hyz, decide_eq_true_eq] at hbc
              have hlt := Nat.lt_trans hab hbc
              rw [if_neg (by rintro rfl; exact Nat.lt_irrefl _ hlt), decide_eq_true_eq]
              exact hlt
  · intro a
    induction a with
    | nil =>
      intro b h
      cases b with
      | nil => exact absurd rfl h
      | cons y b => exact .inl rfl
    | cons x a ih =>
      intro b h
      cases b with
      | nil => exact .inr rfl
      | cons y b =>
        simp only [earlier]
        by_cases hxy : x = y
        · subst hxy
          rw [if_pos rfl, if_pos rfl]
          exact ih b fun he => h (he ▸ rfl)
        · rw [if_neg hxy, if_neg (fun h => hxy h.symm), decide_eq_true_eq, decide_eq_true_eq]
          have : x.toNat ≠ y.toNat := fun h => hxy (Char.toNat_inj.1 h)
          omega

private def http (extras : List String) : Dependency :=
  ⟨"dependency".toList, "smithy_http".toList, "~=0.4.0".toList, false, extras.map String.toList⟩
private def core : Dependency := ⟨"dependency".toList, "smithy_core".toList, "~=0.4.0".toList, false, []⟩
private def pytest : Dependency := ⟨"testDependency".toList, "pytest".toList, ">=7.2.0,<8.0.0".toList, false, []⟩
private def link : Dependency := ⟨"dependency".toList, "weather".toList, "file:///weather-1.0.whl".toList, true, []⟩

/-- Extras of different uses are joined. -/
example : (gather earlier [http ["aiohttp"], pytest, core, http [], http ["awscrt", "aiohttp"]]).map (· "dependency".toList) =
    some [core, http ["aiohttp", "awscrt"]] := by with_unfolding_all rfl

example : (gather earlier [http ["aiohttp"], pytest, core, http []]).map (· "testDependency".toList) = some [pytest] := by
  with_unfolding_all rfl

/-- Other versions of a package that is used for tests are no conflict; of one that is used in one way they are. -/
example : gather earlier [core, { core with version := "~=0.5.0".toList }] = none ∧
    (gather earlier [core, { core with version := "~=0.5.0".toList, type := "testDependency".toList }]).isSome = true :=
  ⟨rfl, rfl⟩

example : requirement (http ["aiohttp", "awscrt"]) = "smithy_http[aiohttp, awscrt]~=0.4.0".toList ∧
    requirement link = "weather @ file:///weather-1.0.whl".toList := by
  refine ⟨?_, ?_⟩ <;> with_unfolding_all rfl

/-- The hypotheses of `C137_requirement` hold of them. -/
example : readRequirement (requirement (http ["aiohttp", "awscrt"])) =
    ("smithy_http".toList, ["aiohttp".toList, "awscrt".toList], false, "~=0.4.0".toList) :=
  C137_requirement (http ["aiohttp", "awscrt"]) (by unfold IsName; decide +kernel) (by unfold IsName; decide +kernel) (by
    rintro - c hc
    have : c = '~' := by
      have h : (http ["aiohttp", "awscrt"]).version.head? = some '~' := by decide +kernel
      rw [h] at hc
      exact (Option.some.inj hc).symm
    subst this
    decide)

/-- The hypothesis of `C137_array` holds of them. -/
example : readArray .start (writeList [core, http ["aiohttp", "awscrt"], link]) =
    some ["smithy_core~=0.4.0".toList, "smithy_http[aiohttp, awscrt]~=0.4.0".toList, "weather @ file:///weather-1.0.whl".toList] :=
  (C137_array _ (by decide +kernel)).trans (by with_unfolding_all rfl)

end Verif.Packaging
