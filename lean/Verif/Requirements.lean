import Verif.Text
import Verif.Common
import Mathlib.Data.List.Dedup
import Mathlib.Data.List.Perm.Basic

/-!
# The requirements of a generated package (C127)

Models `gatherDependencies` and `writeDependencyList` of
codegen/core/src/main/java/software/amazon/smithy/python/codegen/generators/SetupGenerator.java and PythonDependency.java.
Of Java and Smithy this takes: `sorted()` of a stream is a permutation, which is all that is used of it; a `TreeMap` is a list
in the order of its keys.  That a dependency without properties has no extras is part of what a dependency is.
-/

set_option autoImplicit false

namespace Verif.Requirements

abbrev Text := List Char

/-! ## Model -/

/-- A `SymbolDependency` as PythonDependency.java:41-49 makes it. -/
structure Dep where
  type : Text
  package : Text
  version : Text
  isLink : Bool
  extras : List Text
deriving DecidableEq

/-- `distinct()`: the first of each. -/
def distinct : List Text → List Text
  | [] => []
  | x :: xs => x :: (distinct xs).filter fun y => decide (y ≠ x)

/-- `guardedMergeWithProperties` (SetupGenerator.java:56-90); `none` is the exception. -/
def merge (a b : Dep) : Option Dep :=
  if a.version ≠ b.version then none
  else if b.extras.isEmpty then some a
  else if a.extras.isEmpty then some b
  else some { a with extras := distinct (a.extras ++ b.extras) }

/-- Strings in their order, and streams sorted in that of dependencies. -/
structure Java where
  lt : Text → Text → Bool
  sorted : List Dep → List Dep

/-- `TreeMap.merge` -/
def insert (j : Java) (d : Dep) : List Dep → Option (List Dep)
  | [] => some [d]
  | e :: m =>
    if d.package = e.package then (merge e d).map (· :: m)
    else if j.lt d.package e.package then some (d :: e :: m)
    else (insert j d m).map (e :: ·)

/-- `Collectors.toMap` of the dependencies of one type. -/
def toMap (j : Java) : List Dep → List Dep → Option (List Dep)
  | m, [] => some m
  | m, d :: ds => (insert j d m).bind fun m' => toMap j m' ds

/-- `gatherDependencies` (SetupGenerator.java:46-97): those of one type, if there is no exception for any of the types. -/
def gather (j : Java) (ds : List Dep) (type : Text) : Option (List Dep) :=
  if ∃ d ∈ ds, toMap j [] ((j.sorted ds).filter fun e => decide (e.type = d.type)) = none then none
  else toMap j [] ((j.sorted ds).filter fun e => decide (e.type = type))

def commas : List Text → Text
  | [] => []
  | [x] => x
  | x :: xs => x ++ ", ".toList ++ commas xs

/-- One line of `writeDependencyList` without its quotes (SetupGenerator.java:191-207). -/
def line (d : Dep) : Text :=
  d.package ++ (if d.extras.isEmpty then [] else '[' :: commas d.extras ++ [']']) ++ (if d.isLink then " @ ".toList else []) ++
    d.version

/-! ## Specification -/

/-- The strings have one order. -/
structure Java.Ok (j : Java) : Prop where
  perm : ∀ l, (j.sorted l).Perm l
  irrefl : ∀ a, j.lt a a = false
  trans : ∀ a b c, j.lt a b = true → j.lt b c = true → j.lt a c = true
  total : ∀ a b, a ≠ b → j.lt a b = true ∨ j.lt b a = true

/-- Two dependencies are on the same package for the same purpose. -/
def Same (a b : Dep) : Prop := a.type = b.type ∧ a.package = b.package

/-- What a requirement says: the package, its extras, whether it is a link, and the version or link. -/
structure Requirement where
  package : Text
  extras : List Text
  isLink : Bool
  version : Text
deriving DecidableEq

def nameChar (c : Char) : Bool := c.isAlphanum || c == '-' || c == '_' || c == '.'

/-- The extras up to the bracket. -/
def readExtras : Nat → Text → Option (List Text × Text)
  | 0, _ => none
  | n + 1, t =>
    let x := t.takeWhile nameChar
    match t.dropWhile nameChar with
    | ']' :: rest => some ([x], rest)
    | ',' :: ' ' :: rest => (readExtras n rest).map fun r => (x :: r.1, r.2)
    | _ => none

/-- How requirements are read: a name, extras in brackets, and the rest. -/
def read (t : Text) : Option Requirement :=
  let package := t.takeWhile nameChar
  let rest := t.dropWhile nameChar
  (match rest with
    | '[' :: r => readExtras r.length r
    | r => some ([], r)).map fun (extras, r) =>
      match r with
      | ' ' :: '@' :: ' ' :: url => ⟨package, extras, true, url⟩
      | r => ⟨package, extras, false, r⟩

/-- Names have only letters, digits and three signs, and a version begins with something else. -/
def Dep.Plain (d : Dep) : Prop :=
  (∀ c ∈ d.package, nameChar c = true) ∧ (∀ x ∈ d.extras, ∀ c ∈ x, nameChar c = true) ∧
  (d.isLink = false → ∀ c, d.version.head? = some c → nameChar c = false ∧ c ≠ '[' ∧ c ≠ ' ')

/-! ## Lemmas -/

theorem mem_distinct (l : List Text) (x : Text) : x ∈ distinct l ↔ x ∈ l := by
  induction l with
  | nil => simp [distinct]
  | cons y l ih =>
    rw [distinct, List.mem_cons, List.mem_filter, List.mem_cons, ih]
    constructor
    · rintro (h | h)
      · exact .inl h
      · exact .inr h.1
    · rintro (h | h)
      · exact .inl h
      · by_cases hx : x = y
        · exact .inl hx
        · exact .inr ⟨h, by simpa using hx⟩

theorem distinct_nodup (l : List Text) : (distinct l).Nodup := by
  induction l with
  | nil => exact .nil
  | cons y l ih =>
    rw [distinct, List.nodup_cons]
    exact ⟨by simp, ih.filter _⟩

/-- One entry stands for these dependencies. -/
structure Stands (e : Dep) (ds : List Dep) : Prop where
  one : ds ≠ []
  version : ∀ d ∈ ds, d.version = e.version
  extras : ∀ x, x ∈ e.extras ↔ ∃ d ∈ ds, x ∈ d.extras
  nodup : (∀ d ∈ ds, d.extras.Nodup) → e.extras.Nodup
  link : e.isLink = true ∨ e.isLink = false → ∃ d ∈ ds, e.isLink = d.isLink ∧ e.type = d.type

theorem merge_none {a b : Dep} : merge a b = none ↔ a.version ≠ b.version := by
  rw [merge]
  by_cases h : a.version ≠ b.version
  · rw [if_pos h]; simp [h]
  · rw [if_neg h]
    split
    · simp [h]
    · split <;> simp [h]

theorem merge_some {a b e : Dep} (h : merge a b = some e) (hp : a.package = b.package) {ds : List Dep} (ha : Stands a ds) :
    Stands e (ds ++ [b]) ∧ e.package = a.package := by
  rw [merge] at h
  by_cases hv : a.version ≠ b.version
  · rw [if_pos hv] at h; cases h
  · rw [if_neg hv] at h
    have hv : a.version = b.version := by simpa using hv
    have hver : ∀ d ∈ ds ++ [b], d.version = a.version := by
      intro d hd
      rcases List.mem_append.1 hd with hd | hd
      · exact ha.version d hd
      · simp only [List.mem_singleton] at hd
        rw [hd, hv]
    have hex : ∀ x, (∃ d ∈ ds ++ [b], x ∈ d.extras) ↔ x ∈ a.extras ∨ x ∈ b.extras := by
      intro x
      rw [ha.extras]
      simp only [List.mem_append, List.mem_singleton]
      constructor
      · rintro ⟨d, hd | rfl, hx⟩
        · exact .inl ⟨d, hd, hx⟩
        · exact .inr hx
      · rintro (⟨d, hd, hx⟩ | hx)
        · exact ⟨d, .inl hd, hx⟩
        · exact ⟨b, .inr rfl, hx⟩
    have hlink : ∃ d ∈ ds ++ [b], a.isLink = d.isLink ∧ a.type = d.type := by
      obtain ⟨d, hd, he⟩ := ha.link (by cases a.isLink <;> simp)
      exact ⟨d, by simp [hd], he⟩
    by_cases hb : b.extras.isEmpty = true
    · rw [if_pos hb] at h
      cases h
      rw [List.isEmpty_iff] at hb
      refine ⟨⟨by simp, hver, fun x => ?_, fun hn => ha.nodup fun d hd => hn d (by simp [hd]), fun _ => hlink⟩, rfl⟩
      rw [hex, hb]; simp
    · rw [if_neg hb] at h
      by_cases hae : a.extras.isEmpty = true
      · rw [if_pos hae] at h
        cases h
        rw [List.isEmpty_iff] at hae
        refine ⟨⟨by simp, fun d hd => by rw [hver d hd, hv], fun x => ?_, fun hn => hn b (by simp), fun _ => ⟨b, by simp, rfl, rfl⟩⟩, hp.symm⟩
        rw [hex, hae]; simp
      · rw [if_neg hae] at h
        cases h
        refine ⟨⟨by simp, hver, fun x => ?_, fun _ => distinct_nodup _, fun _ => hlink⟩, rfl⟩
        rw [hex]
        show x ∈ distinct _ ↔ _
        rw [mem_distinct, List.mem_append]

/-- A map in order whose entries stand for the dependencies so far. -/
structure MapOk (j : Java) (m ds : List Dep) : Prop where
  sorted : m.Pairwise fun a b => j.lt a.package b.package = true
  stands : ∀ e ∈ m, Stands e (ds.filter fun d => decide (d.package = e.package))
  all : ∀ d ∈ ds, ∃ e ∈ m, e.package = d.package

theorem ne_of_lt {j : Java} (hj : j.Ok) {a b : Text} (h : j.lt a b = true) : a ≠ b := by
  rintro rfl
  rw [hj.irrefl] at h
  cases h

theorem insert_ok {j : Java} (hj : j.Ok) (d : Dep) (ds : List Dep) : ∀ (m : List Dep),
    (m.Pairwise fun a b => j.lt a.package b.package = true) →
    (∀ e ∈ m, Stands e (ds.filter fun d => decide (d.package = e.package))) →
    ((∀ e ∈ m, e.package ≠ d.package) → ∀ x ∈ ds, x.package ≠ d.package) →
    (insert j d m = none ↔ ∃ e ∈ m, e.package = d.package ∧ e.version ≠ d.version) ∧
    ∀ m', insert j d m = some m' →
      (m'.Pairwise fun a b => j.lt a.package b.package = true) ∧
      (∀ e ∈ m', Stands e ((ds ++ [d]).filter fun d => decide (d.package = e.package))) ∧
      (∀ p, (∃ e ∈ m', e.package = p) ↔ p = d.package ∨ ∃ e ∈ m, e.package = p) := by
  intro m
  have other : ∀ e : Dep, e.package ≠ d.package →
      (ds ++ [d]).filter (fun x => decide (x.package = e.package)) = ds.filter fun x => decide (x.package = e.package) := by
    intro e he
    rw [List.filter_append]
    simp [he.symm]
  have fresh : (∀ x ∈ ds, x.package ≠ d.package) → Stands d ((ds ++ [d]).filter fun x => decide (x.package = d.package)) := by
    intro h
    have : (ds ++ [d]).filter (fun x => decide (x.package = d.package)) = [d] := by
      rw [List.filter_append, List.filter_eq_nil_iff.2 (by simpa using h)]
      simp
    rw [this]
    exact ⟨by simp, by simp, by simp, fun h => h d (by simp), fun _ => ⟨d, by simp, rfl, rfl⟩⟩
  induction m with
  | nil =>
    intro _ _ hno
    refine ⟨by simp [insert], ?_⟩
    intro m' h
    cases h
    refine ⟨by simp, ?_, ?_⟩
    · intro e he
      simp only [List.mem_singleton] at he
      subst he
      exact fresh (hno (by simp))
    · intro p
      simp [eq_comm]
  | cons e m ih =>
    intro hs hst hno
    rw [List.pairwise_cons] at hs
    rw [insert]
    by_cases hp : d.package = e.package
    · rw [if_pos hp]
      have later : ∀ f ∈ m, f.package ≠ d.package := fun f hf => by
        rw [hp]
        exact (ne_of_lt hj (hs.1 f hf)).symm
      refine ⟨?_, ?_⟩
      · rw [Option.map_eq_none_iff, merge_none]
        constructor
        · intro h
          exact ⟨e, by simp, hp.symm, h⟩
        · rintro ⟨f, hf, h1, h2⟩
          rcases List.mem_cons.1 hf with rfl | hf
          · exact h2
          · exact absurd h1 (later f hf)
      · intro m' h
        rw [Option.map_eq_some_iff] at h
        obtain ⟨e', he', rfl⟩ := h
        obtain ⟨h1, h2⟩ := merge_some he' hp.symm (hst e (by simp))
        refine ⟨?_, ?_, ?_⟩
        · rw [List.pairwise_cons]
          exact ⟨fun f hf => by rw [h2]; exact hs.1 f hf, hs.2⟩
        · intro f hf
          rcases List.mem_cons.1 hf with rfl | hf
          · rw [h2, List.filter_append]
            simpa [hp] using h1
          · rw [other f (later f hf)]
            exact hst f (by simp [hf])
        · intro p
          simp only [List.mem_cons, exists_eq_or_imp, h2, hp]
          constructor
          · rintro (h | h)
            · exact .inl h.symm
            · exact .inr (.inr h)
          · rintro (h | h | h)
            · exact .inl h.symm
            · exact .inl h
            · exact .inr h
    · rw [if_neg hp]
      by_cases hl : j.lt d.package e.package = true
      · rw [if_pos hl]
        have later : ∀ f ∈ e :: m, f.package ≠ d.package := by
          intro f hf
          rcases List.mem_cons.1 hf with rfl | hf
          · exact (ne_of_lt hj hl).symm
          · exact (ne_of_lt hj (hj.trans _ _ _ hl (hs.1 f hf))).symm
        refine ⟨?_, ?_⟩
        · constructor
          · intro h; cases h
          · rintro ⟨f, hf, h1, -⟩
            exact absurd h1 (later f hf)
        · intro m' h
          cases h
          refine ⟨?_, ?_, ?_⟩
          · rw [List.pairwise_cons, List.pairwise_cons]
            refine ⟨?_, hs⟩
            intro f hf
            rcases List.mem_cons.1 hf with rfl | hf
            · exact hl
            · exact hj.trans _ _ _ hl (hs.1 f hf)
          · intro f hf
            rcases List.mem_cons.1 hf with rfl | hf
            · exact fresh (hno later)
            · rw [other f (later f hf)]
              exact hst f hf
          · intro p
            simp [eq_comm]
      · rw [if_neg hl]
        obtain ⟨h1, h2⟩ := ih hs.2 (fun f hf => hst f (by simp [hf])) (by
          intro h
          apply hno
          intro f hf
          rcases List.mem_cons.1 hf with rfl | hf
          · exact fun h => hp h.symm
          · exact h f hf)
        refine ⟨?_, ?_⟩
        · rw [Option.map_eq_none_iff, h1]
          constructor
          · rintro ⟨f, hf, h⟩
            exact ⟨f, by simp [hf], h⟩
          · rintro ⟨f, hf, h, h'⟩
            rcases List.mem_cons.1 hf with rfl | hf
            · exact absurd h.symm hp
            · exact ⟨f, hf, h, h'⟩
        · intro m' h
          rw [Option.map_eq_some_iff] at h
          obtain ⟨m'', hm, rfl⟩ := h
          obtain ⟨h3, h4, h5⟩ := h2 m'' hm
          have hed : j.lt e.package d.package = true := by
            rcases hj.total _ _ hp with h | h
            · exact absurd h hl
            · exact h
          refine ⟨?_, ?_, ?_⟩
          · rw [List.pairwise_cons]
            refine ⟨?_, h3⟩
            intro f hf
            rcases (h5 f.package).1 ⟨f, hf, rfl⟩ with h | ⟨g, hg, h⟩
            · rw [h]; exact hed
            · rw [← h]; exact hs.1 g hg
          · intro f hf
            rcases List.mem_cons.1 hf with rfl | hf
            · rw [other f (fun h => hp h.symm)]
              exact hst f (by simp)
            · exact h4 f hf
          · intro p
            simp only [List.mem_cons, exists_eq_or_imp, h5]
            constructor
            · rintro (h | h | h)
              · exact .inr (.inl h)
              · exact .inl h
              · exact .inr (.inr h)
            · rintro (h | h | h)
              · exact .inr (.inl h)
              · exact .inl h
              · exact .inr (.inr h)

theorem toMap_ok {j : Java} (hj : j.Ok) : ∀ (rest ds m : List Dep), MapOk j m ds →
    (toMap j m rest = none ↔ ∃ a b, a ∈ ds ++ rest ∧ b ∈ ds ++ rest ∧ a.package = b.package ∧ a.version ≠ b.version) ∧
    ∀ m', toMap j m rest = some m' → MapOk j m' (ds ++ rest) := by
  intro rest
  induction rest with
  | nil =>
    intro ds m hm
    refine ⟨?_, ?_⟩
    · constructor
      · intro h; cases h
      · rintro ⟨a, b, ha, hb, hp, hv⟩
        rw [List.append_nil] at ha hb
        obtain ⟨e, he, hep⟩ := hm.all a ha
        have h1 := (hm.stands e he).version a (by simp [ha, hep])
        have h2 := (hm.stands e he).version b (by simp [hb, hep, hp])
        exact absurd (h1.trans h2.symm) hv
    · intro m' h
      cases h
      simpa using hm
  | cons d rest ih =>
    intro ds m hm
    have hno : (∀ e ∈ m, e.package ≠ d.package) → ∀ x ∈ ds, x.package ≠ d.package := by
      intro h x hx hxd
      obtain ⟨e, he, hep⟩ := hm.all x hx
      exact h e he (hep.trans hxd)
    obtain ⟨h1, h2⟩ := insert_ok hj d ds m hm.sorted hm.stands hno
    rw [toMap]
    have happ : ds ++ d :: rest = ds ++ [d] ++ rest := by simp
    cases hi : insert j d m with
    | none =>
      refine ⟨⟨fun _ => ?_, fun _ => rfl⟩, fun m' h => by cases h⟩
      obtain ⟨e, he, hp, hv⟩ := h1.1 hi
      obtain ⟨x, hx⟩ := List.exists_mem_of_ne_nil _ (hm.stands e he).one
      have hxv := (hm.stands e he).version x hx
      simp only [List.mem_filter, decide_eq_true_eq] at hx
      exact ⟨x, d, by simp [hx.1], by simp, hx.2.trans hp, by rw [hxv]; exact hv⟩
    | some m1 =>
      obtain ⟨h3, h4, h5⟩ := h2 m1 hi
      rw [happ]
      refine ih (ds ++ [d]) m1 ⟨h3, h4, ?_⟩
      intro x hx
      rcases List.mem_append.1 hx with hx | hx
      · obtain ⟨e, he, hep⟩ := hm.all x hx
        exact (h5 x.package).2 (.inr ⟨e, he, hep⟩)
      · simp only [List.mem_singleton] at hx
        exact (h5 x.package).2 (.inl (by rw [hx]))

theorem empty_ok (j : Java) : MapOk j [] [] := ⟨.nil, by simp, by simp⟩

theorem group_none {j : Java} (hj : j.Ok) (ds : List Dep) (type : Text) :
    toMap j [] ((j.sorted ds).filter fun e => decide (e.type = type)) = none ↔
      ∃ a ∈ ds, ∃ b ∈ ds, a.type = type ∧ b.type = type ∧ a.package = b.package ∧ a.version ≠ b.version := by
  rw [(toMap_ok hj _ [] [] (empty_ok j)).1]
  simp only [List.nil_append, List.mem_filter, decide_eq_true_eq, (hj.perm ds).mem_iff]
  constructor
  · rintro ⟨a, b, ha, hb, h⟩
    exact ⟨a, ha.1, b, hb.1, ha.2, hb.2, h⟩
  · rintro ⟨a, ha, b, hb, h1, h2, h⟩
    exact ⟨a, b, ⟨ha, h1⟩, ⟨hb, h2⟩, h⟩

/-! ## Theorems -/

/-- C127: there is no package exactly if two dependencies for the same purpose ask for different versions of a package. -/
theorem C127_conflict {j : Java} (hj : j.Ok) (ds : List Dep) (type : Text) :
    gather j ds type = none ↔ ∃ a ∈ ds, ∃ b ∈ ds, Same a b ∧ a.version ≠ b.version := by
  rw [gather]
  by_cases h : ∃ d ∈ ds, toMap j [] ((j.sorted ds).filter fun e => decide (e.type = d.type)) = none
  · rw [if_pos h]
    refine ⟨fun _ => ?_, fun _ => rfl⟩
    obtain ⟨d, -, h⟩ := h
    obtain ⟨a, ha, b, hb, h1, h2, h3, h4⟩ := (group_none hj ds d.type).1 h
    exact ⟨a, ha, b, hb, ⟨h1.trans h2.symm, h3⟩, h4⟩
  · rw [if_neg h]
    have no : ∀ a ∈ ds, ∀ b ∈ ds, Same a b → a.version = b.version := by
      intro a ha b hb hs
      by_contra hv
      exact h ⟨a, ha, (group_none hj ds a.type).2 ⟨a, ha, b, hb, rfl, hs.1.symm, hs.2, hv⟩⟩
    constructor
    · intro hg
      obtain ⟨a, ha, b, hb, h1, h2, h3, h4⟩ := (group_none hj ds type).1 hg
      exact absurd (no a ha b hb ⟨h1.trans h2.symm, h3⟩) h4
    · rintro ⟨a, ha, b, hb, hs, hv⟩
      exact absurd (no a ha b hb hs) hv

/-- C127: each package is required once, in the order of their names, in the version that all ask for, with the extras that any
of them asks for; and there are no others. -/
theorem C127_required {j : Java} (hj : j.Ok) {ds : List Dep} {type : Text} {m : List Dep} (h : gather j ds type = some m) :
    (m.Pairwise fun a b => j.lt a.package b.package = true) ∧
    (∀ p, (∃ e ∈ m, e.package = p) ↔ ∃ d ∈ ds, d.type = type ∧ d.package = p) ∧
    (∀ e ∈ m, ∀ d ∈ ds, d.type = type → d.package = e.package → d.version = e.version) ∧
    (∀ e ∈ m, ∀ x, x ∈ e.extras ↔ ∃ d ∈ ds, d.type = type ∧ d.package = e.package ∧ x ∈ d.extras) ∧
    (∀ e ∈ m, (∀ d ∈ ds, d.extras.Nodup) → e.extras.Nodup) ∧
    (∀ e ∈ m, ∃ d ∈ ds, d.type = type ∧ d.package = e.package ∧ d.isLink = e.isLink) := by
  rw [gather] at h
  split at h
  · cases h
  · have hm := (toMap_ok hj _ [] [] (empty_ok j)).2 m h
    rw [List.nil_append] at hm
    have mem : ∀ d, d ∈ (j.sorted ds).filter (fun e => decide (e.type = type)) ↔ d ∈ ds ∧ d.type = type := by
      intro d
      rw [List.mem_filter, (hj.perm ds).mem_iff, decide_eq_true_iff]
    have mem2 : ∀ (e d : Dep), d ∈ ((j.sorted ds).filter (fun e => decide (e.type = type))).filter (fun d => decide (d.package = e.package)) ↔
        d ∈ ds ∧ d.type = type ∧ d.package = e.package := by
      intro e d
      rw [List.mem_filter, mem, decide_eq_true_iff, and_assoc]
    refine ⟨hm.sorted, ?_, ?_, ?_, ?_, ?_⟩
    · intro p
      constructor
      · rintro ⟨e, he, rfl⟩
        obtain ⟨d, hd⟩ := List.exists_mem_of_ne_nil _ (hm.stands e he).one
        obtain ⟨h1, h2, h3⟩ := (mem2 e d).1 hd
        exact ⟨d, h1, h2, h3⟩
      · rintro ⟨d, hd, ht, rfl⟩
        exact hm.all d ((mem d).2 ⟨hd, ht⟩)
    · intro e he d hd ht hp
      exact (hm.stands e he).version d ((mem2 e d).2 ⟨hd, ht, hp⟩)
    · intro e he x
      rw [(hm.stands e he).extras]
      constructor
      · rintro ⟨d, hd, hx⟩
        obtain ⟨h1, h2, h3⟩ := (mem2 e d).1 hd
        exact ⟨d, h1, h2, h3, hx⟩
      · rintro ⟨d, h1, h2, h3, hx⟩
        exact ⟨d, (mem2 e d).2 ⟨h1, h2, h3⟩, hx⟩
    · intro e he hn
      exact (hm.stands e he).nodup fun d hd => hn d ((mem2 e d).1 hd).1
    · intro e he
      obtain ⟨d, hd, hl, -⟩ := (hm.stands e he).link (by cases e.isLink <;> simp)
      obtain ⟨h1, h2, h3⟩ := (mem2 e d).1 hd
      exact ⟨d, h1, h2, h3, hl.symm⟩

theorem takeWhile_stop {p : Char → Bool} {a b : Text} (ha : ∀ c ∈ a, p c = true) (hb : ∀ c, b.head? = some c → p c = false) :
    (a ++ b).takeWhile p = a ∧ (a ++ b).dropWhile p = b := by
  induction a with
  | nil =>
    cases b with
    | nil => simp
    | cons c b =>
      have := hb c rfl
      simp [this]
  | cons c a ih =>
    obtain ⟨h1, h2⟩ := ih fun x hx => ha x (by simp [hx])
    have := ha c (by simp)
    simp [this, h1, h2]

theorem readExtras_commas : ∀ (xs : List Text) (n : Nat) (rest : Text), xs ≠ [] → (∀ x ∈ xs, ∀ c ∈ x, nameChar c = true) →
    xs.length ≤ n → readExtras n (commas xs ++ ']' :: rest) = some (xs, rest)
  | [], _, _, h, _, _ => absurd rfl h
  | [x], n, rest, _, hx, hn => by
    obtain ⟨n, rfl⟩ : ∃ k, n = k + 1 := ⟨n - 1, by simp at hn; omega⟩
    obtain ⟨h1, h2⟩ := takeWhile_stop (b := ']' :: rest) (hx x (by simp)) (by intro c hc; cases hc; decide)
    rw [readExtras, commas, h1, h2]
    rfl
  | x :: y :: xs, n, rest, _, hx, hn => by
    obtain ⟨n, rfl⟩ : ∃ k, n = k + 1 := ⟨n - 1, by simp at hn; omega⟩
    have e : commas (x :: y :: xs) ++ ']' :: rest = x ++ ',' :: ' ' :: (commas (y :: xs) ++ ']' :: rest) := by
      rw [commas]
      · simp
      · simp
    obtain ⟨h1, h2⟩ := takeWhile_stop (b := ',' :: ' ' :: (commas (y :: xs) ++ ']' :: rest)) (hx x (by simp))
      (by intro c hc; cases hc; decide)
    rw [readExtras, e, h1, h2]
    simp only
    rw [readExtras_commas (y :: xs) n rest (by simp) (fun z hz => hx z (by simp [hz])) (by simpa using hn)]
    rfl

theorem commas_length : ∀ (xs : List Text), xs.length ≤ (commas xs).length + 1
  | [] => by simp [commas]
  | [x] => by simp
  | x :: y :: xs => by
    rw [commas]
    · have := commas_length (y :: xs)
      simp only [List.length_append, List.length_cons] at *
      have h : ", ".toList.length = 2 := by decide
      omega
    · simp

/-- C127: the line for a dependency is read as a requirement of just that. -/
theorem C127_line {d : Dep} (h : d.Plain) : read (line d) = some ⟨d.package, d.extras, d.isLink, d.version⟩ := by
  obtain ⟨hp, hx, hv⟩ := h
  have tail : ∀ c, ((if d.isLink then " @ ".toList else []) ++ d.version).head? = some c → nameChar c = false ∧ c ≠ '[' := by
    intro c hc
    cases hl : d.isLink with
    | true =>
      rw [hl] at hc
      have : c = ' ' := by
        have : some ' ' = some c := hc
        simpa using this.symm
      subst this
      decide
    | false =>
      rw [hl] at hc
      have := hv hl c (by simpa using hc)
      exact ⟨this.1, this.2.1⟩
  have last : ∀ extras : List Text, (match (if d.isLink then " @ ".toList else []) ++ d.version with
      | ' ' :: '@' :: ' ' :: url => (⟨d.package, extras, true, url⟩ : Requirement)
      | r => ⟨d.package, extras, false, r⟩) = ⟨d.package, extras, d.isLink, d.version⟩ := by
    intro extras
    cases hl : d.isLink with
    | true => rfl
    | false =>
      simp only [Bool.false_eq_true, if_false, List.nil_append]
      have := hv hl
      split
      · rename_i url he
        exact absurd rfl (this ' ' (by rw [he]; rfl)).2.2
      · rfl
  cases he : d.extras with
  | nil =>
    have hline : line d = d.package ++ ((if d.isLink then " @ ".toList else []) ++ d.version) := by
      rw [line, he]; simp
    obtain ⟨h1, h2⟩ := takeWhile_stop (b := (if d.isLink then " @ ".toList else []) ++ d.version) hp fun c hc => (tail c hc).1
    rw [read, hline, h1, h2]
    have hmatch : (match (if d.isLink then " @ ".toList else []) ++ d.version with
        | '[' :: r => readExtras r.length r
        | r => some ([], r)) = some ([], (if d.isLink then " @ ".toList else []) ++ d.version) := by
      split
      · rename_i r hr
        exact absurd rfl (tail '[' (by rw [hr]; rfl)).2
      · rfl
    simp only
    rw [hmatch, Option.map_some]
    exact congrArg some (last [])
  | cons x xs =>
    have hline : line d = d.package ++ '[' :: (commas (x :: xs) ++ ']' :: ((if d.isLink then " @ ".toList else []) ++ d.version)) := by
      rw [line, he]; simp
    obtain ⟨h1, h2⟩ := takeWhile_stop
      (b := '[' :: (commas (x :: xs) ++ ']' :: ((if d.isLink then " @ ".toList else []) ++ d.version))) hp
      (by intro c hc; cases hc; decide)
    rw [read, hline, h1, h2]
    simp only
    rw [readExtras_commas (x :: xs) _ _ (by simp) (by rw [← he]; exact hx) (by
      have := commas_length (x :: xs)
      simp only [List.length_append, List.length_cons] at *
      omega), Option.map_some]
    exact congrArg some (last (x :: xs))

/-! ## Examples -/

def before : Text → Text → Bool
  | [], [] => false
  | [], _ => true
  | _, [] => false
  | a :: x, b :: y => decide (a.toNat < b.toNat) || (decide (a.toNat = b.toNat) && before x y)

theorem before_irrefl : ∀ a, before a a = false
  | [] => rfl
  | a :: x => by simp [before, before_irrefl x]

theorem before_trans : ∀ a b c, before a b = true → before b c = true → before a c = true
  | [], [], _, h, _ => by simp [before] at h
  | [], _ :: _, [], _, h => by simp [before] at h
  | [], _ :: _, _ :: _, _, _ => rfl
  | _ :: _, [], _, h, _ => by simp [before] at h
  | _ :: _, _ :: _, [], _, h => by simp [before] at h
  | a :: x, b :: y, c :: z, h1, h2 => by
    simp only [before, Bool.or_eq_true, Bool.and_eq_true, decide_eq_true_eq] at *
    have ih := before_trans x y z
    rcases h1 with h1 | ⟨h1, h1'⟩
    · rcases h2 with h2 | ⟨h2, -⟩ <;> exact .inl (by omega)
    · rcases h2 with h2 | ⟨h2, h2'⟩
      · exact .inl (by omega)
      · exact .inr ⟨by omega, ih h1' h2'⟩

theorem before_total : ∀ a b, a ≠ b → before a b = true ∨ before b a = true
  | [], [], h => absurd rfl h
  | [], _ :: _, _ => .inl rfl
  | _ :: _, [], _ => .inr rfl
  | a :: x, b :: y, h => by
    simp only [before, Bool.or_eq_true, Bool.and_eq_true, decide_eq_true_eq]
    by_cases hab : a.toNat = b.toNat
    · have : a = b := Char.toNat_inj.1 hab
      rcases before_total x y (fun hxy => h (by rw [this, hxy])) with h | h
      · exact .inl (.inr ⟨hab, h⟩)
      · exact .inr (.inr ⟨hab.symm, h⟩)
    · rcases Nat.lt_or_gt_of_ne hab with h | h
      · exact .inl (.inl h)
      · exact .inr (.inl h)

def java : Java := ⟨before, fun l => l⟩

theorem java_ok : java.Ok := ⟨fun _ => .refl _, before_irrefl, before_trans, before_total⟩

def http (extras : List Text) : Dep := ⟨"dependency".toList, "smithy_http".toList, "~=0.4.0".toList, false, extras⟩
def core : Dep := ⟨"dependency".toList, "smithy_core".toList, "~=0.4.0".toList, false, []⟩

/-- Extras from several places are all there. -/
theorem example_gather : gather java [http [], core, http ["aiohttp".toList], http ["awscrt".toList, "aiohttp".toList]] "dependency".toList =
    some [core, http ["aiohttp".toList, "awscrt".toList]] := by decide +kernel

example := C127_required java_ok example_gather

example : gather java [core, { core with version := "~=0.3.0".toList }] "dependency".toList = none :=
  (C127_conflict java_ok _ _).2 ⟨_, List.mem_cons_self, _, List.mem_cons_of_mem _ List.mem_cons_self, ⟨rfl, rfl⟩, by decide +kernel⟩

theorem example_plain : (http ["aiohttp".toList, "awscrt".toList]).Plain := by
  refine ⟨by decide +kernel, by decide +kernel, ?_⟩
  intro _ c hc
  have : c = '~' := by
    have : some '~' = some c := hc
    simpa using this.symm
  subst this
  decide

example : line (http ["aiohttp".toList, "awscrt".toList]) = "smithy_http[aiohttp, awscrt]~=0.4.0".toList := by decide +kernel

example := C127_line example_plain

end Verif.Requirements
