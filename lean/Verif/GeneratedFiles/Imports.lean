import Mathlib.Tactic.Common
import Mathlib.Data.List.Sort
import Verif.Common
import Verif.Dict

/-!
# What names in a generated file stand for

A generated file imports what it uses.  Generators hand symbols to a writer, which notes them, puts
placeholders in the text, and when the file is complete chooses the names under which things are
imported, so that they do not clash with one another or with what the file defines.
-/

set_option autoImplicit false

namespace Verif.GeneratedFiles.Imports

open Verif.Dict

/-! ## Model -/

abbrev Text := List Char

/-- A symbol: the module it is defined in, none for what is built into Python, its name, whether the
module belongs to the standard library, whether it can be imported, and a number for all else that
Smithy's library compares symbols by, such as the shape they were made for. -/
structure Sym where
  ns : Text
  name : Text
  stdlib : Bool := false
  importable : Bool := true
  rest : Nat := 0
  deriving DecidableEq, Repr

/-- What generators do with names: `$T` with a symbol or with a reference, which has an alias
(PythonWriter.java:460-477); import a name and write it out (239-266, 290-293, 317-320), which is also what
happens to the names within types such as `list[Document]`, whose symbols have no module but
references (PythonSymbolProvider.java:176-182, 197-199, 224-226, 331-337); import a whole module
(PythonWriter.java:110-114, 239-242). -/
inductive Use
  | symbol (s : Sym)
  | reference (s : Sym) (as_ : Text)
  | literal (s : Sym)
  | whole (ns : Text)
  deriving DecidableEq, Repr

/-- A file: the name of the package, that of the module, what its generators did in order, the names
of definitions they told the writer of (PythonWriter.java:351-354), and those they did not tell it
of, such as `logger`. -/
structure File where
  package : Text
  home : Text
  uses : List Use
  defined : List Text
  unregistered : List Text

/-- Whether a symbol has to be imported (ImportDeclarations.java:40, PythonWriter.java:499-506). -/
def foreign (home : Text) (s : Sym) : Bool := !(s.ns = []) && !(s.ns = home)

/-- An import: from the standard library or not, the module, the name, none for the whole module. -/
abbrev Key := Bool × Text × Text

/-- What a use imports, with the name it is given (ImportDeclarations.java:39-58, 81-105;
PythonWriter.java:466-472).  Simplified: modules within the package are kept with their full names, as
relative names are the matter of `Relative.lean`. -/
def Use.entry (home : Text) : Use → Option (Key × Text)
  | .symbol s =>
    if s.importable && foreign home s then some ((s.stdlib, s.ns, s.name), s.name) else none
  | .reference s a => if foreign home s then some ((s.stdlib, s.ns, s.name), a) else none
  | .literal s => if foreign home s then some ((s.stdlib, s.ns, s.name), s.name) else none
  | .whole ns => some ((true, ns, []), [])

/-- The imports, before names are chosen: later ones replace earlier ones of the same thing
(ImportDeclarations.java:102-103). -/
def collected (f : File) : List (Key × Text) := update [] (f.uses.filterMap (Use.entry f.home))

/-- `symbolTable` (PythonWriter.java:60, 508-509). -/
def table (f : File) : List Sym :=
  f.uses.filterMap fun u =>
    match u with
    | .symbol s => if foreign f.home s then some s else none
    | _ => none

/-- `hasImportCollision` (PythonWriter.java:398). -/
def collides (f : File) (name : Text) : Bool :=
  (table f).any fun s => (table f).any fun t => s.name = name && t.name = name && !(s = t)

/-- `buildModuleAlias` (PythonWriter.java:442-451). -/
def moduleAlias (ns name : Text) : Text :=
  '_' :: (ns.map fun c => if c = '.' then '_' else c) ++ '_' :: name

/-- The name that `resolveCollisions` chooses (PythonWriter.java:390-430). -/
def resolved (f : File) (ns name : Text) : Text :=
  if collides f name then moduleAlias ns name
  else if f.defined.contains name then '_' :: name
  else name

/-- `aliasImport` (ImportDeclarations.java:126-153). -/
def aliasImport (m : List (Key × Text)) (ns name as_ : Text) : List (Key × Text) :=
  let one := fun m (k : Key) => if m.lookup k = some name then put m k as_ else m
  one (one m (true, ns, name)) (false, ns, name)

/-- The imports with their names; `order` is that in which symbols come out of the table. -/
def aliased (f : File) (order : List Sym) : List (Key × Text) :=
  order.foldl (fun m s =>
    if resolved f s.ns s.name = s.name then m
    else aliasImport m s.ns s.name (resolved f s.ns s.name)) (collected f)

/-- The order of texts in Java. -/
def le : Text → Text → Bool
  | [], _ => true
  | _, [] => false
  | a :: x, b :: y => if a = b then le x y else a.toNat ≤ b.toNat

/-- Imports are sorted (ImportDeclarations.java:26-28, 155-189). -/
def before (package : Text) (x y : Key × Text) : Prop :=
  let rank : Key → Nat := fun k => if k.1 then 0 else if package.isPrefixOf k.2.1 then 2 else 1
  if rank x.1 ≠ rank y.1 then rank x.1 ≤ rank y.1
  else if x.1.2.1 ≠ y.1.2.1 then le x.1.2.1 y.1.2.1 = true
  else le x.1.2.2 y.1.2.2 = true

instance (p : Text) : DecidableRel (before p) := fun x y => by unfold before; infer_instance

/-- What a name can stand for: something built into Python, if it is known at all; something in a
module; a module; a definition in the file. -/
inductive Obj
  | builtin (name : Text)
  | member (ns name : Text)
  | «module» (ns : Text)
  | definition (name : Text)
  deriving DecidableEq, Repr

/-- The name an import statement binds, and what to (ImportDeclarations.java:174-222).  Simplified: names of
modules that are imported as a whole have no dots. -/
def bound (e : Key × Text) : Text × Obj :=
  if e.1.2.2 = [] then (e.1.2.1, .module e.1.2.1) else (e.2, .member e.1.2.1 e.1.2.2)

/-- What a name stands for when the file has been loaded: definitions come after imports, and what is
bound last counts (PythonWriter.java:357-375). -/
def evaluate (f : File) (order : List Sym) (t : Text) : Obj :=
  if (f.defined ++ f.unregistered).contains t then .definition t
  else
    match (((aliased f order).insertionSort (before f.package)).map bound).reverse.find?
        (fun b => b.1 = t) with
    | some b => b.2
    | none => .builtin t

/-- The text that is written for a use (PythonWriter.java:366-370, 463-472, 498-513). -/
def printed (f : File) : Use → Text
  | .symbol s => if foreign f.home s then resolved f s.ns s.name else s.name
  | .reference _ a => a
  | .literal s => s.name
  | .whole ns => ns

/-! ## Specification -/

/-- What is meant by a use. -/
def meant (f : File) : Use → Obj
  | .symbol s | .literal s =>
    if s.ns = [] then .builtin s.name
    else if s.ns = f.home then .definition s.name
    else .member s.ns s.name
  | .reference s _ => .member s.ns s.name
  | .whole ns => .module ns

/-- All names the file defines. -/
def File.names (f : File) : List Text := f.defined ++ f.unregistered

/-- The names that are imported as they are written, with what they are meant to be. -/
def given (f : File) : List (Text × Obj) :=
  f.uses.filterMap fun u =>
    match u with
    | .symbol _ => none
    | .reference s a => some (a, .member s.ns s.name)
    | .literal s => if foreign f.home s then some (s.name, .member s.ns s.name) else none
    | .whole ns => some (ns, .module ns)

/-- The name after that of its module, with underscores. -/
def underscored (s : Sym) : Text :=
  ['_'] ++ (s.ns.map fun c => if c = '.' then '_' else c) ++ ['_'] ++ s.name

/-- What generators have to see to.  The writer sees to it that what is written with `$T` does not
clash with one another, or with definitions it has been told of. -/
structure Fine (f : File) : Prop where
  importable : ∀ s : Sym, .symbol s ∈ f.uses → s.importable = true
  named : ∀ s : Sym, .symbol s ∈ f.uses ∨ .literal s ∈ f.uses ∨ (∃ a, .reference s a ∈ f.uses) → s.name ≠ []
  /-- What the file defines is there. -/
  here : ∀ s : Sym, .symbol s ∈ f.uses ∨ .literal s ∈ f.uses → s.ns = f.home → s.name ∈ f.names
  /-- References are to other modules, always under the same alias, and what they refer to is not used
  in another way. -/
  away : ∀ (s : Sym) (a : Text), .reference s a ∈ f.uses → foreign f.home s = true
  referred : ∀ (s : Sym) (a : Text) (t : Sym) (b : Text), .reference s a ∈ f.uses → .reference t b ∈ f.uses →
    s.ns = t.ns → s.name = t.name → a = b
  only : ∀ (s : Sym) (a : Text) (t : Sym), .reference s a ∈ f.uses → .symbol t ∈ f.uses ∨ .literal t ∈ f.uses →
    ¬(s.ns = t.ns ∧ s.name = t.name)
  /-- Names that are imported as they are written differ from each other and from definitions. -/
  once : ∀ x ∈ given f, ∀ y ∈ given f, x.1 = y.1 → x.2 = y.2
  apart : ∀ x ∈ given f, x.1 ∉ f.names
  /-- If something is used with `$T` whose name is also imported as it is written, it is the same, and
  nothing else of the name is used with `$T`. -/
  shared : ∀ s ∈ table f, ∀ x ∈ given f, x.1 = s.name →
    x.2 = .member s.ns s.name ∧ ∀ t ∈ table f, t.name = s.name → t = s
  /-- Names of definitions that the writer has not been told of are not used with `$T`. -/
  free : ∀ s ∈ table f, s.name ∉ f.unregistered
  /-- The names that the writer makes up are not used otherwise. -/
  prefixed : ∀ s ∈ table f, s.name ∈ f.defined →
    '_' :: s.name ∉ f.names ∧ (∀ x ∈ given f, x.1 ≠ '_' :: s.name) ∧
      ∀ t ∈ table f, t.name ≠ '_' :: s.name ∧ underscored t ≠ '_' :: s.name
  qualified : ∀ s ∈ table f, ∀ s' ∈ table f, s ≠ s' → s.name = s'.name →
    underscored s ∉ f.names ∧ (∀ x ∈ given f, x.1 ≠ underscored s) ∧
      ∀ t ∈ table f, t.name ≠ underscored s ∧
        (underscored t = underscored s → t.ns = s.ns ∧ t.name = s.name)
  /-- Names of what is built into Python are not used otherwise. -/
  builtin : ∀ s : Sym, .symbol s ∈ f.uses ∨ .literal s ∈ f.uses → s.ns = [] →
    s.name ∉ f.names ∧ (∀ x ∈ given f, x.1 ≠ s.name) ∧
      ∀ t ∈ table f, t.name ≠ s.name ∧ '_' :: t.name ≠ s.name ∧ underscored t ≠ s.name
  home : f.home ≠ []

/-! ## Lemmas -/

variable {f : File} {order : List Sym}

theorem underscored_eq (s : Sym) : underscored s = moduleAlias s.ns s.name := by
  simp [underscored, moduleAlias]

theorem foreign_iff {home : Text} {s : Sym} : foreign home s = true ↔ s.ns ≠ [] ∧ s.ns ≠ home := by
  simp [foreign]

theorem mem_table {s : Sym} : s ∈ table f ↔ .symbol s ∈ f.uses ∧ foreign f.home s = true := by
  unfold table
  rw [List.mem_filterMap]
  constructor
  · rintro ⟨u, hu, h⟩
    cases u with
    | symbol t =>
      simp only at h
      by_cases hf : foreign f.home t = true
      · rw [if_pos hf] at h
        cases h
        exact ⟨hu, hf⟩
      · rw [if_neg hf] at h
        cases h
    | reference t a => cases h
    | literal t => cases h
    | whole ns => cases h
  · rintro ⟨hu, hf⟩
    exact ⟨_, hu, by simp [hf]⟩

theorem collides_iff {n : Text} : collides f n = true ↔
    ∃ s ∈ table f, ∃ t ∈ table f, s.name = n ∧ t.name = n ∧ s ≠ t := by
  simp [collides, and_assoc]

theorem lookup_aliasImport (m : List (Key × Text)) (ns name as_ : Text) (k : Key) :
    (aliasImport m ns name as_).lookup k =
      if k.2 = (ns, name) ∧ m.lookup k = some name then some as_ else m.lookup k := by
  obtain ⟨b, ns', name'⟩ := k
  have one : ∀ (m : List (Key × Text)) (k k' : Key),
      (if m.lookup k = some name then put m k as_ else m).lookup k' =
        if k' = k ∧ m.lookup k' = some name then some as_ else m.lookup k' := by
    intro m k k'
    by_cases h : m.lookup k = some name
    · rw [if_pos h, lookup_put]
      by_cases hk : k' = k
      · subst hk; simp [h]
      · simp [hk]
    · rw [if_neg h]
      by_cases hk : k' = k
      · subst hk; simp [h]
      · simp [hk]
  unfold aliasImport
  simp only
  rw [one, one]
  cases b <;> by_cases h : (ns', name') = (ns, name)
  all_goals simp_all [Prod.ext_iff]

theorem keys_aliasImport {m : List (Key × Text)} (ns name as_ : Text) (h : Keys m) :
    Keys (aliasImport m ns name as_) := by
  have one : ∀ {m : List (Key × Text)} (k : Key), Keys m →
      Keys (if m.lookup k = some name then put m k as_ else m) := by
    intro m k h
    split
    · exact keys_put _ _ _ h
    · exact h
  exact one _ (one _ h)

theorem keys_collected : Keys (collected f) := keys_update _ _ (by simp [Keys])

/-- One step of `aliased`. -/
def step (f : File) (m : List (Key × Text)) (s : Sym) : List (Key × Text) :=
  if resolved f s.ns s.name = s.name then m
  else aliasImport m s.ns s.name (resolved f s.ns s.name)

theorem keys_steps : ∀ (order : List Sym) (m : List (Key × Text)), Keys m →
    Keys (order.foldl (step f) m)
  | [], _, h => h
  | s :: r, m, h => by
    refine keys_steps r _ ?_
    unfold step
    split
    · exact h
    · exact keys_aliasImport _ _ _ h

theorem keys_aliased : Keys (aliased f order) := keys_steps order _ keys_collected

theorem lookup_step (m : List (Key × Text)) (s : Sym) (k : Key) :
    (step f m s).lookup k =
      if k.2 = (s.ns, s.name) ∧ m.lookup k = some k.2.2 then some (resolved f k.2.1 k.2.2)
      else m.lookup k := by
  unfold step
  by_cases hr : resolved f s.ns s.name = s.name
  · rw [if_pos hr]
    by_cases h : k.2 = (s.ns, s.name) ∧ m.lookup k = some k.2.2
    · rw [if_pos h, h.2, h.1]
      simp only
      rw [hr]
    · rw [if_neg h]
  · rw [if_neg hr, lookup_aliasImport]
    by_cases h : k.2 = (s.ns, s.name)
    · rw [h]
    · simp [h]

theorem lookup_steps (k : Key) : ∀ (order : List Sym) (m : List (Key × Text)),
    (order.foldl (step f) m).lookup k =
      if (∃ s ∈ order, k.2 = (s.ns, s.name)) ∧ m.lookup k = some k.2.2 then
        some (resolved f k.2.1 k.2.2)
      else m.lookup k
  | [], m => by simp
  | s :: r, m => by
    rw [List.foldl_cons, lookup_steps k r, lookup_step]
    by_cases h : m.lookup k = some k.2.2
    · by_cases hs : k.2 = (s.ns, s.name)
      · have hp : (∃ t ∈ s :: r, k.2 = (t.ns, t.name)) ∧ m.lookup k = some k.2.2 :=
          ⟨⟨s, by simp, hs⟩, h⟩
        simp only [if_pos (And.intro hs h), if_pos hp]
        split
        · rfl
        · rfl
      · have : (∃ t ∈ s :: r, k.2 = (t.ns, t.name)) ↔ ∃ t ∈ r, k.2 = (t.ns, t.name) := by
          simp [hs]
        simp only [hs, h, this, false_and, if_false]
    · simp [h]

theorem lookup_aliased (k : Key) :
    (aliased f order).lookup k =
      if (∃ s ∈ order, k.2 = (s.ns, s.name)) ∧ (collected f).lookup k = some k.2.2 then
        some (resolved f k.2.1 k.2.2)
      else (collected f).lookup k :=
  lookup_steps k order (collected f)

theorem mem_of_lookup {K V : Type} [BEq K] [LawfulBEq K] [DecidableEq K] {k : K} {v : V} :
    ∀ {d : List (K × V)}, d.lookup k = some v → (k, v) ∈ d
  | [], h => by simp at h
  | (a, b) :: d, h => by
    rw [lookup_cons] at h
    by_cases hk : k = a
    · rw [if_pos hk] at h
      cases h
      simp [hk]
    · rw [if_neg hk] at h
      exact List.mem_cons_of_mem _ (mem_of_lookup h)

theorem lookup_of_mem {K V : Type} [BEq K] [LawfulBEq K] [DecidableEq K] {k : K} {v : V} :
    ∀ {d : List (K × V)}, Keys d → (k, v) ∈ d → d.lookup k = some v
  | [], _, h => by simp at h
  | (a, b) :: d, hk, h => by
    simp only [Keys, List.map_cons, List.nodup_cons] at hk
    rw [lookup_cons]
    rcases List.mem_cons.mp h with h | h
    · cases h; simp
    · rw [if_neg]
      · exact lookup_of_mem hk.2 h
      · intro he
        exact hk.1 (List.mem_map.mpr ⟨(k, v), h, he⟩)

/-- An import is one that some use asked for. -/
theorem collected_from {k : Key} {a : Text} (h : (collected f).lookup k = some a) :
    ∃ u ∈ f.uses, u.entry f.home = some (k, a) := by
  unfold collected at h
  rw [lookup_update] at h
  simp only [List.lookup_nil, Option.or_none] at h
  have := mem_of_lookup h
  rw [List.mem_reverse, List.mem_filterMap] at this
  exact this

theorem collected_has {u : Use} {k : Key} {a : Text} (hu : u ∈ f.uses)
    (he : u.entry f.home = some (k, a)) : ∃ b, (collected f).lookup k = some b := by
  unfold collected
  rw [lookup_update]
  simp only [List.lookup_nil, Option.or_none]
  cases h : (f.uses.filterMap (Use.entry f.home)).reverse.lookup k with
  | some b => exact ⟨b, rfl⟩
  | none =>
    rw [lookup_eq_none] at h
    exact absurd (List.mem_map.mpr ⟨(k, a), List.mem_reverse.mpr
      (List.mem_filterMap.mpr ⟨u, hu, he⟩), rfl⟩) h

/-- The uses behind an import. -/
theorem entry_cases {u : Use} {b : Bool} {ns name a : Text}
    (he : u.entry f.home = some ((b, ns, name), a)) :
    (∃ s, (u = .symbol s ∧ s.importable = true ∨ u = .literal s) ∧ foreign f.home s = true ∧
      s.stdlib = b ∧ s.ns = ns ∧ s.name = name ∧ a = name) ∨
    (∃ s, u = .reference s a ∧ foreign f.home s = true ∧ s.stdlib = b ∧ s.ns = ns ∧ s.name = name) ∨
    (u = .whole ns ∧ b = true ∧ name = [] ∧ a = []) := by
  cases u with
  | symbol s =>
    simp only [Use.entry] at he
    by_cases hc : (s.importable && foreign f.home s) = true
    · rw [if_pos hc] at he
      simp only [Option.some.injEq, Prod.mk.injEq] at he
      rw [Bool.and_eq_true] at hc
      exact .inl ⟨s, .inl ⟨rfl, hc.1⟩, hc.2, he.1.1, he.1.2.1, he.1.2.2, by rw [← he.2, he.1.2.2]⟩
    · rw [if_neg hc] at he
      cases he
  | reference s x =>
    simp only [Use.entry] at he
    by_cases hc : foreign f.home s = true
    · rw [if_pos hc] at he
      simp only [Option.some.injEq, Prod.mk.injEq] at he
      obtain ⟨h, rfl⟩ := he
      exact .inr (.inl ⟨s, rfl, hc, h.1, h.2.1, h.2.2⟩)
    · rw [if_neg hc] at he
      cases he
  | literal s =>
    simp only [Use.entry] at he
    by_cases hc : foreign f.home s = true
    · rw [if_pos hc] at he
      simp only [Option.some.injEq, Prod.mk.injEq] at he
      exact .inl ⟨s, .inr rfl, hc, he.1.1, he.1.2.1, he.1.2.2, by rw [← he.2, he.1.2.2]⟩
    · rw [if_neg hc] at he
      cases he
  | whole x =>
    simp only [Use.entry, Option.some.injEq, Prod.mk.injEq] at he
    obtain ⟨⟨rfl, rfl, rfl⟩, rfl⟩ := he
    exact .inr (.inr ⟨rfl, rfl, rfl, rfl⟩)

/-- What is bound to what. -/
inductive Binds (f : File) : Text → Obj → Prop
  | given {t : Text} {o : Obj} (h : (t, o) ∈ given f) : Binds f t o
  | table (s : Sym) (h : s ∈ table f) : Binds f (resolved f s.ns s.name) (.member s.ns s.name)

theorem mem_given {t : Text} {o : Obj} : (t, o) ∈ given f ↔
    (∃ s, .reference s t ∈ f.uses ∧ o = .member s.ns s.name) ∨
    (∃ s, .literal s ∈ f.uses ∧ foreign f.home s = true ∧ t = s.name ∧ o = .member s.ns s.name) ∨
    (.whole t ∈ f.uses ∧ o = .module t) := by
  unfold given
  rw [List.mem_filterMap]
  constructor
  · rintro ⟨u, hu, h⟩
    cases u with
    | symbol s => cases h
    | reference s a =>
      simp only [Option.some.injEq, Prod.mk.injEq] at h
      obtain ⟨rfl, rfl⟩ := h
      exact .inl ⟨s, hu, rfl⟩
    | literal s =>
      simp only at h
      by_cases hf : foreign f.home s = true
      · rw [if_pos hf] at h
        simp only [Option.some.injEq, Prod.mk.injEq] at h
        exact .inr (.inl ⟨s, hu, hf, h.1.symm, h.2.symm⟩)
      · rw [if_neg hf] at h
        cases h
    | whole ns =>
      simp only [Option.some.injEq, Prod.mk.injEq] at h
      obtain ⟨rfl, rfl⟩ := h
      exact .inr (.inr ⟨hu, rfl⟩)
  · rintro (⟨s, hu, rfl⟩ | ⟨s, hu, hf, rfl, rfl⟩ | ⟨hu, rfl⟩)
    · exact ⟨_, hu, rfl⟩
    · exact ⟨_, hu, by simp [hf]⟩
    · exact ⟨_, hu, rfl⟩

/-- The three ways of choosing a name. -/
theorem resolved_cases {s : Sym} (hs : s ∈ table f) :
    (resolved f s.ns s.name = s.name ∧ s.name ∉ f.defined ∧
      ∀ t ∈ table f, t.name = s.name → t = s) ∨
    (resolved f s.ns s.name = '_' :: s.name ∧ s.name ∈ f.defined ∧
      ∀ t ∈ table f, t.name = s.name → t = s) ∨
    (resolved f s.ns s.name = underscored s ∧ ∃ t ∈ table f, s ≠ t ∧ s.name = t.name) := by
  by_cases hc : collides f s.name = true
  · refine .inr (.inr ⟨?_, ?_⟩)
    · rw [underscored_eq]
      unfold resolved
      rw [if_pos hc]
    · obtain ⟨a, ha, b, hb, h₁, h₂, hne⟩ := collides_iff.mp hc
      by_cases h : s = a
      · exact ⟨b, hb, by rw [h]; exact hne, by rw [h₂]⟩
      · exact ⟨a, ha, h, by rw [h₁]⟩
  · have huniq : ∀ t ∈ table f, t.name = s.name → t = s := by
      intro t ht he
      by_contra hne
      exact hc (collides_iff.mpr ⟨t, ht, s, hs, he, rfl, hne⟩)
    by_cases hd : f.defined.contains s.name = true
    · refine .inr (.inl ⟨?_, by simpa using hd, huniq⟩)
      unfold resolved
      rw [if_neg hc, if_pos hd]
    · refine .inl ⟨?_, by simpa using hd, huniq⟩
      unfold resolved
      rw [if_neg hc, if_neg hd]

theorem binds_given_table (hf : Fine f) {t : Text} {o : Obj} (h : (t, o) ∈ given f) {s : Sym}
    (hs : s ∈ table f) (he : resolved f s.ns s.name = t) : o = .member s.ns s.name := by
  rcases resolved_cases hs with ⟨hr, hn, hu⟩ | ⟨hr, hd, hu⟩ | ⟨hr, s', hs', hne, hn⟩
  · exact (hf.shared s hs _ h (by rw [← he, hr])).1
  · exact absurd (by rw [← he, hr]) ((hf.prefixed s hs hd).2.1 _ h)
  · exact absurd (by rw [← he, hr]) ((hf.qualified s hs s' hs' hne hn).2.1 _ h)

theorem table_inj (hf : Fine f) {s t : Sym} (hs : s ∈ table f) (ht : t ∈ table f)
    (he : resolved f s.ns s.name = resolved f t.ns t.name) : s.ns = t.ns ∧ s.name = t.name := by
  rcases resolved_cases hs with ⟨hr, hn, hu⟩ | ⟨hr, hd, hu⟩ | ⟨hr, s', hs', hne, hn⟩ <;>
    rcases resolved_cases ht with ⟨hr', hn', hu'⟩ | ⟨hr', hd', hu'⟩ | ⟨hr', t', ht', hne', hn'⟩ <;>
    rw [hr, hr'] at he
  · rw [hu t ht he.symm]; exact ⟨rfl, rfl⟩
  · exact absurd he ((hf.prefixed t ht hd').2.2 s hs).1
  · exact absurd he ((hf.qualified t ht t' ht' hne' hn').2.2 s hs).1
  · exact absurd he.symm ((hf.prefixed s hs hd).2.2 t ht).1
  · simp only [List.cons.injEq, true_and] at he
    rw [hu t ht he.symm]; exact ⟨rfl, rfl⟩
  · exact absurd he.symm ((hf.prefixed s hs hd).2.2 t ht).2
  · exact absurd he.symm ((hf.qualified s hs s' hs' hne hn).2.2 t ht).1
  · exact absurd he ((hf.prefixed t ht hd').2.2 s hs).2
  · exact ((hf.qualified t ht t' ht' hne' hn').2.2 s hs).2 he

/-- A name is bound to one thing. -/
theorem binds_unique (hf : Fine f) {t : Text} {o o' : Obj} (h : Binds f t o) (h' : Binds f t o') :
    o = o' := by
  cases h with
  | given h =>
    generalize ht : t = t' at h'
    cases h' with
    | given h' => subst ht; exact hf.once _ h _ h' rfl
    | table s hs => exact binds_given_table hf h hs ht.symm
  | table s hs =>
    generalize ht : resolved f s.ns s.name = t' at h'
    cases h' with
    | given h' => exact (binds_given_table hf h' hs ht).symm
    | table s' hs' =>
      obtain ⟨h₁, h₂⟩ := table_inj hf hs hs' ht
      rw [h₁, h₂]

theorem binds_free (hf : Fine f) {t : Text} {o : Obj} (h : Binds f t o) : t ∉ f.names := by
  cases h with
  | given h => exact hf.apart _ h
  | table s hs =>
    rcases resolved_cases hs with ⟨hr, hn, hu⟩ | ⟨hr, hd, hu⟩ | ⟨hr, s', hs', hne, hn⟩
    · rw [hr]
      simp only [File.names, List.mem_append, not_or]
      exact ⟨hn, hf.free s hs⟩
    · rw [hr]
      exact (hf.prefixed s hs hd).1
    · rw [hr]
      exact (hf.qualified s hs s' hs' hne hn).1

/-- Everything that is imported is bound as it should be. -/
theorem aliased_binds (hf : Fine f) (ho : ∀ s, s ∈ order ↔ s ∈ table f) {e : Key × Text}
    (h : e ∈ aliased f order) : Binds f (bound e).1 (bound e).2 := by
  obtain ⟨⟨b, ns, name⟩, a⟩ := e
  have hl := lookup_of_mem keys_aliased h
  rw [lookup_aliased] at hl
  simp only at hl
  have whole : name = [] → .whole ns ∈ f.uses → Binds f (bound ((b, ns, name), a)).1
      (bound ((b, ns, name), a)).2 := by
    intro hn hu
    subst hn
    exact .given (mem_given.mpr (.inr (.inr ⟨hu, rfl⟩)))
  by_cases hc : (∃ s ∈ order, (ns, name) = (s.ns, s.name)) ∧
      (collected f).lookup (b, ns, name) = some name
  · rw [if_pos hc] at hl
    simp only [Option.some.injEq] at hl
    subst hl
    obtain ⟨⟨s, hs, he⟩, _⟩ := hc
    simp only [Prod.mk.injEq] at he
    obtain ⟨rfl, rfl⟩ := he
    have hs' := (ho s).mp hs
    have hn := hf.named s (.inl (mem_table.mp hs').1)
    have : bound ((b, s.ns, s.name), resolved f s.ns s.name) =
        (resolved f s.ns s.name, .member s.ns s.name) := by
      unfold bound
      simp only
      rw [if_neg hn]
    rw [this]
    exact .table s hs'
  · rw [if_neg hc] at hl
    obtain ⟨u, hu, he⟩ := collected_from hl
    rcases entry_cases he with ⟨s, hk, hfo, _, rfl, rfl, rfl⟩ | ⟨s, rfl, hfo, _, rfl, rfl⟩ |
      ⟨rfl, _, hn, _⟩
    · rcases hk with ⟨rfl, _⟩ | rfl
      · exact absurd ⟨⟨s, (ho s).mpr (mem_table.mpr ⟨hu, hfo⟩), rfl⟩, hl⟩ hc
      · have hn := hf.named s (.inr (.inl hu))
        have : bound ((b, s.ns, s.name), s.name) = (s.name, .member s.ns s.name) := by
          unfold bound
          simp only
          rw [if_neg hn]
        rw [this]
        exact .given (mem_given.mpr (.inr (.inl ⟨s, hu, hfo, rfl, rfl⟩)))
    · have hn := hf.named s (.inr (.inr ⟨a, hu⟩))
      have : bound ((b, s.ns, s.name), a) = (a, .member s.ns s.name) := by
        unfold bound
        simp only
        rw [if_neg hn]
      rw [this]
      exact .given (mem_given.mpr (.inl ⟨s, hu, rfl⟩))
    · exact whole hn hu

theorem evaluate_bound (hf : Fine f) (ho : ∀ s, s ∈ order ↔ s ∈ table f) {e : Key × Text}
    (h : e ∈ aliased f order) : evaluate f order (bound e).1 = (bound e).2 := by
  have hb := aliased_binds hf ho h
  have hn : ¬ (f.defined ++ f.unregistered).contains (bound e).1 = true := by
    simpa [File.names] using binds_free hf hb
  unfold evaluate
  rw [if_neg hn]
  cases hfind : (((aliased f order).insertionSort (before f.package)).map bound).reverse.find?
      (fun b => b.1 = (bound e).1) with
  | none =>
    rw [List.find?_eq_none] at hfind
    refine absurd (by simp) (hfind (bound e) ?_)
    rw [List.mem_reverse, List.mem_map]
    exact ⟨e, (List.mem_insertionSort _).mpr h, rfl⟩
  | some b =>
    have hm := List.mem_of_find?_eq_some hfind
    rw [List.mem_reverse, List.mem_map] at hm
    obtain ⟨e', he', rfl⟩ := hm
    have ht : (bound e').1 = (bound e).1 := by simpa using List.find?_some hfind
    have hb' := aliased_binds hf ho ((List.mem_insertionSort _).mp he')
    rw [ht] at hb'
    exact binds_unique hf hb' hb

/-- What is not bound is left to Python. -/
theorem evaluate_unbound (hf : Fine f) (ho : ∀ s, s ∈ order ↔ s ∈ table f) {t : Text}
    (hn : t ∉ f.names) (hb : ∀ o, ¬ Binds f t o) : evaluate f order t = .builtin t := by
  have hn : ¬ (f.defined ++ f.unregistered).contains t = true := by
    simpa [File.names] using hn
  unfold evaluate
  rw [if_neg hn]
  cases hfind : (((aliased f order).insertionSort (before f.package)).map bound).reverse.find?
      (fun b => b.1 = t) with
  | none => rfl
  | some b =>
    have hm := List.mem_of_find?_eq_some hfind
    rw [List.mem_reverse, List.mem_map] at hm
    obtain ⟨e', he', rfl⟩ := hm
    have ht : (bound e').1 = t := by simpa using List.find?_some hfind
    have hb' := aliased_binds hf ho ((List.mem_insertionSort _).mp he')
    rw [ht] at hb'
    exact absurd hb' (hb _)

theorem evaluate_here {t : Text} (h : t ∈ f.names) : evaluate f order t = .definition t := by
  unfold evaluate
  rw [if_pos (by simpa [File.names] using h)]

/-- Symbols and names that are imported as they are written. -/
theorem collected_plain (hf : Fine f) {s : Sym}
    (hu : .symbol s ∈ f.uses ∨ .literal s ∈ f.uses) (hfo : foreign f.home s = true) :
    (collected f).lookup (s.stdlib, s.ns, s.name) = some s.name := by
  have hn : s.name ≠ [] := hf.named s (by tauto)
  obtain ⟨a, ha⟩ : ∃ b, (collected f).lookup (s.stdlib, s.ns, s.name) = some b := by
    rcases hu with hu | hu
    · exact collected_has (a := s.name) hu (by simp [Use.entry, hf.importable s hu, hfo])
    · exact collected_has (a := s.name) hu (by simp [Use.entry, hfo])
  rw [ha]
  obtain ⟨u, hu', he⟩ := collected_from ha
  rcases entry_cases he with ⟨t, _, _, _, _, _, h⟩ | ⟨t, rfl, _, _, h₁, h₂⟩ | ⟨_, _, h, _⟩
  · rw [h]
  · exact absurd ⟨h₁, h₂⟩ (hf.only t a s hu' hu)
  · exact absurd h hn

theorem evaluate_symbol (hf : Fine f) (ho : ∀ s, s ∈ order ↔ s ∈ table f) {s : Sym}
    (hs : s ∈ table f) : evaluate f order (resolved f s.ns s.name) = .member s.ns s.name := by
  obtain ⟨hu, hfo⟩ := mem_table.mp hs
  have hl : (aliased f order).lookup (s.stdlib, s.ns, s.name) = some (resolved f s.ns s.name) := by
    rw [lookup_aliased, if_pos ⟨⟨s, (ho s).mpr hs, rfl⟩, collected_plain hf (.inl hu) hfo⟩]
  have := evaluate_bound hf ho (mem_of_lookup hl)
  have hb : bound ((s.stdlib, s.ns, s.name), resolved f s.ns s.name) =
      (resolved f s.ns s.name, .member s.ns s.name) := by
    unfold bound
    simp only
    rw [if_neg (hf.named s (.inl hu))]
  rw [hb] at this
  exact this

/-! ## Theorems -/

/-- **C109.**  Every name in a generated file stands for what the generator meant. -/
theorem C109_names_partial (hf : Fine f) (ho : ∀ s, s ∈ order ↔ s ∈ table f) :
    ∀ u ∈ f.uses, evaluate f order (printed f u) = meant f u := by
  intro u hu
  have builtin : ∀ s : Sym, .symbol s ∈ f.uses ∨ .literal s ∈ f.uses → s.ns = [] →
      evaluate f order s.name = .builtin s.name := by
    intro s hs hns
    obtain ⟨h₁, h₂, h₃⟩ := hf.builtin s hs hns
    refine evaluate_unbound hf ho h₁ ?_
    intro o hb
    generalize ht : s.name = t at hb
    cases hb with
    | given h => exact h₂ _ h ht.symm
    | table t ht' =>
      rcases resolved_cases ht' with ⟨hr, _⟩ | ⟨hr, _⟩ | ⟨hr, _⟩
      · exact (h₃ t ht').1 (by rw [ht, hr])
      · exact (h₃ t ht').2.1 (by rw [ht, hr])
      · exact (h₃ t ht').2.2 (by rw [ht, hr])
  cases u with
  | symbol s =>
    by_cases hns : s.ns = []
    · have : foreign f.home s = false := by simp [foreign, hns]
      simp only [printed, this, meant, hns, if_true, Bool.false_eq_true, if_false]
      exact builtin s (.inl hu) hns
    · by_cases hh : s.ns = f.home
      · have : foreign f.home s = false := by simp [foreign, hh]
        simp only [printed, this, meant, hh, if_true, Bool.false_eq_true, if_false]
        rw [if_neg hf.home]
        exact evaluate_here (hf.here s (.inl hu) hh)
      · have hfo : foreign f.home s = true := foreign_iff.mpr ⟨hns, hh⟩
        simp only [printed, hfo, meant, hns, hh, if_true, if_false]
        exact evaluate_symbol hf ho (mem_table.mpr ⟨hu, hfo⟩)
  | reference s a =>
    have hfo := hf.away s a hu
    have hn := hf.named s (.inr (.inr ⟨a, hu⟩))
    have hc : (collected f).lookup (s.stdlib, s.ns, s.name) = some a := by
      obtain ⟨b, hb⟩ := collected_has (f := f) (u := .reference s a)
        (k := (s.stdlib, s.ns, s.name)) (a := a) hu (by simp [Use.entry, hfo])
      rw [hb]
      obtain ⟨u, hu', he⟩ := collected_from hb
      rcases entry_cases he with ⟨t, ht, _, _, h₁, h₂, _⟩ | ⟨t, rfl, _, _, h₁, h₂⟩ | ⟨_, _, h, _⟩
      · refine absurd ⟨h₁.symm, h₂.symm⟩ (hf.only s a t hu ?_)
        rcases ht with ⟨rfl, _⟩ | rfl
        · exact .inl hu'
        · exact .inr hu'
      · rw [hf.referred t b s a hu' hu h₁ h₂]
      · exact absurd h hn
    have hl : (aliased f order).lookup (s.stdlib, s.ns, s.name) = some a := by
      rw [lookup_aliased, if_neg, hc]
      rintro ⟨⟨t, ht, he⟩, _⟩
      simp only [Prod.mk.injEq] at he
      exact hf.only s a t hu (.inl (mem_table.mp ((ho t).mp ht)).1) he
    have := evaluate_bound hf ho (mem_of_lookup hl)
    have hb : bound ((s.stdlib, s.ns, s.name), a) = (a, .member s.ns s.name) := by
      unfold bound
      simp only
      rw [if_neg hn]
    rw [hb] at this
    exact this
  | literal s =>
    by_cases hns : s.ns = []
    · simp only [printed, meant, hns, if_true]
      exact builtin s (.inr hu) hns
    · by_cases hh : s.ns = f.home
      · simp only [printed, meant, hh, if_true]
        rw [if_neg hf.home]
        exact evaluate_here (hf.here s (.inr hu) hh)
      · have hfo : foreign f.home s = true := foreign_iff.mpr ⟨hns, hh⟩
        have hg : (s.name, Obj.member s.ns s.name) ∈ given f :=
          mem_given.mpr (.inr (.inl ⟨s, hu, hfo, rfl, rfl⟩))
        have hc := collected_plain hf (.inr hu) hfo
        have hl : (aliased f order).lookup (s.stdlib, s.ns, s.name) = some s.name := by
          rw [lookup_aliased]
          by_cases ht : ∃ t ∈ order, (s.ns, s.name) = (t.ns, t.name)
          · rw [if_pos ⟨ht, hc⟩]
            obtain ⟨t, ht, he⟩ := ht
            simp only [Prod.mk.injEq] at he
            have ht' := (ho t).mp ht
            have hu' := (hf.shared t ht' _ hg he.2).2
            have hd := hf.apart _ hg
            simp only [File.names, List.mem_append, not_or] at hd
            simp only
            rw [he.1, he.2]
            rcases resolved_cases ht' with ⟨hr, _⟩ | ⟨_, hr, _⟩ | ⟨_, t', ht'', hne, hn⟩
            · rw [hr]
            · exact absurd (he.2 ▸ hr) hd.1
            · exact absurd (hu' t' ht'' hn.symm).symm hne
          · rw [if_neg (fun h => ht h.1), hc]
        simp only [printed, meant, hns, hh, if_false]
        have := evaluate_bound hf ho (mem_of_lookup hl)
        have hb : bound ((s.stdlib, s.ns, s.name), s.name) = (s.name, .member s.ns s.name) := by
          unfold bound
          simp only
          rw [if_neg (hf.named s (.inr (.inl hu)))]
        rw [hb] at this
        exact this
  | whole ns =>
    obtain ⟨b, hb⟩ := collected_has (f := f) (u := .whole ns) (k := (true, ns, [])) (a := []) hu rfl
    obtain ⟨c, hc⟩ : ∃ c, (aliased f order).lookup (true, ns, []) = some c := by
      rw [lookup_aliased]
      split
      · exact ⟨_, rfl⟩
      · exact ⟨b, hb⟩
    have := evaluate_bound hf ho (mem_of_lookup hc)
    exact this

/-! ## Examples -/

/-- The symbols in uses, to check conditions on files. -/
def symbolsIn (us : List Use) : List Sym :=
  us.filterMap fun u => match u with | .symbol s => some s | _ => none

def literalsIn (us : List Use) : List Sym :=
  us.filterMap fun u => match u with | .literal s => some s | _ => none

def referencesIn (us : List Use) : List (Sym × Text) :=
  us.filterMap fun u => match u with | .reference s a => some (s, a) | _ => none

theorem mem_symbolsIn {us : List Use} {s : Sym} (h : .symbol s ∈ us) : s ∈ symbolsIn us :=
  List.mem_filterMap.mpr ⟨_, h, rfl⟩

theorem mem_literalsIn {us : List Use} {s : Sym} (h : .literal s ∈ us) : s ∈ literalsIn us :=
  List.mem_filterMap.mpr ⟨_, h, rfl⟩

theorem mem_referencesIn {us : List Use} {s : Sym} {a : Text} (h : .reference s a ∈ us) :
    (s, a) ∈ referencesIn us :=
  List.mem_filterMap.mpr ⟨_, h, rfl⟩

theorem mem_eitherIn {us : List Use} {s : Sym} (h : .symbol s ∈ us ∨ .literal s ∈ us) :
    s ∈ symbolsIn us ++ literalsIn us := by
  rcases h with h | h
  · exact List.mem_append_left _ (mem_symbolsIn h)
  · exact List.mem_append_right _ (mem_literalsIn h)

def sym (ns name : String) : Sym := { ns := ns.toList, name := name.toList }
def std (ns name : String) : Sym := { ns := ns.toList, name := name.toList, stdlib := true }

/-- A module of a service that has a structure called `Document`, and in which two things are called
`EndpointResolver`. -/
def sample : File :=
  { package := "weather".toList, home := "weather.models".toList
    uses :=
      [.whole "logging".toList, .literal (std "dataclasses" "dataclass"), .symbol (sym "" "str"),
        .symbol (sym "smithy_core.documents" "Document"), .symbol (sym "weather.models" "Document"),
        .reference (sym "weather._private.schemas" "CITY") "_SCHEMA_CITY".toList,
        .symbol (std "datetime" "datetime"), .literal (std "datetime" "datetime"),
        .symbol (sym "smithy_core.aio.interfaces" "EndpointResolver"),
        .symbol (sym "weather.endpoints" "EndpointResolver")]
    defined := ["Document".toList, "City".toList]
    unregistered := ["logger".toList] }

theorem sample_fine : Fine sample where
  importable s hs :=
    (by decide +kernel : ∀ s ∈ symbolsIn sample.uses, s.importable = true) s (mem_symbolsIn hs)
  named s hs := by
    have h₁ : ∀ s ∈ symbolsIn sample.uses ++ literalsIn sample.uses, s.name ≠ [] := by
      decide +kernel
    have h₂ : ∀ x ∈ referencesIn sample.uses, x.1.name ≠ [] := by decide +kernel
    rcases hs with hs | hs | ⟨a, hs⟩
    · exact h₁ s (mem_eitherIn (.inl hs))
    · exact h₁ s (mem_eitherIn (.inr hs))
    · exact h₂ _ (mem_referencesIn hs)
  here s hs := (by decide +kernel : ∀ s ∈ symbolsIn sample.uses ++ literalsIn sample.uses,
    s.ns = sample.home → s.name ∈ sample.names) s (mem_eitherIn hs)
  away s a hs := (by decide +kernel : ∀ x ∈ referencesIn sample.uses,
    foreign sample.home x.1 = true) _ (mem_referencesIn hs)
  referred s a t b hs ht := (by decide +kernel : ∀ x ∈ referencesIn sample.uses,
    ∀ y ∈ referencesIn sample.uses, x.1.ns = y.1.ns → x.1.name = y.1.name → x.2 = y.2)
    _ (mem_referencesIn hs) _ (mem_referencesIn ht)
  only s a t hs ht := (by decide +kernel : ∀ x ∈ referencesIn sample.uses,
    ∀ t ∈ symbolsIn sample.uses ++ literalsIn sample.uses, ¬(x.1.ns = t.ns ∧ x.1.name = t.name))
    _ (mem_referencesIn hs) _ (mem_eitherIn ht)
  once := by decide +kernel
  apart := by decide +kernel
  shared := by decide +kernel
  free := by decide +kernel
  prefixed := by decide +kernel
  qualified := by decide +kernel
  builtin s hs := (by decide +kernel : ∀ s ∈ symbolsIn sample.uses ++ literalsIn sample.uses,
    s.ns = [] → s.name ∉ sample.names ∧ (∀ x ∈ given sample, x.1 ≠ s.name) ∧
      ∀ t ∈ table sample, t.name ≠ s.name ∧ '_' :: t.name ≠ s.name ∧ underscored t ≠ s.name)
    s (mem_eitherIn hs)
  home := by decide +kernel

example : sample.uses.map (fun u => String.ofList (printed sample u)) =
    ["logging", "dataclass", "str", "_Document", "Document", "_SCHEMA_CITY", "datetime", "datetime",
      "_smithy_core_aio_interfaces_EndpointResolver", "_weather_endpoints_EndpointResolver"] := by
  decide +kernel

example : ∀ u ∈ sample.uses, evaluate sample (table sample) (printed sample u) = meant sample u :=
  C109_names_partial sample_fine fun _ => Iff.rfl

/-! ## Names that stand for something else -/

/-- What the name of a use stands for. -/
def actual (f : File) (u : Use) : Obj := evaluate f (table f) (printed f u)

def models (uses : List Use) (defined : List String) : File :=
  { package := "weather".toList, home := "weather.models".toList, uses := uses,
    defined := defined.map String.toList, unregistered := [] }

/-- C109, negative: names that generators write out themselves are not guarded.  With a structure
called `Union`, the definition of a union uses that instead of `typing.Union`
(UnionGenerator.java:51, 141). -/
theorem C109_union_fails :
    actual (models [.literal (std "typing" "Union")] ["Union"]) (.literal (std "typing" "Union")) =
      .definition "Union".toList := by decide +kernel

/-- C109, negative: nor are the types of the elements of lists and maps, which are written with the
type (PythonSymbolProvider.java:195-199).  With a structure called `Document`, a list of documents is
said to be a list of those. -/
theorem C109_elements_fails :
    let f := models [.literal (sym "smithy_core.documents" "Document")] ["Document"]
    actual f (.literal (sym "smithy_core.documents" "Document")) = .definition "Document".toList := by
  decide +kernel

/-- C109, negative: symbols that differ in something else than module and name, such as the shape they
were made for (PythonSymbolProvider.java:412-420, 462-467), count as different, and are imported under
another name.  Then the name itself is not known any more where it is written out, as in the type
of a list of timestamps, or the value that stands for a timestamp that is missing
(MemberErrorCorrectionGenerator.java:126-128).  That symbols are compared like this is taken from Smithy's
library, which is not in the repository. -/
theorem C109_timestamps_fails :
    let a := { std "datetime" "datetime" with rest := 1 }
    let b := { std "datetime" "datetime" with rest := 2 }
    let f := models [.symbol a, .symbol b, .literal (std "datetime" "datetime")] []
    actual f (.literal (std "datetime" "datetime")) = .builtin "datetime".toList := by
  decide +kernel

/-- C109, negative: a name with an underscore in front may be that of a definition.  With a structure
called `ShapeDeserializer` and a union called `Shape`, the framework's class of the name is imported
as `_ShapeDeserializer`, which is also the class that deserializes the union
(PythonSymbolProvider.java:376-382). -/
theorem C109_underscore_fails :
    let f := models [.symbol (sym "smithy_core.deserializers" "ShapeDeserializer")]
      ["ShapeDeserializer", "Shape", "_ShapeDeserializer"]
    actual f (.symbol (sym "smithy_core.deserializers" "ShapeDeserializer")) =
      .definition "_ShapeDeserializer".toList := by decide +kernel

/-- C109, negative: the names made of a module's name and a symbol's name need not differ, contrary to
the comment at PythonWriter.java:439-440. -/
theorem C109_qualified_fails :
    let f := models [.symbol (sym "a.b_c" "X"), .symbol (sym "a_b.c" "X")] []
    actual f (.symbol (sym "a.b_c" "X")) = .member "a_b.c".toList "X".toList := by decide +kernel

/-- C109, negative: something that is used with `$T` and as a reference is imported under one name
only. -/
theorem C109_reference_fails :
    let f := models [.symbol (sym "m" "X"), .reference (sym "m" "X") "Y".toList] []
    actual f (.symbol (sym "m" "X")) = .builtin "X".toList := by decide +kernel

end Verif.GeneratedFiles.Imports
