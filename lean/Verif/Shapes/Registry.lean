import Verif.Shapes.ShapeId

/-!
# Type registries (C40)

Models `TypeRegistry` (smithy_core/documents.py:647-696).  Identifiers are compared and hashed by their
text (smithy_core/shapes.py:80-84), so the dictionary of types is a list of entries with the text of the
identifier; `T` stands for the registered classes.
-/

set_option autoImplicit false

namespace Verif.Shapes

/-! ## Model -/

/-- A `TypeRegistry` (documents.py:651-662): its own types, and the registry to delegate to. -/
inductive Registry (T : Type) where
  | alone (types : List (Text × T))
  | over (types : List (Text × T)) (sub : Registry T)

variable {T : Type}

/-- `types[id]`, if the key is there. -/
def inTypes (types : List (Text × T)) (id : Text) : Option T :=
  (types.find? fun e => e.1 = id).map Prod.snd

/-- `TypeRegistry.get` and `__getitem__` (documents.py:664-684); `none` is the `KeyError`. -/
def Registry.get : Registry T → Text → Option T
  | .alone types, id => inTypes types id
  | .over types sub, id =>
    if (inTypes types id).isSome then inTypes types id else sub.get id

/-- `TypeRegistry.__contains__` (documents.py:686-693). -/
def Registry.contains : Registry T → Text → Bool
  | .alone types, id => (inTypes types id).isSome
  | .over types sub, id => (inTypes types id).isSome || sub.contains id

/-! ## Specification -/

/-- The dictionaries, the one asked first in front. -/
def Registry.layers : Registry T → List (List (Text × T))
  | .alone types => [types]
  | .over types sub => types :: sub.layers

/-- The dictionaries have one entry per key. -/
def Registry.Dicts (r : Registry T) : Prop := ∀ l ∈ r.layers, (l.map Prod.fst).Nodup

/-! ## Theorems -/

theorem inTypes_some (types : List (Text × T)) (h : (types.map Prod.fst).Nodup) (id : Text) (t : T) :
    inTypes types id = some t ↔ (id, t) ∈ types := by
  induction types with
  | nil => simp [inTypes]
  | cons e es ih =>
    obtain ⟨k, v⟩ := e
    simp only [List.map_cons, List.nodup_cons] at h
    by_cases hk : k = id
    · subst hk
      have h1 : inTypes ((k, v) :: es) k = some v := by simp [inTypes]
      rw [h1]
      constructor
      · rintro ⟨⟩; simp
      · intro hm
        rcases List.mem_cons.1 hm with e | hm
        · cases e; rfl
        · exact absurd (List.mem_map_of_mem (f := Prod.fst) hm) h.1
    · have h1 : inTypes ((k, v) :: es) id = inTypes es id := by
        simp [inTypes, hk]
      rw [h1, ih h.2]
      constructor
      · intro hm; simp [hm]
      · intro hm
        rcases List.mem_cons.1 hm with e | hm
        · cases e; exact absurd rfl hk
        · exact hm

theorem inTypes_none (types : List (Text × T)) (id : Text) :
    inTypes types id = none ↔ ∀ t, (id, t) ∉ types := by
  simp only [inTypes, Option.map_eq_none_iff, List.find?_eq_none, decide_eq_true_eq]
  constructor
  · intro h t hm; exact h _ hm rfl
  · rintro h ⟨k, t⟩ hm rfl; exact h t hm

/-- **C40**: an identifier is found with a type exactly when the type is entered for it in some
dictionary and no dictionary asked before has an entry for it. -/
theorem C40_get_iff (r : Registry T) (hr : r.Dicts) (id : Text) (t : T) :
    r.get id = some t ↔ ∃ before l after, r.layers = before ++ l :: after ∧ (id, t) ∈ l ∧
      ∀ b ∈ before, ∀ u, (id, u) ∉ b := by
  induction r with
  | alone types =>
    have hn : (types.map Prod.fst).Nodup := hr types (by simp [Registry.layers])
    rw [Registry.get, inTypes_some types hn]
    constructor
    · intro h; exact ⟨[], types, [], rfl, h, by simp⟩
    · rintro ⟨before, l, after, he, hm, _⟩
      simp only [Registry.layers] at he
      cases before with
      | nil => cases he; exact hm
      | cons b bs => simp at he
  | over types sub ih =>
    have hn : (types.map Prod.fst).Nodup := hr types (by simp [Registry.layers])
    have hsub : sub.Dicts := fun l hl => hr l (by simp [Registry.layers, hl])
    rw [Registry.get]
    by_cases hs : (inTypes types id).isSome
    · rw [if_pos hs, inTypes_some types hn]
      constructor
      · intro h; exact ⟨[], types, sub.layers, rfl, h, by simp⟩
      · rintro ⟨before, l, after, he, hm, hb⟩
        simp only [Registry.layers] at he
        cases before with
        | nil => cases he; exact hm
        | cons b bs =>
          obtain ⟨rfl, _⟩ := List.cons.inj he
          have := (inTypes_none types id).2 (hb types (by simp))
          rw [this] at hs; cases hs
    · rw [if_neg hs, ih hsub]
      have hnone : inTypes types id = none := by simpa using hs
      constructor
      · rintro ⟨before, l, after, he, hm, hb⟩
        refine ⟨types :: before, l, after, by simp [Registry.layers, he], hm, ?_⟩
        intro b hbm
        rcases List.mem_cons.1 hbm with rfl | hbm
        · exact (inTypes_none b id).1 hnone
        · exact hb b hbm
      · rintro ⟨before, l, after, he, hm, hb⟩
        simp only [Registry.layers] at he
        cases before with
        | nil => cases he; exact absurd hm ((inTypes_none types id).1 hnone t)
        | cons b bs =>
          obtain ⟨rfl, he2⟩ := List.cons.inj he
          exact ⟨bs, l, after, he2, hm, fun b hb' => hb b (by simp [hb'])⟩

/-- **C40**: the lookup fails exactly when no dictionary has an entry, and a registry says it has an
identifier exactly when looking it up succeeds. -/
theorem C40_missing_iff (r : Registry T) (id : Text) :
    (r.get id = none ↔ ∀ l ∈ r.layers, ∀ t, (id, t) ∉ l) ∧
      (r.contains id = true ↔ ∃ t, r.get id = some t) := by
  induction r with
  | alone types =>
    refine ⟨?_, ?_⟩
    · rw [Registry.get, inTypes_none]; simp [Registry.layers]
    · rw [Registry.get, Registry.contains, Option.isSome_iff_exists]
  | over types sub ih =>
    rw [Registry.get, Registry.contains]
    by_cases hs : (inTypes types id).isSome
    · rw [if_pos hs, hs]
      refine ⟨⟨fun h => ?_, fun h => ?_⟩, ?_⟩
      · rw [h] at hs; cases hs
      · exact (inTypes_none types id).2 (h types (by simp [Registry.layers]))
      · rw [← Option.isSome_iff_exists, hs]; simp
    · rw [if_neg hs]
      have hnone : inTypes types id = none := by simpa using hs
      refine ⟨?_, ?_⟩
      · rw [ih.1]
        constructor
        · intro h l hl
          rcases List.mem_cons.1 hl with rfl | hl
          · exact (inTypes_none l id).1 hnone
          · exact h l hl
        · intro h l hl; exact h l (List.mem_cons_of_mem _ hl)
      · simp only [hnone, Option.isSome_none, Bool.false_or]; exact ih.2

/-! ## The hypotheses are met -/

def exampleRegistry : Registry Nat :=
  .over [("a#A".toList, 1), ("a#B".toList, 2)] (.over [] (.alone [("a#A".toList, 3), ("b#C".toList, 4)]))

example : exampleRegistry.Dicts := by unfold Registry.Dicts; decide +kernel

example : exampleRegistry.get "a#A".toList = some 1 ∧ exampleRegistry.get "b#C".toList = some 4 ∧
    exampleRegistry.get "b#D".toList = none := by decide +kernel

end Verif.Shapes
