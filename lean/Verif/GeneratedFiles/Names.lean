import Mathlib.Tactic.Common
import Mathlib.Data.List.Nodup
import Verif.Common

/-!
# The names of what a generated module defines

The module `models` of a generated client has a class for every structure, error, enum and union of
the service and for every member of a union, and functions for lists and maps.  The generator makes
up the names of some of them.  When two have the same name, the one that comes later takes the place
of the other, also for code that was written for the other.
-/

set_option autoImplicit false

namespace Verif.GeneratedFiles.Names

/-! ## Model -/

abbrev Text := List Char

/-- `StringUtils.capitalize` of the Smithy library. -/
def cap : Text → Text
  | [] => []
  | c :: t => c.toUpper :: t

/-- A shape of the service, with its name: a structure, an error or an enum; a union with the names
of its members; a list or a map. -/
inductive Decl
  | cls (name : Text)
  | union (name : Text) (members : List Text)
  | collection (name : Text)
  deriving DecidableEq, Repr

/-- What the module defines: the base class of errors (ServiceErrorGenerator.java:30-44); a class
for a structure, an error or an enum; for a union the classes of its members, that of members that
are not known, the union itself, and its deserializer (UnionGenerator.java:50-184); for a list or a
map two functions.  Left out: operations, whose names are in capital letters. -/
inductive Def
  | serviceError
  | cls (name : Text)
  | variant (union member : Text)
  | unknown (union : Text)
  | union (name : Text)
  | deserializer (union : Text)
  | write (name : Text)
  | read (name : Text)
  deriving DecidableEq, Repr

/-- `collectAllShapeNames` (PythonSymbolProvider.java:114-124).  Simplified: it collects the names in
the whole model, which this takes to be that of the service. -/
def shapeNames (ds : List Decl) : List Text :=
  ds.filterMap fun d =>
    match d with
    | .cls n => some (cap n)
    | .union n _ => some (cap n)
    | .collection _ => none

/-- `nameReservedWords` with `reserved-class-names.txt` (PythonSymbolProvider.java:83-99, 126-128). -/
def escape (t : Text) : Text :=
  if t = "True".toList ∨ t = "False".toList ∨ t = "None".toList then t ++ ['_'] else t

/-- A name for a class that belongs to a union: with an underscore if there is a shape with the name
(PythonSymbolProvider.java:368-371, 393-400). -/
def joined (names : List Text) (union tag : Text) : Text :=
  if names.contains (union ++ tag) then union ++ '_' :: tag else union ++ tag

/-- The names (PythonSymbolProvider.java:130-135, 157-160, 201-215, 228-242, 353-405; CodegenUtils.java:98-104).
`snake` is `CaseUtils.toSnakeCase` of the Smithy library. -/
def nameOf (snake : Text → Text) (names : List Text) : Def → Text
  | .serviceError => "ServiceError".toList
  | .cls n => escape (cap n)
  | .variant u m => escape (joined names (cap u) (cap m))
  | .unknown u => joined names (cap u) "Unknown".toList
  | .union n => escape (cap n)
  | .deserializer u => '_' :: cap u ++ "Deserializer".toList
  | .write n => "_serialize_".toList ++ snake n
  | .read n => "_deserialize_".toList ++ snake n

/-- What is defined for a shape. -/
def Decl.defs : Decl → List Def
  | .cls n => [.cls n]
  | .union n ms => ms.map (.variant n) ++ [.unknown n, .union n, .deserializer n]
  | .collection n => [.write n, .read n]

/-- What the module defines.  Shapes come in the order of the Smithy library. -/
def definitions (ds : List Decl) : List Def := .serviceError :: ds.flatMap Decl.defs

/-- What a name stands for once the module has been imported: the definition that came last. -/
def standsFor (name : Def → Text) (order : List Def) (t : Text) : Option Def :=
  order.reverse.find? fun d => name d = t

/-! ## Specification -/

/-- The names of the shapes, and of the members of unions. -/
def Decl.identifiers : Decl → List Text
  | .cls n => [n]
  | .union n ms => n :: ms
  | .collection n => [n]

/-- The name of a union together with those of its members, and with `Unknown`. -/
def Decl.joins : Decl → List Text
  | .union n ms => ms.map (fun m => cap n ++ cap m) ++ [cap n ++ "Unknown".toList]
  | _ => []

/-- The names of the lists and maps. -/
def Decl.collections : Decl → List Text
  | .collection n => [n]
  | _ => []

/-- What the generator takes for granted: there are no underscores in names (as a comment at
PythonSymbolProvider.java:395-396 has it), those of structures, errors, enums and unions differ,
and the names of lists and maps differ as functions have them; and what it does not see to: the names
of unions followed by those of members or `Unknown` differ, and none is `ServiceError`. -/
structure Fine (snake : Text → Text) (ds : List Decl) : Prop where
  plain : ∀ d ∈ ds, ∀ t ∈ d.identifiers, t ≠ [] ∧ '_' ∉ t
  shapes : (shapeNames ds).Nodup
  joins : (ds.flatMap Decl.joins).Nodup
  serviceError : "ServiceError".toList ∉ shapeNames ds ∧
    "ServiceError".toList ∉ ds.flatMap Decl.joins
  collections : ((ds.flatMap Decl.collections).map snake).Nodup

/-! ## Lemmas -/

theorem toUpper_ne {c : Char} (h : c ≠ '_') : c.toUpper ≠ '_' := by
  unfold Char.toUpper
  split
  · rename_i hc
    intro he
    have := congrArg Char.val he
    simp only at this
    have hv : c.val + ('A'.val - 'a'.val) = '_'.val := this
    have h1 : 'a'.val ≤ c.val := hc.1
    have h2 : c.val ≤ 'z'.val := hc.2
    have h3 : c.val.toNat ≤ 122 := UInt32.le_iff_toNat_le.mp h2
    have h5 : 97 ≤ c.val.toNat := UInt32.le_iff_toNat_le.mp h1
    have h4 := congrArg UInt32.toNat hv
    rw [UInt32.toNat_add] at h4
    have h6 : ('A'.val - 'a'.val).toNat = 4294967264 := by decide
    have h7 : '_'.val.toNat = 95 := rfl
    rw [h6, h7] at h4
    omega
  · exact h

theorem cap_plain {t : Text} (h : '_' ∉ t) : '_' ∉ cap t := by
  cases t with
  | nil => simp [cap]
  | cons c t =>
    simp only [List.mem_cons, not_or] at h
    simp only [cap, List.mem_cons, not_or]
    exact ⟨Ne.symm (toUpper_ne (Ne.symm h.1)), h.2⟩

theorem cap_ne_nil {t : Text} (h : t ≠ []) : cap t ≠ [] := by
  cases t with
  | nil => exact absurd rfl h
  | cons c t => simp [cap]

theorem escape_plain {t : Text} (h : '_' ∉ t) : ('_' ∉ escape t ∧ escape t = t) ∨
    (escape t = t ++ ['_']) := by
  unfold escape
  split
  · right; rfl
  · left; exact ⟨h, rfl⟩

theorem escape_inj {a b : Text} (ha : '_' ∉ a) (hb : '_' ∉ b) (h : escape a = escape b) : a = b := by
  rcases escape_plain ha with ⟨h₁, h₂⟩ | h₁ <;> rcases escape_plain hb with ⟨h₃, h₄⟩ | h₃
  · rw [h₂, h₄] at h; exact h
  · rw [h₂, h₃] at h
    rw [h] at ha
    simp at ha
  · rw [h₁, h₄] at h
    rw [← h] at hb
    simp at hb
  · rw [h₁, h₃] at h
    exact List.append_cancel_right h

/-- Where the first underscore is. -/
theorem split_unique {a b c d : Text} (ha : '_' ∉ a) (hb : '_' ∉ b)
    (h : a ++ '_' :: c = b ++ '_' :: d) : a = b ∧ c = d := by
  induction a generalizing b with
  | nil =>
    cases b with
    | nil => simpa using h
    | cons x b =>
      simp only [List.nil_append, List.cons_append, List.cons.injEq] at h
      exact absurd (by rw [h.1]; simp) hb
  | cons x a ih =>
    cases b with
    | nil =>
      simp only [List.nil_append, List.cons_append, List.cons.injEq] at h
      exact absurd (by simp [h.1]) ha
    | cons y b =>
      simp only [List.cons_append, List.cons.injEq] at h
      simp only [List.mem_cons, not_or] at ha hb
      obtain ⟨h₁, h₂⟩ := ih ha.2 hb.2 h.2
      exact ⟨by rw [h.1, h₁], h₂⟩

theorem filterMap_inj {α β : Type} {f : α → Option β} {l : List α} (h : (l.filterMap f).Nodup)
    {a b : α} {x : β} (ha : a ∈ l) (hb : b ∈ l) (hfa : f a = some x) (hfb : f b = some x) :
    a = b := by
  induction l with
  | nil => cases ha
  | cons y l ih =>
    rw [List.filterMap_cons] at h
    cases hy : f y with
    | none =>
      rw [hy] at h
      have ha' : a ∈ l := by
        rcases List.mem_cons.mp ha with rfl | h
        · rw [hy] at hfa; exact absurd hfa (by simp)
        · exact h
      have hb' : b ∈ l := by
        rcases List.mem_cons.mp hb with rfl | h
        · rw [hy] at hfb; exact absurd hfb (by simp)
        · exact h
      exact ih h ha' hb'
    | some z =>
      rw [hy] at h
      simp only [List.nodup_cons] at h
      rcases List.mem_cons.mp ha with rfl | ha' <;> rcases List.mem_cons.mp hb with rfl | hb'
      · rfl
      · rw [hfa] at hy
        have : x = z := Option.some.inj hy
        subst this
        exact absurd (List.mem_filterMap.mpr ⟨b, hb', hfb⟩) h.1
      · rw [hfb] at hy
        have : x = z := Option.some.inj hy
        subst this
        exact absurd (List.mem_filterMap.mpr ⟨a, ha', hfa⟩) h.1
      · exact ih h.2 ha' hb'

theorem flatMap_inj {α β : Type} {f : α → List β} {l : List α} (h : (l.flatMap f).Nodup)
    {a b : α} {x : β} (ha : a ∈ l) (hb : b ∈ l) (hfa : x ∈ f a) (hfb : x ∈ f b) : a = b := by
  induction l with
  | nil => cases ha
  | cons y l ih =>
    rw [List.flatMap_cons, List.nodup_append] at h
    rcases List.mem_cons.mp ha with rfl | ha' <;> rcases List.mem_cons.mp hb with rfl | hb'
    · rfl
    · exact absurd rfl (h.2.2 x hfa x (List.mem_flatMap.mpr ⟨b, hb', hfb⟩))
    · exact absurd rfl (h.2.2 x hfb x (List.mem_flatMap.mpr ⟨a, ha', hfa⟩))
    · exact ih h.2.1 ha' hb'

/-- The classes that belong to a union, with the name of the union and the rest of theirs. -/
inductive Tagged (ds : List Decl) : Def → Text → Text → Prop
  | variant (u m : Text) (ms : List Text) : .union u ms ∈ ds → m ∈ ms →
      Tagged ds (.variant u m) (cap u) (cap m)
  | unknown (u : Text) (ms : List Text) : .union u ms ∈ ds →
      Tagged ds (.unknown u) (cap u) "Unknown".toList

/-- The kinds of definitions there are. -/
inductive Case (ds : List Decl) : Def → Prop
  | serviceError : Case ds .serviceError
  | cls (n : Text) : .cls n ∈ ds → Case ds (.cls n)
  | union (n : Text) (ms : List Text) : .union n ms ∈ ds → Case ds (.union n)
  | tagged (d : Def) (u t : Text) : Tagged ds d u t → Case ds d
  | deserializer (n : Text) (ms : List Text) : .union n ms ∈ ds → Case ds (.deserializer n)
  | write (n : Text) : .collection n ∈ ds → Case ds (.write n)
  | read (n : Text) : .collection n ∈ ds → Case ds (.read n)

theorem case_of_mem {ds : List Decl} {d : Def} (h : d ∈ definitions ds) : Case ds d := by
  rcases List.mem_cons.mp h with rfl | h
  · exact .serviceError
  · obtain ⟨e, he, hd⟩ := List.mem_flatMap.mp h
    cases e with
    | cls n =>
      have : d = .cls n := by simpa [Decl.defs] using hd
      subst this
      exact .cls n he
    | union n ms =>
      simp only [Decl.defs, List.mem_append, List.mem_map, List.mem_cons, List.not_mem_nil,
        or_false] at hd
      rcases hd with ⟨m, hm, rfl⟩ | rfl | rfl | rfl
      · exact .tagged _ _ _ (.variant n m ms he hm)
      · exact .tagged _ _ _ (.unknown n ms he)
      · exact .union n ms he
      · exact .deserializer n ms he
    | collection n =>
      simp only [Decl.defs, List.mem_cons, List.not_mem_nil, or_false] at hd
      rcases hd with rfl | rfl
      · exact .write n he
      · exact .read n he

variable {snake : Text → Text} {ds : List Decl}

theorem tagged_plain (hf : Fine snake ds) {d : Def} {u t : Text} (h : Tagged ds d u t) :
    '_' ∉ u ∧ u ≠ [] ∧ '_' ∉ t ∧ t ≠ [] := by
  cases h with
  | variant u m ms hu hm =>
    have h₁ := hf.plain _ hu u (by simp [Decl.identifiers])
    have h₂ := hf.plain _ hu m (by simp [Decl.identifiers, hm])
    exact ⟨cap_plain h₁.2, cap_ne_nil h₁.1, cap_plain h₂.2, cap_ne_nil h₂.1⟩
  | unknown u ms hu =>
    have h₁ := hf.plain _ hu u (by simp [Decl.identifiers])
    exact ⟨cap_plain h₁.2, cap_ne_nil h₁.1, by decide, by decide⟩

theorem tagged_join {d : Def} {u t : Text} (h : Tagged ds d u t) :
    ∃ e ∈ ds, u ++ t ∈ e.joins ∧ ∃ n ms, e = .union n ms ∧ u = cap n ∧
      (d = .unknown n ∧ t = "Unknown".toList ∨ ∃ m ∈ ms, d = .variant n m ∧ t = cap m) := by
  cases h with
  | variant u m ms hu hm =>
    refine ⟨_, hu, ?_, u, ms, rfl, rfl, .inr ⟨m, hm, rfl, rfl⟩⟩
    simp only [Decl.joins, List.mem_append, List.mem_map]
    exact .inl ⟨m, hm, rfl⟩
  | unknown u ms hu =>
    refine ⟨_, hu, ?_, u, ms, rfl, rfl, .inl ⟨rfl, rfl⟩⟩
    simp [Decl.joins]

theorem nodup_joins (hf : Fine snake ds) {e : Decl} (he : e ∈ ds) : e.joins.Nodup :=
  (List.nodup_flatMap.mp hf.joins).1 e he

/-- Classes of unions with the same joined names are the same. -/
theorem tagged_inj (hf : Fine snake ds) {d d' : Def} {u t u' t' : Text} (h : Tagged ds d u t)
    (h' : Tagged ds d' u' t') (he : u ++ t = u' ++ t') : d = d' := by
  obtain ⟨e, hm, hj, n, ms, rfl, rfl, hd⟩ := tagged_join h
  obtain ⟨e', hm', hj', n', ms', rfl, rfl, hd'⟩ := tagged_join h'
  rw [← he] at hj'
  have := flatMap_inj hf.joins hm hm' hj hj'
  simp only [Decl.union.injEq] at this
  obtain ⟨rfl, rfl⟩ := this
  have htt : t = t' := List.append_cancel_left he
  have hn := nodup_joins hf hm
  simp only [Decl.joins, List.nodup_append, List.mem_map, List.mem_singleton] at hn
  rcases hd with ⟨rfl, ht⟩ | ⟨m, hmm, rfl, ht⟩ <;> rcases hd' with ⟨rfl, ht'⟩ | ⟨m', hmm', rfl, ht'⟩
  · rfl
  · subst ht ht'
    exact absurd he.symm (hn.2.2 _ ⟨m', hmm', rfl⟩ _ rfl)
  · subst ht ht'
    exact absurd he (hn.2.2 _ ⟨m, hmm, rfl⟩ _ rfl)
  · subst ht ht'
    have := List.inj_on_of_nodup_map hn.1 hmm hmm' he
    rw [this]

theorem shape_mem {d : Def} (h : Case ds d) {n : Text} (hd : d = .cls n ∨ d = .union n) :
    cap n ∈ shapeNames ds ∧ ∃ e ∈ ds, n ∈ e.identifiers ∧ (d = .cls n → e = .cls n) ∧
      (d = .union n → ∃ ms, e = .union n ms) := by
  rcases hd with rfl | rfl
  · cases h with
    | cls _ he =>
      exact ⟨List.mem_filterMap.mpr ⟨_, he, rfl⟩, _, he, by simp [Decl.identifiers], by simp, by simp⟩
    | tagged _ u t ht => cases ht
  · cases h with
    | union _ ms he =>
      exact ⟨List.mem_filterMap.mpr ⟨_, he, rfl⟩, _, he, by simp [Decl.identifiers], by simp, by simp⟩
    | tagged _ u t ht => cases ht

/-- The name of a class, but for escaping. -/
def core (names : List Text) : Def → Option Text
  | .serviceError => some "ServiceError".toList
  | .cls n => some (cap n)
  | .union n => some (cap n)
  | .variant u m => some (joined names (cap u) (cap m))
  | .unknown u => some (joined names (cap u) "Unknown".toList)
  | _ => none

/-- A text that does not begin or end with an underscore. -/
def Inner (t : Text) : Prop := (∃ c r, t = c :: r ∧ c ≠ '_') ∧ t.getLast? ≠ some '_'

theorem inner_plain {t : Text} (h : '_' ∉ t) (hn : t ≠ []) : Inner t := by
  refine ⟨?_, ?_⟩
  · cases t with
    | nil => exact absurd rfl hn
    | cons c r =>
      simp only [List.mem_cons, not_or] at h
      exact ⟨c, r, rfl, Ne.symm h.1⟩
  · intro he
    exact h (List.mem_of_getLast? he)

theorem inner_join {u t m : Text} (hu : '_' ∉ u ∧ u ≠ []) (ht : '_' ∉ t ∧ t ≠ []) :
    Inner (u ++ (m ++ t)) := by
  obtain ⟨⟨c, r, rfl, hc⟩, _⟩ := inner_plain hu.1 hu.2
  refine ⟨⟨c, r ++ (m ++ t), rfl, hc⟩, ?_⟩
  rw [← List.append_assoc, List.getLast?_append]
  obtain ⟨x, hx⟩ : ∃ x, t.getLast? = some x := by
    cases h : t.getLast? with
    | none => exact absurd (List.getLast?_eq_none_iff.mp h) ht.2
    | some x => exact ⟨x, rfl⟩
  rw [hx]
  simp only [Option.some_or, ne_eq, Option.some.injEq]
  rintro rfl
  exact ht.1 (List.mem_of_getLast? hx)

theorem inner_joined {u t : Text} (names : List Text) (hu : '_' ∉ u ∧ u ≠ [])
    (ht : '_' ∉ t ∧ t ≠ []) : Inner (joined names u t) := by
  unfold joined
  split
  · exact inner_join (m := ['_']) hu ht
  · exact inner_join (m := []) hu ht

theorem core_inner (hf : Fine snake ds) {d : Def} (h : Case ds d) {t : Text}
    (hc : core (shapeNames ds) d = some t) : Inner t := by
  have shape : ∀ n e, e ∈ ds → n ∈ e.identifiers → Inner (cap n) := by
    intro n e he hn
    have := hf.plain e he n hn
    exact inner_plain (cap_plain this.2) (cap_ne_nil this.1)
  cases h with
  | serviceError =>
    simp only [core, Option.some.injEq] at hc
    subst hc
    exact inner_plain (by decide) (by decide)
  | cls n he =>
    simp only [core, Option.some.injEq] at hc
    subst hc
    exact shape n _ he (by simp [Decl.identifiers])
  | union n ms he =>
    simp only [core, Option.some.injEq] at hc
    subst hc
    exact shape n _ he (by simp [Decl.identifiers])
  | tagged d u v ht =>
    obtain ⟨h₁, h₂, h₃, h₄⟩ := tagged_plain hf ht
    cases ht with
    | variant u m ms _ _ =>
      simp only [core, Option.some.injEq] at hc
      subst hc
      exact inner_joined _ ⟨h₁, h₂⟩ ⟨h₃, h₄⟩
    | unknown u ms _ =>
      simp only [core, Option.some.injEq] at hc
      subst hc
      exact inner_joined _ ⟨h₁, h₂⟩ ⟨h₃, h₄⟩
  | deserializer n ms _ => simp [core] at hc
  | write n _ => simp [core] at hc
  | read n _ => simp [core] at hc

theorem escape_long {t : Text} (h : 5 < t.length) : escape t = t := by
  unfold escape
  rw [if_neg]
  rintro (rfl | rfl | rfl) <;> exact absurd h (by decide)

theorem nameOf_core {d : Def} {t : Text} (names : List Text) (hc : core names d = some t) :
    nameOf snake names d = escape t := by
  cases d with
  | serviceError =>
    simp only [core, Option.some.injEq] at hc
    subst hc
    rw [escape_long (by decide)]
    rfl
  | cls n =>
    simp only [core, Option.some.injEq] at hc
    subst hc
    rfl
  | variant u m =>
    simp only [core, Option.some.injEq] at hc
    subst hc
    rfl
  | unknown u =>
    simp only [core, Option.some.injEq] at hc
    subst hc
    rw [escape_long]
    · rfl
    · unfold joined
      split
      · rw [List.length_append, List.length_cons]
        have : "Unknown".toList.length = 7 := by decide
        omega
      · rw [List.length_append]
        have : "Unknown".toList.length = 7 := by decide
        omega
  | union n =>
    simp only [core, Option.some.injEq] at hc
    subst hc
    rfl
  | deserializer u => simp [core] at hc
  | write n => simp [core] at hc
  | read n => simp [core] at hc

theorem escape_inj_inner {a b : Text} (ha : Inner a) (hb : Inner b) (h : escape a = escape b) :
    a = b := by
  have hs : ∀ t : Text, (escape t = t) ∨ escape t = t ++ ['_'] := by
    intro t
    unfold escape
    split
    · right; rfl
    · left; rfl
  rcases hs a with h₁ | h₁ <;> rcases hs b with h₂ | h₂
  · rw [h₁, h₂] at h; exact h
  · rw [h₁, h₂] at h
    exact absurd (by rw [h]; simp) ha.2
  · rw [h₁, h₂] at h
    exact absurd (by rw [← h]; simp) hb.2
  · rw [h₁, h₂] at h
    exact List.append_cancel_right h

theorem escape_head {t : Text} (h : Inner t) : ∃ c r, escape t = c :: r ∧ c ≠ '_' := by
  obtain ⟨⟨c, r, rfl, hc⟩, _⟩ := h
  unfold escape
  split
  · exact ⟨c, r ++ ['_'], rfl, hc⟩
  · exact ⟨c, r, rfl, hc⟩

/-- A class's core: that of a shape, or of a union's class. -/
theorem core_inj (hf : Fine snake ds) {d d' : Def} (h : Case ds d) (h' : Case ds d') {t : Text}
    (hc : core (shapeNames ds) d = some t) (hc' : core (shapeNames ds) d' = some t) : d = d' := by
  -- the three kinds
  have kinds : ∀ {d : Def}, Case ds d → core (shapeNames ds) d = some t →
      (d = .serviceError ∧ t = "ServiceError".toList) ∨
      (∃ e ∈ ds, t ∈ shapeNames ds ∧ '_' ∉ t ∧
        ((∃ n, e = .cls n ∧ d = .cls n ∧ t = cap n) ∨
          ∃ n ms, e = .union n ms ∧ d = .union n ∧ t = cap n)) ∨
      (∃ u v, Tagged ds d u v ∧ t = joined (shapeNames ds) u v) := by
    intro d h hc
    cases h with
    | serviceError =>
      simp only [core, Option.some.injEq] at hc
      exact .inl ⟨rfl, hc.symm⟩
    | cls n he =>
      simp only [core, Option.some.injEq] at hc
      subst hc
      refine .inr (.inl ⟨_, he, List.mem_filterMap.mpr ⟨_, he, rfl⟩, ?_, .inl ⟨n, rfl, rfl, rfl⟩⟩)
      exact cap_plain (hf.plain _ he n (by simp [Decl.identifiers])).2
    | union n ms he =>
      simp only [core, Option.some.injEq] at hc
      subst hc
      refine .inr (.inl ⟨_, he, List.mem_filterMap.mpr ⟨_, he, rfl⟩, ?_,
        .inr ⟨n, ms, rfl, rfl, rfl⟩⟩)
      exact cap_plain (hf.plain _ he n (by simp [Decl.identifiers])).2
    | tagged d u v ht =>
      refine .inr (.inr ⟨u, v, ht, ?_⟩)
      cases ht with
      | variant u m ms _ _ =>
        simp only [core, Option.some.injEq] at hc
        exact hc.symm
      | unknown u ms _ =>
        simp only [core, Option.some.injEq] at hc
        exact hc.symm
    | deserializer n ms _ => simp [core] at hc
    | write n _ => simp [core] at hc
    | read n _ => simp [core] at hc
  have service : ∀ {d : Def} {u v : Text}, Tagged ds d u v →
      joined (shapeNames ds) u v ≠ "ServiceError".toList := by
    intro d u v ht he
    unfold joined at he
    split at he
    · have : '_' ∈ "ServiceError".toList := by
        rw [← he]
        simp
      exact absurd this (by decide)
    · obtain ⟨e, hm, hj, _⟩ := tagged_join ht
      rw [he] at hj
      exact hf.serviceError.2 (List.mem_flatMap.mpr ⟨e, hm, hj⟩)
  have shapeTag : ∀ {d : Def} {u v : Text}, Tagged ds d u v →
      joined (shapeNames ds) u v ∈ shapeNames ds → '_' ∈ joined (shapeNames ds) u v := by
    intro d u v _ hm
    unfold joined at hm ⊢
    split
    · simp
    · rename_i hn
      rw [if_neg hn] at hm
      exact absurd (by simpa using hm) hn
  rcases kinds h hc with ⟨rfl, rfl⟩ | ⟨e, he, hts, htp, hd⟩ | ⟨u, v, ht, rfl⟩
  · rcases kinds h' hc' with ⟨rfl, _⟩ | ⟨e, he, hts, _⟩ | ⟨u, v, ht, he⟩
    · rfl
    · exact absurd hts hf.serviceError.1
    · exact absurd he.symm (service ht)
  · rcases kinds h' hc' with ⟨rfl, rfl⟩ | ⟨e', he', _, _, hd'⟩ | ⟨u, v, ht, rfl⟩
    · exact absurd hts hf.serviceError.1
    · have : e = e' := by
        refine filterMap_inj hf.shapes he he' (x := t) ?_ ?_
        · rcases hd with ⟨n, rfl, _, rfl⟩ | ⟨n, ms, rfl, _, rfl⟩ <;> rfl
        · rcases hd' with ⟨n, rfl, _, rfl⟩ | ⟨n, ms, rfl, _, rfl⟩ <;> rfl
      subst this
      rcases hd with ⟨n, rfl, rfl, _⟩ | ⟨n, ms, rfl, rfl, _⟩ <;>
        rcases hd' with ⟨n', h₁, rfl, _⟩ | ⟨n', ms', h₁, rfl, _⟩ <;> simp at h₁
      · rw [h₁]
      · rw [h₁.1]
    · exact absurd (shapeTag ht hts) htp
  · rcases kinds h' hc' with ⟨rfl, he⟩ | ⟨e', he', hts, htp, _⟩ | ⟨u', v', ht', he⟩
    · exact absurd he (service ht)
    · exact absurd (shapeTag ht hts) htp
    · obtain ⟨h₁, h₂, h₃, h₄⟩ := tagged_plain hf ht
      obtain ⟨k₁, k₂, k₃, k₄⟩ := tagged_plain hf ht'
      apply tagged_inj hf ht ht'
      unfold joined at he
      by_cases hn : (shapeNames ds).contains (u ++ v) = true <;>
        by_cases hn' : (shapeNames ds).contains (u' ++ v') = true
      · rw [if_pos hn, if_pos hn'] at he
        obtain ⟨rfl, rfl⟩ := split_unique h₁ k₁ he
        rfl
      · rw [if_pos hn, if_neg hn'] at he
        have : '_' ∈ u' ++ v' := by rw [← he]; simp
        rcases List.mem_append.mp this with h | h
        · exact absurd h k₁
        · exact absurd h k₃
      · rw [if_neg hn, if_pos hn'] at he
        have : '_' ∈ u ++ v := by rw [he]; simp
        rcases List.mem_append.mp this with h | h
        · exact absurd h h₁
        · exact absurd h h₃
      · rw [if_neg hn, if_neg hn'] at he
        exact he

theorem union_inj (hf : Fine snake ds) {n n' : Text} {ms ms' : List Text} (h : .union n ms ∈ ds)
    (h' : .union n' ms' ∈ ds) (he : cap n = cap n') : n = n' := by
  have := filterMap_inj hf.shapes h h' (x := cap n) rfl (by rw [he])
  simp only [Decl.union.injEq] at this
  exact this.1

theorem collection_inj (hf : Fine snake ds) {n n' : Text} (h : .collection n ∈ ds)
    (h' : .collection n' ∈ ds) (he : snake n = snake n') : n = n' :=
  List.inj_on_of_nodup_map hf.collections
    (List.mem_flatMap.mpr ⟨_, h, by simp [Decl.collections]⟩)
    (List.mem_flatMap.mpr ⟨_, h', by simp [Decl.collections]⟩) he

/-- The kinds of names. -/
theorem name_kind (hf : Fine snake ds) {d : Def} (h : Case ds d) :
    (∃ t, core (shapeNames ds) d = some t ∧ Inner t ∧ nameOf snake (shapeNames ds) d = escape t) ∨
    (∃ n ms, .union n ms ∈ ds ∧ d = .deserializer n ∧ '_' ∉ cap n) ∨
    (∃ n, .collection n ∈ ds ∧ d = .write n) ∨ (∃ n, .collection n ∈ ds ∧ d = .read n) := by
  cases hc : core (shapeNames ds) d with
  | some t => exact .inl ⟨t, rfl, core_inner hf h hc, nameOf_core _ hc⟩
  | none =>
    right
    cases h with
    | serviceError => simp [core] at hc
    | cls n he => simp [core] at hc
    | union n ms he => simp [core] at hc
    | tagged d u v ht => cases ht <;> simp [core] at hc
    | deserializer n ms he =>
      exact .inl ⟨n, ms, he, rfl, cap_plain (hf.plain _ he n (by simp [Decl.identifiers])).2⟩
    | write n he => exact .inr (.inl ⟨n, he, rfl⟩)
    | read n he => exact .inr (.inr ⟨n, he, rfl⟩)

theorem nameOf_inj (hf : Fine snake ds) {d d' : Def} (h : Case ds d) (h' : Case ds d')
    (he : nameOf snake (shapeNames ds) d = nameOf snake (shapeNames ds) d') : d = d' := by
  have noHead : ∀ {t r : Text}, Inner t → escape t ≠ '_' :: r := by
    intro t r ht hh
    obtain ⟨c, r', h₁, h₂⟩ := escape_head ht
    rw [h₁] at hh
    simp only [List.cons.injEq] at hh
    exact h₂ hh.1
  have wr : ∀ n, ∃ r, nameOf snake (shapeNames ds) (.write n) = '_' :: 's' :: r ∧ '_' ∈ r := by
    intro n
    refine ⟨"erialize_".toList ++ snake n, rfl, ?_⟩
    exact List.mem_append_left _ (by decide)
  have rd : ∀ n, ∃ r, nameOf snake (shapeNames ds) (.read n) = '_' :: 'd' :: r ∧ '_' ∈ r := by
    intro n
    refine ⟨"eserialize_".toList ++ snake n, rfl, ?_⟩
    exact List.mem_append_left _ (by decide)
  have de : ∀ n, '_' ∉ cap n → ∃ r, nameOf snake (shapeNames ds) (.deserializer n) = '_' :: r ∧
      '_' ∉ r := by
    intro n hn
    refine ⟨cap n ++ "Deserializer".toList, rfl, ?_⟩
    rw [List.mem_append, not_or]
    exact ⟨hn, by decide⟩
  rcases name_kind hf h with ⟨t, hc, hi, hn⟩ | ⟨n, ms, hm, rfl, hp⟩ | ⟨n, hm, rfl⟩ | ⟨n, hm, rfl⟩
  · rcases name_kind hf h' with ⟨t', hc', hi', hn'⟩ | ⟨n, ms, hm, rfl, hp⟩ | ⟨n, hm, rfl⟩ | ⟨n, hm, rfl⟩
    · rw [hn, hn'] at he
      have := escape_inj_inner hi hi' he
      subst this
      exact core_inj hf h h' hc hc'
    · obtain ⟨r, hr, _⟩ := de n hp
      rw [hn, hr] at he
      exact absurd he (noHead hi)
    · obtain ⟨r, hr, _⟩ := wr n
      rw [hn, hr] at he
      exact absurd he (noHead hi)
    · obtain ⟨r, hr, _⟩ := rd n
      rw [hn, hr] at he
      exact absurd he (noHead hi)
  · obtain ⟨r, hr, hpr⟩ := de n hp
    rcases name_kind hf h' with ⟨t', hc', hi', hn'⟩ | ⟨n', ms', hm', rfl, hp'⟩ | ⟨n', hm', rfl⟩ | ⟨n', hm', rfl⟩
    · rw [hn', hr] at he
      exact absurd he.symm (noHead hi')
    · have : cap n = cap n' := by
        have he' : '_' :: (cap n ++ "Deserializer".toList) =
            '_' :: (cap n' ++ "Deserializer".toList) := he
        exact List.append_cancel_right (List.cons.inj he').2
      rw [union_inj hf hm hm' this]
    · obtain ⟨r', hr', hpr'⟩ := wr n'
      rw [hr, hr'] at he
      simp only [List.cons.injEq, true_and] at he
      rw [he] at hpr
      exact absurd (List.mem_cons_of_mem _ hpr') hpr
    · obtain ⟨r', hr', hpr'⟩ := rd n'
      rw [hr, hr'] at he
      simp only [List.cons.injEq, true_and] at he
      rw [he] at hpr
      exact absurd (List.mem_cons_of_mem _ hpr') hpr
  · obtain ⟨r, hr, hpr⟩ := wr n
    rcases name_kind hf h' with ⟨t', hc', hi', hn'⟩ | ⟨n', ms', hm', rfl, hp'⟩ | ⟨n', hm', rfl⟩ | ⟨n', hm', rfl⟩
    · rw [hn', hr] at he
      exact absurd he.symm (noHead hi')
    · obtain ⟨r', hr', hpr'⟩ := de n' hp'
      rw [hr, hr'] at he
      simp only [List.cons.injEq, true_and] at he
      rw [← he] at hpr'
      exact absurd (List.mem_cons_of_mem _ hpr) hpr'
    · have : snake n = snake n' := List.append_cancel_left he
      rw [collection_inj hf hm hm' this]
    · obtain ⟨r', hr', _⟩ := rd n'
      rw [hr, hr'] at he
      simp at he
  · obtain ⟨r, hr, hpr⟩ := rd n
    rcases name_kind hf h' with ⟨t', hc', hi', hn'⟩ | ⟨n', ms', hm', rfl, hp'⟩ | ⟨n', hm', rfl⟩ | ⟨n', hm', rfl⟩
    · rw [hn', hr] at he
      exact absurd he.symm (noHead hi')
    · obtain ⟨r', hr', hpr'⟩ := de n' hp'
      rw [hr, hr'] at he
      simp only [List.cons.injEq, true_and] at he
      rw [← he] at hpr'
      exact absurd (List.mem_cons_of_mem _ hpr) hpr'
    · obtain ⟨r', hr', _⟩ := wr n'
      rw [hr, hr'] at he
      simp at he
    · have : snake n = snake n' := List.append_cancel_left he
      rw [collection_inj hf hm hm' this]

/-! ## Theorems -/

/-- **C108.**  In every order of the definitions, each name stands for the definition it was made
for. -/
theorem C108_names_partial (hf : Fine snake ds) (order : List Def)
    (ho : ∀ d, d ∈ order ↔ d ∈ definitions ds) :
    ∀ d ∈ definitions ds,
      standsFor (nameOf snake (shapeNames ds)) order (nameOf snake (shapeNames ds) d) = some d := by
  intro d hd
  unfold standsFor
  cases hfind : order.reverse.find? fun e =>
      nameOf snake (shapeNames ds) e = nameOf snake (shapeNames ds) d with
  | none =>
    rw [List.find?_eq_none] at hfind
    exact absurd (by simp) (hfind d (List.mem_reverse.mpr ((ho d).mpr hd)))
  | some e =>
    have hm := (ho e).mp (List.mem_reverse.mp (List.mem_of_find?_eq_some hfind))
    have hn : nameOf snake (shapeNames ds) e = nameOf snake (shapeNames ds) d := by
      simpa using List.find?_some hfind
    rw [nameOf_inj hf (case_of_mem hm) (case_of_mem hd) hn]

/-- **C108.**  The class of a member of a union never has the name of a structure, an error, an enum
or a union, as long as names have no underscores, however the names are chosen otherwise. -/
theorem C108_variants (ds : List Decl)
    (hp : ∀ d ∈ ds, ∀ t ∈ d.identifiers, '_' ∉ t) {u m : Text} {ms : List Text}
    (_hu : .union u ms ∈ ds) (_hm : m ∈ ms) :
    joined (shapeNames ds) (cap u) (cap m) ∉ shapeNames ds ∧
    joined (shapeNames ds) (cap u) "Unknown".toList ∉ shapeNames ds := by
  have plain : ∀ t ∈ shapeNames ds, '_' ∉ t := by
    intro t ht
    obtain ⟨d, hd, he⟩ := List.mem_filterMap.mp ht
    cases d with
    | cls n =>
      simp only [Option.some.injEq] at he
      subst he
      exact cap_plain (hp _ hd n (by simp [Decl.identifiers]))
    | union n ms =>
      simp only [Option.some.injEq] at he
      subst he
      exact cap_plain (hp _ hd n (by simp [Decl.identifiers]))
    | collection n => simp at he
  have key : ∀ a b, joined (shapeNames ds) a b ∉ shapeNames ds := by
    intro a b h
    have h' := plain _ h
    unfold joined at h h'
    split at h
    · rename_i hc
      rw [if_pos hc] at h'
      exact h' (by simp)
    · rename_i hc
      exact hc (by simpa using h)
  exact ⟨key _ _, key _ _⟩

/-! ## Examples, and names that clash -/

def lower (t : Text) : Text := t.map Char.toLower

def sample : List Decl :=
  [.cls "FooBar".toList, .union "Foo".toList ["bar".toList, "baz".toList], .cls "None".toList,
    .collection "Foos".toList]

theorem sample_fine : Fine lower sample := by
  constructor <;> decide +kernel

example : (definitions sample).map (fun d => String.ofList (nameOf lower (shapeNames sample) d)) =
    ["ServiceError", "FooBar", "Foo_Bar", "FooBaz", "FooUnknown", "Foo", "_FooDeserializer", "None_",
      "_serialize_foos", "_deserialize_foos"] := by decide +kernel

example : ∀ d ∈ definitions sample, standsFor (nameOf lower (shapeNames sample))
    (definitions sample).reverse (nameOf lower (shapeNames sample) d) = some d :=
  C108_names_partial sample_fine _ (fun d => by rw [List.mem_reverse])

/-- What the name of a definition stands for in the order of the shapes. -/
def actual (ds : List Decl) (d : Def) : Option Def :=
  standsFor (nameOf lower (shapeNames ds)) (definitions ds) (nameOf lower (shapeNames ds) d)

/-- C108, negative: a member of a union that is called `unknown` and what stands for members that are
not known have the same class, which cannot be deserialized. -/
theorem C108_unknown_fails :
    actual [.union "Foo".toList ["bar".toList, "unknown".toList]]
      (.variant "Foo".toList "unknown".toList) = some (.unknown "Foo".toList) := by decide +kernel

/-- C108, negative: members of different unions may have the same class. -/
theorem C108_unions_fails :
    actual [.union "Foo".toList ["barBaz".toList], .union "FooBar".toList ["baz".toList]]
      (.variant "Foo".toList "barBaz".toList) = some (.variant "FooBar".toList "baz".toList) := by
  decide +kernel

/-- C108, negative: names in Smithy may have underscores, though the generator takes it that they have
not. -/
theorem C108_underscore_fails :
    actual [.union "Foo".toList ["bar".toList], .cls "FooBar".toList, .cls "Foo_Bar".toList]
      (.variant "Foo".toList "bar".toList) = some (.cls "Foo_Bar".toList) := by decide +kernel

/-- C108, negative: a shape called `ServiceError` takes the place of the base class of all errors. -/
theorem C108_service_error_fails :
    actual [.cls "ServiceError".toList] .serviceError = some (.cls "ServiceError".toList) := by
  decide +kernel

end Verif.GeneratedFiles.Names
