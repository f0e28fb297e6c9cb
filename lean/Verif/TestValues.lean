import Mathlib.Data.List.Basic

/-!
# The values that generated tests give to clients and expect from them (C145)

Models `ValueNodeVisitor`
(codegen/core/src/main/java/software/amazon/smithy/python/codegen/HttpProtocolTestGenerator.java:708-912), which writes Python for the
parameters of a test case: here, the value of what it writes.

Simplified: numbers, times and contents of bytes are texts.  Members have the names of the model.  A payload that is missing is left out, not
filled with an empty one (826-833).  Shapes are numbers, an environment says what they are, so they may be recursive.
-/

set_option autoImplicit false

namespace Verif.TestValues

abbrev Text := List Char

/-! ## Model -/

mutual
/-- A node of the parameters of a test case, visited in HttpProtocolTestGenerator.java:719-812. -/
inductive Node where
  | null
  | bool (b : Bool)
  | num (t : Text)
  | str (t : Text)
  | arr (xs : Nodes)
  | obj (ms : Members)
/-- The elements of an array (HttpProtocolTestGenerator.java:743). -/
inductive Nodes where
  | nil
  | cons (n : Node) (ns : Nodes)
/-- The members of an object, in order (HttpProtocolTestGenerator.java:863). -/
inductive Members where
  | nil
  | cons (key : Text) (n : Node) (ms : Members)
end

/-- What a shape is (the cases of HttpProtocolTestGenerator.java:720-812). -/
inductive Def where
  | boolean
  | integer
  | float
  | string
  | blob
  | enum
  | intEnum
  | timestamp
  | document
  | list (member : ℕ)
  | map (value : ℕ)
  | struct (members : List (Text × ℕ))
  | union (members : List (Text × ℕ))
  deriving DecidableEq

/-- Python values of what is written (HttpProtocolTestGenerator.java:720-911). -/
inductive Py where
  | none
  | bool (b : Bool)
  | num (t : Text)
  | float (t : Text)
  | str (t : Text)
  | bytes (t : Text)
  | enum (cls : ℕ) (t : Text)
  | datetime (t : Text)
  | document (v : Py)
  | list (xs : List Py)
  | dict (kvs : List (Text × Py))
  /-- An object of the class of a structure, with its arguments. -/
  | obj (cls : ℕ) (fields : List (Text × Py))
  /-- An object of the class of a member of a union. -/
  | variant (cls : ℕ) (member : Text) (v : Py)

/-- `$T($C)` with the class `Document`, if the target is one (HttpProtocolTestGenerator.java:838-842 and 866-870). -/
def wrap (env : ℕ → Def) (s : ℕ) (v : Py) : Py := if env s = .document then .document v else v

/-- `structureMemberShapes` (HttpProtocolTestGenerator.java:822-850), for members that were visited. -/
def fields (env : ℕ → Def) (visited : List (Text × (ℕ → Option Py))) : List (Text × ℕ) → Option (List (Text × Py))
  | [] => some []
  | (m, t) :: ms =>
    match visited.lookup m with
    | none => fields env visited ms
    | some visit =>
      match visit t with
      | none => none
      | some v => (fields env visited ms).map ((m, wrap env t v) :: ·)

/-- The values of a map (HttpProtocolTestGenerator.java:860-877) and, with `doc`, of a document (879-888). -/
def values (env : ℕ → Def) (doc : Bool) (t : ℕ) : List (Text × (ℕ → Option Py)) → Option (List (Text × Py))
  | [] => some []
  | (k, visit) :: rest =>
    match visit t with
    | none => none
    | some v => (values env doc t rest).map ((k, if doc then v else wrap env t v) :: ·)

mutual
/-- A visit of a node for a shape; `none` is a `CodegenException` (HttpProtocolTestGenerator.java:719-812, unions 890-911). -/
def visit (env : ℕ → Def) : Node → ℕ → Option Py
  | .null, _ => some .none
  | .bool b, _ => some (.bool b)
  | .num t, s =>
    match env s with
    | .timestamp => some (.datetime t)
    | .float => some (.float t)
    | .intEnum => some (.enum s t)
    | _ => some (.num t)
  | .str t, s =>
    match env s with
    | .blob => some (.bytes t)
    | .float =>
      if t = "NaN".toList then some (.float "nan".toList)
      else if t = "Infinity".toList then some (.float "inf".toList)
      else if t = "-Infinity".toList then some (.float "-inf".toList)
      else none
    | .enum => some (.enum s t)
    | _ => some (.str t)
  | .arr xs, s =>
    match env s with
    | .list t => (visitAll env xs t).map fun vs => if env t = .document then .document (.list vs) else .list vs
    | _ => (visitAll env xs s).map .list
  | .obj ms, s =>
    match env s with
    | .struct ts => (fields env (visitMembers env ms) ts).map (.obj s)
    | .map t => (values env false t (visitMembers env ms)).map .dict
    | .document => (values env true s (visitMembers env ms)).map .dict
    | .union ts =>
      match visitMembers env ms with
      | [(m, visit)] =>
        match ts.lookup m with
        | none => none
        | some t => (visit t).map (.variant s m)
      | _ => none
    | _ => none
/-- The elements of an array (HttpProtocolTestGenerator.java:733-746). -/
def visitAll (env : ℕ → Def) : Nodes → ℕ → Option (List Py)
  | .nil, _ => some []
  | .cons n ns, s =>
    match visit env n s with
    | none => none
    | some v => (visitAll env ns s).map (v :: ·)
/-- The members of an object, to be visited for their shapes (HttpProtocolTestGenerator.java:824, 863, 882, 892). -/
def visitMembers (env : ℕ → Def) : Members → List (Text × (ℕ → Option Py))
  | .nil => []
  | .cons k n ms => (k, visit env n) :: visitMembers env ms
end

/-- What a test passes to a client for a structure's member of a shape, as argument (HttpProtocolTestGenerator.java:836-846). -/
def argument (env : ℕ → Def) (s : ℕ) (n : Node) : Option Py := (visit env n s).map (wrap env s)

/-! ## Specification -/

/-- The types of generated code: which Python values are of a shape.  `None` is no value of a list, map or member. -/
inductive HasType (env : ℕ → Def) : ℕ → Py → Prop where
  | boolean {s : ℕ} {b : Bool} : env s = .boolean → HasType env s (.bool b)
  | integer {s : ℕ} {t : Text} : env s = .integer → HasType env s (.num t)
  | float {s : ℕ} {t : Text} : env s = .float → HasType env s (.float t)
  | string {s : ℕ} {t : Text} : env s = .string → HasType env s (.str t)
  | blob {s : ℕ} {t : Text} : env s = .blob → HasType env s (.bytes t)
  | enum {s : ℕ} {t : Text} : env s = .enum → HasType env s (.enum s t)
  | intEnum {s : ℕ} {t : Text} : env s = .intEnum → HasType env s (.enum s t)
  | timestamp {s : ℕ} {t : Text} : env s = .timestamp → HasType env s (.datetime t)
  | document {s : ℕ} {v : Py} : env s = .document → HasType env s (.document v)
  | list {s t : ℕ} {xs : List Py} : env s = .list t → (∀ x ∈ xs, x ≠ .none → HasType env t x) → HasType env s (.list xs)
  | map {s t : ℕ} {kvs : List (Text × Py)} : env s = .map t → (∀ x ∈ kvs, x.2 ≠ .none → HasType env t x.2) → HasType env s (.dict kvs)
  | struct {s : ℕ} {ts : List (Text × ℕ)} {fs : List (Text × Py)} (typeOf : Text × Py → ℕ) : env s = .struct ts →
      (∀ f ∈ fs, (f.1, typeOf f) ∈ ts) → (∀ f ∈ fs, f.2 ≠ .none → HasType env (typeOf f) f.2) → HasType env s (.obj s fs)
  | union {s t : ℕ} {ts : List (Text × ℕ)} {m : Text} {v : Py} : env s = .union ts → (m, t) ∈ ts → HasType env t v →
      HasType env s (.variant s m v)

/-- The keys of an object. -/
def keys : Members → List Text
  | .nil => []
  | .cons k _ ms => k :: keys ms

mutual
/-- A node that Smithy accepts as value of a shape; keys of objects are distinct. -/
def Valid (env : ℕ → Def) : Node → ℕ → Prop
  | .null, _ => True
  | .bool _, s => env s = .boolean ∨ env s = .document
  | .num _, s => env s = .integer ∨ env s = .float ∨ env s = .intEnum ∨ env s = .timestamp ∨ env s = .document
  | .str t, s =>
    env s = .string ∨ env s = .blob ∨ env s = .enum ∨ env s = .document ∨
      (env s = .float ∧ t ∈ ["NaN".toList, "Infinity".toList, "-Infinity".toList])
  | .arr xs, s => (∃ t, env s = .list t ∧ ValidAll env xs t) ∨ (env s = .document ∧ ValidAll env xs s)
  | .obj ms, s => (keys ms).Nodup ∧ (
    (∃ ts, env s = .struct ts ∧ (∀ k ∈ keys ms, ∃ t, (k, t) ∈ ts) ∧ ValidMembers env ms fun k t => (k, t) ∈ ts) ∨
    (∃ t, env s = .map t ∧ ValidMembers env ms fun _ u => u = t) ∨
    (env s = .document ∧ ValidMembers env ms fun _ u => u = s) ∨
    ∃ ts k n, env s = .union ts ∧ ms = .cons k n .nil ∧ n ≠ .null ∧ (∃ t, (k, t) ∈ ts) ∧ ValidMembers env ms fun k t => (k, t) ∈ ts)
/-- Each element is valid for a shape. -/
def ValidAll (env : ℕ → Def) : Nodes → ℕ → Prop
  | .nil, _ => True
  | .cons n ns, s => Valid env n s ∧ ValidAll env ns s
/-- Each member is valid for the shapes that its key may have. -/
def ValidMembers (env : ℕ → Def) : Members → (Text → ℕ → Prop) → Prop
  | .nil, _ => True
  | .cons k n ms, may => (∀ t, may k t → Valid env n t) ∧ ValidMembers env ms may
end

/-- What a document contains, or else the value itself. -/
def bare : Py → Py
  | .document v => v
  | v => v

mutual
/-- A Python value has the content of a node, of whatever type it is. -/
def Content : Node → Py → Prop
  | .null, v => bare v = .none
  | .bool b, v => bare v = .bool b
  | .num t, v => bare v = .num t ∨ bare v = .float t ∨ bare v = .datetime t ∨ ∃ c, bare v = .enum c t
  | .str t, v =>
    bare v = .str t ∨ bare v = .bytes t ∨ (∃ c, bare v = .enum c t) ∨ (t = "NaN".toList ∧ bare v = .float "nan".toList) ∨
      (t = "Infinity".toList ∧ bare v = .float "inf".toList) ∨ (t = "-Infinity".toList ∧ bare v = .float "-inf".toList)
  | .arr xs, v => ∃ vs, bare v = .list vs ∧ ContentAll xs vs
  | .obj ms, v => ∃ kvs, (bare v = .dict kvs ∨ (∃ c, bare v = .obj c kvs) ∨ ∃ c m w, bare v = .variant c m w ∧ kvs = [(m, w)]) ∧
      (∀ f ∈ kvs, f.1 ∈ keys ms) ∧ ContentMembers ms kvs
/-- As many values as nodes, in the same order, each with its content. -/
def ContentAll : Nodes → List Py → Prop
  | .nil, vs => vs = []
  | .cons n ns, vs => ∃ w ws, vs = w :: ws ∧ Content n w ∧ ContentAll ns ws
/-- Each member is there, with the content of its node. -/
def ContentMembers : Members → List (Text × Py) → Prop
  | .nil, _ => True
  | .cons k n ms, kvs => ((∃ w, (k, w) ∈ kvs) ∧ ∀ w, (k, w) ∈ kvs → Content n w) ∧ ContentMembers ms kvs
end

/-- No list has documents as elements and no union as a member. -/
structure Clean (env : ℕ → Def) : Prop where
  list : ∀ s t, env s = .list t → env t ≠ .document
  union : ∀ s ts, env s = .union ts → ∀ m t, (m, t) ∈ ts → env t ≠ .document

/-! ## Lemmas -/

theorem wrap_of_ne {env : ℕ → Def} {s : ℕ} (h : env s ≠ .document) (v : Py) : wrap env s v = v := if_neg h

theorem wrap_doc {env : ℕ → Def} {s : ℕ} (h : env s = .document) (v : Py) : wrap env s v = .document v := if_pos h

/-- What is to be shown of a value that was written for a node. -/
def Good (env : ℕ → Def) (n : Node) (s : ℕ) : Prop :=
  ∃ v, visit env n s = some v ∧ (v ≠ .none → HasType env s (wrap env s v)) ∧ (n ≠ .null → v ≠ .none)

/-- A visit of a member is good for the shapes that it may have. -/
def GoodMember (env : ℕ → Def) (may : Text → ℕ → Prop) (x : Text × (ℕ → Option Py)) : Prop :=
  ∀ t, may x.1 t → ∃ v, x.2 t = some v ∧ (v ≠ .none → HasType env t (wrap env t v))

theorem wrap_none {env : ℕ → Def} {s : ℕ} {v : Py} (h : wrap env s v ≠ .none) (hd : env s ≠ .document) : v ≠ .none := by
  rw [wrap_of_ne hd] at h
  exact h

theorem typed_wrap {env : ℕ → Def} {t : ℕ} {v : Py} (h : v ≠ .none → HasType env t (wrap env t v)) (hw : wrap env t v ≠ .none) :
    HasType env t (wrap env t v) := by
  by_cases hd : env t = .document
  · rw [wrap_doc hd]
    exact .document hd
  · exact h (wrap_none hw hd)

theorem fields_good {env : ℕ → Def} {visited : List (Text × (ℕ → Option Py))} {may : Text → ℕ → Prop}
    (hv : ∀ x ∈ visited, GoodMember env may x) : ∀ (ts : List (Text × ℕ)), (∀ p ∈ ts, may p.1 p.2) →
    ∃ fs, fields env visited ts = some fs ∧
      ∀ f ∈ fs, ∃ t, (f.1, t) ∈ ts ∧ (f.2 ≠ .none → HasType env t f.2)
  | [], _ => ⟨[], rfl, by simp⟩
  | (m, t) :: ts, hm => by
    obtain ⟨fs, hfs, hg⟩ := fields_good hv ts fun p hp => hm p (List.mem_cons_of_mem _ hp)
    unfold fields
    cases hl : visited.lookup m with
    | none =>
      refine ⟨fs, hfs, fun f hf => ?_⟩
      obtain ⟨u, hu, ht⟩ := hg f hf
      exact ⟨u, List.mem_cons_of_mem _ hu, ht⟩
    | some vis =>
      have hmem : (m, vis) ∈ visited := by
        clear hv hfs hm
        induction visited with
        | nil => cases hl
        | cons x xs ih =>
          obtain ⟨k, w⟩ := x
          rw [List.lookup_cons] at hl
          by_cases hk : m = k
          · subst hk
            simp only [beq_self_eq_true] at hl
            cases hl
            exact List.mem_cons_self
          · have : (m == k) = false := by simpa using hk
            rw [this] at hl
            exact List.mem_cons_of_mem _ (ih hl)
      obtain ⟨v, hvis, hty⟩ := hv _ hmem t (hm (m, t) List.mem_cons_self)
      dsimp only at hvis ⊢
      rw [hvis]
      dsimp only
      rw [hfs]
      refine ⟨_, rfl, fun f hf => ?_⟩
      rcases List.mem_cons.1 hf with rfl | hf
      · exact ⟨t, List.mem_cons_self, fun hw => typed_wrap hty hw⟩
      · obtain ⟨u, hu, ht⟩ := hg f hf
        exact ⟨u, List.mem_cons_of_mem _ hu, ht⟩

theorem values_good {env : ℕ → Def} {doc : Bool} {t : ℕ} : ∀ {visited : List (Text × (ℕ → Option Py))},
    (∀ x ∈ visited, GoodMember env (fun _ u => u = t) x) →
    ∃ kvs, values env doc t visited = some kvs ∧ (doc = false → ∀ x ∈ kvs, x.2 ≠ .none → HasType env t x.2)
  | [], _ => ⟨[], rfl, by simp⟩
  | (k, vis) :: rest, hv => by
    obtain ⟨kvs, hk, hg⟩ := values_good (doc := doc) (visited := rest) fun x hx => hv x (List.mem_cons_of_mem _ hx)
    obtain ⟨v, hvis, hty⟩ := hv _ List.mem_cons_self t rfl
    unfold values
    dsimp only at hvis ⊢
    rw [hvis]
    dsimp only
    rw [hk]
    refine ⟨_, rfl, ?_⟩
    rintro rfl x hx
    rcases List.mem_cons.1 hx with rfl | hx
    · exact fun hw => typed_wrap hty hw
    · exact hg rfl x hx

mutual
theorem visit_good {env : ℕ → Def} (hc : Clean env) : ∀ (n : Node) (s : ℕ), Valid env n s → Good env n s
  | .null, s, _ => ⟨.none, by rw [visit], fun h => absurd rfl h, fun h => absurd rfl h⟩
  | .bool b, s, h => by
    rw [Valid] at h
    refine ⟨.bool b, by rw [visit], fun _ => ?_, fun _ => by simp⟩
    rcases h with h | h
    · rw [wrap_of_ne (by rw [h]; simp)]
      exact .boolean h
    · rw [wrap_doc h]
      exact .document h
  | .num t, s, h => by
    rw [Valid] at h
    unfold Good
    rw [visit]
    rcases h with h | h | h | h | h
    · exact ⟨.num t, by rw [h], fun _ => by rw [wrap_of_ne (by rw [h]; simp)]; exact .integer h, by simp⟩
    · exact ⟨.float t, by rw [h], fun _ => by rw [wrap_of_ne (by rw [h]; simp)]; exact .float h, by simp⟩
    · exact ⟨.enum s t, by rw [h], fun _ => by rw [wrap_of_ne (by rw [h]; simp)]; exact .intEnum h, by simp⟩
    · exact ⟨.datetime t, by rw [h], fun _ => by rw [wrap_of_ne (by rw [h]; simp)]; exact .timestamp h, by simp⟩
    · exact ⟨.num t, by rw [h], fun _ => by rw [wrap_doc h]; exact .document h, by simp⟩
  | .str t, s, h => by
    rw [Valid] at h
    unfold Good
    rw [visit]
    rcases h with h | h | h | h | ⟨h, ht⟩
    · exact ⟨.str t, by rw [h], fun _ => by rw [wrap_of_ne (by rw [h]; simp)]; exact .string h, by simp⟩
    · exact ⟨.bytes t, by rw [h], fun _ => by rw [wrap_of_ne (by rw [h]; simp)]; exact .blob h, by simp⟩
    · exact ⟨.enum s t, by rw [h], fun _ => by rw [wrap_of_ne (by rw [h]; simp)]; exact .enum h, by simp⟩
    · exact ⟨.str t, by rw [h], fun _ => by rw [wrap_doc h]; exact .document h, by simp⟩
    · have hw : ∀ v, wrap env s v = v := wrap_of_ne (by rw [h]; simp)
      simp only [List.mem_cons, List.not_mem_nil, or_false] at ht
      have : ∃ u, (if t = "NaN".toList then some (Py.float "nan".toList)
          else if t = "Infinity".toList then some (.float "inf".toList)
          else if t = "-Infinity".toList then some (.float "-inf".toList)
          else none) = some (.float u) := by
        by_cases h1 : t = "NaN".toList
        · exact ⟨_, if_pos h1⟩
        · rw [if_neg h1]
          by_cases h2 : t = "Infinity".toList
          · exact ⟨_, if_pos h2⟩
          · rw [if_neg h2]
            by_cases h3 : t = "-Infinity".toList
            · exact ⟨_, if_pos h3⟩
            · rcases ht with ht | ht | ht
              · exact absurd ht h1
              · exact absurd ht h2
              · exact absurd ht h3
      obtain ⟨u, hu⟩ := this
      refine ⟨.float u, ?_, fun _ => by rw [hw]; exact .float h, by simp⟩
      rw [h]
      exact hu
  | .arr xs, s, h => by
    rw [Valid] at h
    unfold Good
    rw [visit]
    rcases h with ⟨t, h, hx⟩ | ⟨h, hx⟩
    · obtain ⟨vs, hvs, hg⟩ := visitAll_good hc xs t hx
      have hd := hc.list s t h
      rw [h]
      dsimp only
      rw [hvs]
      refine ⟨.list vs, by rw [Option.map_some, if_neg hd], fun _ => ?_, fun _ => by simp⟩
      rw [wrap_of_ne (by rw [h]; simp)]
      refine .list h fun x hx' hn => ?_
      have := hg x hx' hn
      rwa [wrap_of_ne hd] at this
    · obtain ⟨vs, hvs, -⟩ := visitAll_good hc xs s hx
      rw [h]
      dsimp only
      rw [hvs]
      exact ⟨.list vs, rfl, fun _ => by rw [wrap_doc h]; exact .document h, fun _ => by simp⟩
  | .obj ms, s, h => by
    rw [Valid] at h
    unfold Good
    rw [visit]
    obtain ⟨-, h⟩ := h
    rcases h with ⟨ts, h, -, hx⟩ | ⟨t, h, hx⟩ | ⟨h, hx⟩ | ⟨ts, k, n, h, hms, hn, ⟨t, hkt⟩, hx⟩
    · obtain ⟨fs, hfs, hg⟩ := fields_good (visitMembers_good hc ms _ hx) ts (fun p hp => hp)
      rw [h]
      dsimp only
      rw [hfs]
      refine ⟨.obj s fs, rfl, fun _ => ?_, fun _ => by simp⟩
      rw [wrap_of_ne (by rw [h]; simp)]
      classical
      refine .struct (fun f => if hf : f ∈ fs then (hg f hf).choose else 0) h (fun f hf => ?_) fun f hf hne => ?_
      · rw [dif_pos hf]
        exact (hg f hf).choose_spec.1
      · rw [dif_pos hf]
        exact (hg f hf).choose_spec.2 hne
    · obtain ⟨kvs, hk, hg⟩ := values_good (doc := false) (visitMembers_good hc ms _ hx)
      rw [h]
      dsimp only
      rw [hk]
      refine ⟨.dict kvs, rfl, fun _ => ?_, fun _ => by simp⟩
      rw [wrap_of_ne (by rw [h]; simp)]
      exact .map h (hg rfl)
    · obtain ⟨kvs, hk, -⟩ := values_good (doc := true) (visitMembers_good hc ms _ hx)
      rw [h]
      dsimp only
      rw [hk]
      exact ⟨.dict kvs, rfl, fun _ => by rw [wrap_doc h]; exact .document h, fun _ => by simp⟩
    · subst hms
      rw [ValidMembers] at hx
      obtain ⟨u, hu⟩ : ∃ u, ts.lookup k = some u := by
        cases hl : ts.lookup k with
        | none =>
          rw [List.lookup_eq_none_iff] at hl
          have := hl (k, t) hkt
          simp at this
        | some u => exact ⟨u, rfl⟩
      have hmem : (k, u) ∈ ts := by
        clear hx hkt h
        induction ts with
        | nil => cases hu
        | cons x xs ih =>
          obtain ⟨k', w⟩ := x
          rw [List.lookup_cons] at hu
          by_cases hk : k = k'
          · subst hk
            simp only [beq_self_eq_true] at hu
            cases hu
            exact List.mem_cons_self
          · have : (k == k') = false := by simpa using hk
            rw [this] at hu
            exact List.mem_cons_of_mem _ (ih hu)
      obtain ⟨v, hv, hty, hne⟩ := visit_good hc n u (hx.1 u hmem)
      have hd := hc.union s ts h k u hmem
      rw [h]
      simp only [visitMembers, hu, hv]
      refine ⟨.variant s k v, rfl, fun _ => ?_, fun _ => by simp⟩
      rw [wrap_of_ne (by rw [h]; simp)]
      have := hty (hne hn)
      rw [wrap_of_ne hd] at this
      exact .union h hmem this
theorem visitAll_good {env : ℕ → Def} (hc : Clean env) : ∀ (ns : Nodes) (s : ℕ), ValidAll env ns s →
    ∃ vs, visitAll env ns s = some vs ∧ ∀ v ∈ vs, v ≠ .none → HasType env s (wrap env s v)
  | .nil, s, _ => ⟨[], by rw [visitAll], by simp⟩
  | .cons n ns, s, h => by
    rw [ValidAll] at h
    obtain ⟨v, hv, hty, -⟩ := visit_good hc n s h.1
    obtain ⟨vs, hvs, hg⟩ := visitAll_good hc ns s h.2
    refine ⟨v :: vs, by rw [visitAll, hv]; dsimp only; rw [hvs]; rfl, fun x hx => ?_⟩
    rcases List.mem_cons.1 hx with rfl | hx
    · exact hty
    · exact hg x hx
theorem visitMembers_good {env : ℕ → Def} (hc : Clean env) : ∀ (ms : Members) (may : Text → ℕ → Prop), ValidMembers env ms may →
    ∀ x ∈ visitMembers env ms, GoodMember env may x
  | .nil, may, _ => by
    intro x hx
    rw [visitMembers] at hx
    cases hx
  | .cons k n ms, may, h => by
    rw [ValidMembers] at h
    intro x hx
    rw [visitMembers] at hx
    rcases List.mem_cons.1 hx with rfl | hx
    · intro t ht
      obtain ⟨v, hv, hty, -⟩ := visit_good hc n t (h.1 t ht)
      exact ⟨v, hv, hty⟩
    · exact visitMembers_good hc ms may h.2 x hx
end

theorem content_congr {n : Node} {v w : Py} (h : bare v = bare w) (hc : Content n v) : Content n w := by
  cases n <;> rw [Content] at hc ⊢ <;> rw [← h] <;> exact hc

/-- What is written for a document is no object of the class of documents. -/
theorem visit_bare {env : ℕ → Def} {n : Node} {s : ℕ} (hd : env s = .document) {v : Py} (h : visit env n s = some v) : bare v = v := by
  cases n <;> rw [visit] at h
  · cases h; rfl
  · cases h; rfl
  · rw [hd] at h; cases h; rfl
  · rw [hd] at h; cases h; rfl
  · rw [hd] at h
    dsimp only at h
    obtain ⟨vs, -, rfl⟩ := Option.map_eq_some_iff.1 h
    rfl
  · rw [hd] at h
    dsimp only at h
    obtain ⟨vs, -, rfl⟩ := Option.map_eq_some_iff.1 h
    rfl

theorem content_wrap {env : ℕ → Def} {n : Node} {s : ℕ} {v : Py} (h : visit env n s = some v) (hc : Content n v) :
    Content n (wrap env s v) := by
  by_cases hd : env s = .document
  · rw [wrap_doc hd]
    exact content_congr (by rw [visit_bare hd h]; rfl) hc
  · rwa [wrap_of_ne hd]

theorem mem_of_lookup {α : Type} {k : Text} {a : α} : ∀ {l : List (Text × α)}, l.lookup k = some a → (k, a) ∈ l
  | [], h => by cases h
  | (k', w) :: xs, h => by
    rw [List.lookup_cons] at h
    by_cases hk : k = k'
    · subst hk
      simp only [beq_self_eq_true] at h
      cases h
      exact List.mem_cons_self
    · have : (k == k') = false := by simpa using hk
      rw [this] at h
      exact List.mem_cons_of_mem _ (mem_of_lookup h)

theorem lookup_of_mem {α : Type} {k : Text} {a : α} {l : List (Text × α)} (h : (k, a) ∈ l) : ∃ b, l.lookup k = some b := by
  cases hl : l.lookup k with
  | none =>
    rw [List.lookup_eq_none_iff] at hl
    have := hl (k, a) h
    simp at this
  | some u => exact ⟨u, rfl⟩

theorem mem_keys {env : ℕ → Def} {k : Text} : ∀ {ms : Members}, k ∈ keys ms ↔ ∃ vis, (k, vis) ∈ visitMembers env ms
  | .nil => by simp [keys, visitMembers]
  | .cons k' n ms => by
    rw [keys, visitMembers, List.mem_cons, mem_keys (env := env)]
    constructor
    · rintro (rfl | ⟨vis, h⟩)
      · exact ⟨_, List.mem_cons_self⟩
      · exact ⟨vis, List.mem_cons_of_mem _ h⟩
    · rintro ⟨vis, h⟩
      rcases List.mem_cons.1 h with h | h
      · cases h
        exact .inl rfl
      · exact .inr ⟨vis, h⟩

/-- Where a value that was written for a member comes from. -/
def From (env : ℕ → Def) (visited : List (Text × (ℕ → Option Py))) (may : Text → ℕ → Prop) (f : Text × Py) : Prop :=
  ∃ t vis v, may f.1 t ∧ (f.1, vis) ∈ visited ∧ vis t = some v ∧ (f.2 = v ∨ f.2 = wrap env t v)

theorem fields_from {env : ℕ → Def} {visited : List (Text × (ℕ → Option Py))} {may : Text → ℕ → Prop} :
    ∀ {ts : List (Text × ℕ)} {fs : List (Text × Py)}, (∀ p ∈ ts, may p.1 p.2) → fields env visited ts = some fs →
    (∀ f ∈ fs, From env visited may f) ∧ ∀ m t vis, (m, t) ∈ ts → (m, vis) ∈ visited → ∃ w, (m, w) ∈ fs
  | [], fs, _, h => by
    rw [fields] at h
    cases h
    exact ⟨by simp, by simp⟩
  | (m, t) :: ts, fs, hm, h => by
    unfold fields at h
    have hm' : ∀ p ∈ ts, may p.1 p.2 := fun p hp => hm p (List.mem_cons_of_mem _ hp)
    cases hl : visited.lookup m with
    | none =>
      rw [hl] at h
      dsimp only at h
      obtain ⟨h1, h2⟩ := fields_from hm' h
      refine ⟨h1, fun m' t' vis hmt hv => ?_⟩
      rcases List.mem_cons.1 hmt with e | hmt
      · cases e
        obtain ⟨b, hb⟩ := lookup_of_mem hv
        rw [hl] at hb
        cases hb
      · exact h2 m' t' vis hmt hv
    | some vis =>
      rw [hl] at h
      dsimp only at h
      cases hv : vis t with
      | none => rw [hv] at h; cases h
      | some v =>
        rw [hv] at h
        dsimp only at h
        obtain ⟨gs, hgs, rfl⟩ := Option.map_eq_some_iff.1 h
        obtain ⟨h1, h2⟩ := fields_from hm' hgs
        refine ⟨fun f hf => ?_, fun m' t' vis' hmt hv' => ?_⟩
        · rcases List.mem_cons.1 hf with rfl | hf
          · exact ⟨t, vis, v, hm (m, t) List.mem_cons_self, mem_of_lookup hl, hv, .inr rfl⟩
          · exact h1 f hf
        · rcases List.mem_cons.1 hmt with e | hmt
          · cases e
            exact ⟨_, List.mem_cons_self⟩
          · obtain ⟨w, hw⟩ := h2 m' t' vis' hmt hv'
            exact ⟨w, List.mem_cons_of_mem _ hw⟩

theorem values_from {env : ℕ → Def} {doc : Bool} {t : ℕ} : ∀ {visited : List (Text × (ℕ → Option Py))} {kvs : List (Text × Py)},
    values env doc t visited = some kvs →
    (∀ f ∈ kvs, From env visited (fun _ u => u = t) f) ∧ ∀ m vis, (m, vis) ∈ visited → ∃ w, (m, w) ∈ kvs
  | [], kvs, h => by
    rw [values] at h
    cases h
    exact ⟨by simp, by simp⟩
  | (k, vis) :: rest, kvs, h => by
    unfold values at h
    cases hv : vis t with
    | none => rw [hv] at h; cases h
    | some v =>
      rw [hv] at h
      dsimp only at h
      obtain ⟨gs, hgs, rfl⟩ := Option.map_eq_some_iff.1 h
      obtain ⟨h1, h2⟩ := values_from hgs
      refine ⟨fun f hf => ?_, fun m' vis' hv' => ?_⟩
      · rcases List.mem_cons.1 hf with rfl | hf
        · refine ⟨t, vis, v, rfl, List.mem_cons_self, hv, ?_⟩
          cases doc
          · exact .inr rfl
          · exact .inl rfl
        · obtain ⟨u, vis', w, h3, h4, h5⟩ := h1 f hf
          exact ⟨u, vis', w, h3, List.mem_cons_of_mem _ h4, h5⟩
      · rcases List.mem_cons.1 hv' with e | hv'
        · cases e
          exact ⟨_, List.mem_cons_self⟩
        · obtain ⟨w, hw⟩ := h2 m' vis' hv'
          exact ⟨w, List.mem_cons_of_mem _ hw⟩

mutual
theorem visit_content {env : ℕ → Def} : ∀ (n : Node) (s : ℕ), Valid env n s → ∀ v, visit env n s = some v → Content n v
  | .null, s, _, v, hv => by
    rw [visit] at hv
    cases hv
    rw [Content]
    rfl
  | .bool b, s, _, v, hv => by
    rw [visit] at hv
    cases hv
    rw [Content]
    rfl
  | .num t, s, _, v, hv => by
    rw [visit] at hv
    rw [Content]
    split at hv <;> cases hv
    · exact .inr (.inr (.inl rfl))
    · exact .inr (.inl rfl)
    · exact .inr (.inr (.inr ⟨s, rfl⟩))
    · exact .inl rfl
  | .str t, s, _, v, hv => by
    rw [visit] at hv
    rw [Content]
    split at hv
    · cases hv
      exact .inr (.inl rfl)
    · by_cases h1 : t = "NaN".toList
      · rw [if_pos h1] at hv
        cases hv
        exact .inr (.inr (.inr (.inl ⟨h1, rfl⟩)))
      · rw [if_neg h1] at hv
        by_cases h2 : t = "Infinity".toList
        · rw [if_pos h2] at hv
          cases hv
          exact .inr (.inr (.inr (.inr (.inl ⟨h2, rfl⟩))))
        · rw [if_neg h2] at hv
          by_cases h3 : t = "-Infinity".toList
          · rw [if_pos h3] at hv
            cases hv
            exact .inr (.inr (.inr (.inr (.inr ⟨h3, rfl⟩))))
          · rw [if_neg h3] at hv
            cases hv
    · cases hv
      exact .inr (.inr (.inl ⟨s, rfl⟩))
    · cases hv
      exact .inl rfl
  | .arr xs, s, h, v, hv => by
    rw [Valid] at h
    rw [visit] at hv
    rw [Content]
    rcases h with ⟨t, h, hx⟩ | ⟨h, hx⟩
    · rw [h] at hv
      dsimp only at hv
      obtain ⟨vs, hvs, rfl⟩ := Option.map_eq_some_iff.1 hv
      refine ⟨vs, ?_, visitAll_content xs t hx vs hvs⟩
      by_cases hd : env t = .document
      · rw [if_pos hd]
        rfl
      · rw [if_neg hd]
        rfl
    · rw [h] at hv
      dsimp only at hv
      obtain ⟨vs, hvs, rfl⟩ := Option.map_eq_some_iff.1 hv
      exact ⟨vs, rfl, visitAll_content xs s hx vs hvs⟩
  | .obj ms, s, h, v, hv => by
    rw [Valid] at h
    rw [visit] at hv
    rw [Content]
    obtain ⟨hnd, h⟩ := h
    rcases h with ⟨ts, h, hk, hx⟩ | ⟨t, h, hx⟩ | ⟨h, hx⟩ | ⟨ts, k, n, h, hms, hn, -, hx⟩
    · rw [h] at hv
      dsimp only at hv
      obtain ⟨fs, hfs, rfl⟩ := Option.map_eq_some_iff.1 hv
      obtain ⟨h1, h2⟩ := fields_from (may := fun k t => (k, t) ∈ ts) (fun p hp => hp) hfs
      refine ⟨fs, .inr (.inl ⟨s, rfl⟩), fun f hf => ?_, visitMembers_content ms _ hx hnd fs (fun f hf _ => h1 f hf) fun k hkm => ?_⟩
      · obtain ⟨_, vis, _, _, hm, _⟩ := h1 f hf
        exact mem_keys.2 ⟨vis, hm⟩
      · obtain ⟨t, ht⟩ := hk k hkm
        obtain ⟨vis, hvis⟩ := (mem_keys (env := env)).1 hkm
        exact h2 k t vis ht hvis
    · rw [h] at hv
      dsimp only at hv
      obtain ⟨fs, hfs, rfl⟩ := Option.map_eq_some_iff.1 hv
      obtain ⟨h1, h2⟩ := values_from hfs
      refine ⟨fs, .inl rfl, fun f hf => ?_, visitMembers_content ms _ hx hnd fs (fun f hf _ => h1 f hf) fun k hkm => ?_⟩
      · obtain ⟨_, vis, _, _, hm, _⟩ := h1 f hf
        exact mem_keys.2 ⟨vis, hm⟩
      · obtain ⟨vis, hvis⟩ := (mem_keys (env := env)).1 hkm
        exact h2 k vis hvis
    · rw [h] at hv
      dsimp only at hv
      obtain ⟨fs, hfs, rfl⟩ := Option.map_eq_some_iff.1 hv
      obtain ⟨h1, h2⟩ := values_from hfs
      refine ⟨fs, .inl rfl, fun f hf => ?_, visitMembers_content ms _ hx hnd fs (fun f hf _ => h1 f hf) fun k hkm => ?_⟩
      · obtain ⟨_, vis, _, _, hm, _⟩ := h1 f hf
        exact mem_keys.2 ⟨vis, hm⟩
      · obtain ⟨vis, hvis⟩ := (mem_keys (env := env)).1 hkm
        exact h2 k vis hvis
    · subst hms
      rw [ValidMembers] at hx
      rw [h] at hv
      simp only [visitMembers] at hv
      cases hl : ts.lookup k with
      | none => rw [hl] at hv; cases hv
      | some u =>
        rw [hl] at hv
        dsimp only at hv
        obtain ⟨w, hw, rfl⟩ := Option.map_eq_some_iff.1 hv
        have hcw := visit_content n u (hx.1 u (mem_of_lookup hl)) w hw
        refine ⟨[(k, w)], .inr (.inr ⟨s, k, w, rfl, rfl⟩), fun f hf => ?_, ?_⟩
        · rw [List.mem_singleton] at hf
          subst hf
          simp [keys]
        · rw [ContentMembers, ContentMembers]
          refine ⟨⟨⟨w, List.mem_cons_self⟩, fun w' hw' => ?_⟩, trivial⟩
          rw [List.mem_singleton] at hw'
          cases hw'
          exact hcw
theorem visitAll_content {env : ℕ → Def} : ∀ (ns : Nodes) (s : ℕ), ValidAll env ns s → ∀ vs, visitAll env ns s = some vs →
    ContentAll ns vs
  | .nil, s, _, vs, hv => by
    rw [visitAll] at hv
    cases hv
    rw [ContentAll]
  | .cons n ns, s, h, vs, hv => by
    rw [ValidAll] at h
    rw [visitAll] at hv
    rw [ContentAll]
    cases hn : visit env n s with
    | none => rw [hn] at hv; cases hv
    | some v =>
      rw [hn] at hv
      dsimp only at hv
      obtain ⟨ws, hws, rfl⟩ := Option.map_eq_some_iff.1 hv
      exact ⟨v, ws, rfl, visit_content n s h.1 v hn, visitAll_content ns s h.2 ws hws⟩
theorem visitMembers_content {env : ℕ → Def} : ∀ (ms : Members) (may : Text → ℕ → Prop), ValidMembers env ms may → (keys ms).Nodup →
    ∀ (kvs : List (Text × Py)), (∀ f ∈ kvs, f.1 ∈ keys ms → From env (visitMembers env ms) may f) →
    (∀ k ∈ keys ms, ∃ w, (k, w) ∈ kvs) → ContentMembers ms kvs
  | .nil, _, _, _, _, _, _ => by rw [ContentMembers]; trivial
  | .cons k n ms, may, h, hnd, kvs, hf, hk => by
    rw [ValidMembers] at h
    rw [keys, List.nodup_cons] at hnd
    rw [ContentMembers]
    refine ⟨⟨hk k (by simp [keys]), fun w hw => ?_⟩, visitMembers_content ms may h.2 hnd.2 kvs (fun f hfm hfk => ?_) fun k' hk' =>
      hk k' (by rw [keys]; exact List.mem_cons_of_mem _ hk')⟩
    · obtain ⟨t, vis, v, hmay, hm, hv, hor⟩ := hf _ hw (by simp [keys])
      rw [visitMembers] at hm
      rcases List.mem_cons.1 hm with e | hm
      · cases e
        have hc := visit_content n t (h.1 t hmay) v hv
        rcases hor with e | e
        · exact (show w = v from e) ▸ hc
        · exact (show w = wrap env t v from e) ▸ content_wrap hv hc
      · exact absurd (mem_keys.2 ⟨vis, hm⟩) hnd.1
    · obtain ⟨t, vis, v, hmay, hm, hv, hor⟩ := hf f hfm (by rw [keys]; exact List.mem_cons_of_mem _ hfk)
      rw [visitMembers] at hm
      rcases List.mem_cons.1 hm with e | hm
      · have : f.1 = k := congrArg Prod.fst e
        exact absurd (this ▸ hfk) hnd.1
      · exact ⟨t, vis, v, hmay, hm, hv, hor⟩
end

/-! ## Theorems -/

/-- **C145**: a value that is written for a valid node has the content of that node, in every model. -/
theorem C145_contents {env : ℕ → Def} {n : Node} {s : ℕ} (h : Valid env n s) {v : Py} (hv : argument env s n = some v) : Content n v := by
  rw [argument] at hv
  obtain ⟨w, hw, rfl⟩ := Option.map_eq_some_iff.1 hv
  exact content_wrap hw (visit_content n s h w hw)

/-- **C145**: for every node that is valid for a shape, a value is written, and it is of the type that generated code gives to the shape, if
no list or union of the model has documents. -/
theorem C145_typed_partial {env : ℕ → Def} (hc : Clean env) {n : Node} {s : ℕ} (h : Valid env n s) (hn : n ≠ .null) :
    ∃ v, argument env s n = some v ∧ HasType env s v := by
  obtain ⟨v, hv, hty, hne⟩ := visit_good hc n s h
  exact ⟨wrap env s v, by rw [argument, hv]; rfl, hty (hne hn)⟩

/-- A list of documents is written as one document, which is no value of the list. -/
theorem C145_list_fails (env : ℕ → Def) {s t : ℕ} (h : env s = .list t) (hd : env t = .document) (b : Bool) :
    Valid env (.arr (.cons (.bool b) .nil)) s ∧
    argument env s (.arr (.cons (.bool b) .nil)) = some (.document (.list [.bool b])) ∧
    ¬ HasType env s (.document (.list [.bool b])) := by
  refine ⟨?_, ?_, ?_⟩
  · rw [Valid]
    refine .inl ⟨t, h, ?_⟩
    rw [ValidAll, ValidAll, Valid]
    exact ⟨.inr hd, trivial⟩
  · rw [argument, visit, h]
    simp [visitAll, visit, hd, wrap, h]
  · intro ht
    cases ht with
    | document h' => rw [h] at h'; cases h'

/-- A document in a union is written without the class of documents, so it is no value of the union. -/
theorem C145_union_fails (env : ℕ → Def) {s t : ℕ} {m : Text} (h : env s = .union [(m, t)]) (hd : env t = .document) (b : Bool) :
    Valid env (.obj (.cons m (.bool b) .nil)) s ∧
    argument env s (.obj (.cons m (.bool b) .nil)) = some (.variant s m (.bool b)) ∧
    ¬ HasType env s (.variant s m (.bool b)) := by
  refine ⟨?_, ?_, ?_⟩
  · rw [Valid]
    refine ⟨by simp [keys], .inr (.inr (.inr ⟨_, m, .bool b, h, rfl, by simp, ⟨t, by simp⟩, ?_⟩))⟩
    rw [ValidMembers, ValidMembers]
    refine ⟨fun u hu => ?_, trivial⟩
    rw [Valid]
    simp only [List.mem_singleton, Prod.mk.injEq, true_and] at hu
    exact .inr (hu ▸ hd)
  · rw [argument, visit, h]
    simp [visitMembers, visit, wrap, h]
  · intro ht
    cases ht with
    | union h' hm hv =>
      rw [h] at h'
      cases h'
      simp only [List.mem_singleton, Prod.mk.injEq, true_and] at hm
      subst hm
      cases hv with
      | boolean h' => rw [hd] at h'; cases h'

/-! ## Examples -/

/-- A recursive structure with a document, a union and a map. -/
private def env : ℕ → Def
  | 0 => .struct [("self".toList, 0), ("doc".toList, 1), ("u".toList, 2), ("m".toList, 3)]
  | 1 => .document
  | 2 => .union [("f".toList, 4)]
  | 3 => .map 1
  | 4 => .float
  | _ => .string

private theorem env_clean : Clean env := by
  constructor
  · intro s t h
    unfold env at h
    split at h <;> cases h
  · intro s ts h m t hm
    unfold env at h
    split at h <;> cases h
    simp only [List.mem_singleton, Prod.mk.injEq] at hm
    rw [hm.2]
    simp [env]

private def node : Node := .obj (.cons "self".toList (.obj (.cons "u".toList (.obj (.cons "f".toList (.str "NaN".toList) .nil)) .nil))
  (.cons "doc".toList (.arr (.cons (.num "1".toList) .nil)) .nil))

/-- What is written for it. -/
example : argument env 0 node = some (.obj 0 [("self".toList, .obj 0 [("u".toList, .variant 2 "f".toList (.float "nan".toList))]),
    ("doc".toList, .document (.list [.num "1".toList]))]) := by
  with_unfolding_all rfl

/-- The hypotheses of `C145_typed_partial` hold. -/
example : Valid env (.obj (.cons "f".toList (.str "NaN".toList) .nil)) 2 := by
  rw [Valid]
  refine ⟨by simp [keys], .inr (.inr (.inr ⟨_, "f".toList, .str "NaN".toList, rfl, rfl, by simp, ⟨4, by simp⟩, ?_⟩))⟩
  rw [ValidMembers, ValidMembers]
  refine ⟨fun u hu => ?_, trivial⟩
  simp only [List.mem_singleton, Prod.mk.injEq] at hu
  rw [Valid, hu.2]
  exact .inr (.inr (.inr (.inr ⟨rfl, by simp⟩)))

/-- They hold for the recursive structure too. -/
example : Valid env node 0 := by
  simp [node, Valid, ValidMembers, ValidAll, keys, env]

end Verif.TestValues
