import Verif.Schemas.Dict
import Verif.Shapes.ShapeId
import Mathlib.Data.List.Sort

/-!
# Schemas (C38)

Models `Schema` (smithy_core/schemas.py:23-271) and the traits it holds (smithy_core/traits.py:22-90).

Schemas are objects, their traits and members are dicts which schemas can share: all of them live in a
`World` and are named by their addresses.  Identifiers are those of `Verif.Shapes`.

Not modelled: the constructor called with member properties or with dicts by anything but
`Schema.member`, and changes to `Schema.traits` made from outside.
-/

set_option autoImplicit false

namespace Verif.Schemas

open Verif.Shapes

/-! ## Model -/

/-- A trait: an object of a subclass of `Trait` (typed) or a `DynamicTrait` (traits.py:22-75). -/
structure Trait (V : Type) where
  id : Text
  typed : Bool
  value : V
  deriving DecidableEq, Repr

/-- A `Schema` object (schemas.py:27-34); dicts and target by address. -/
structure SchemaObj where
  id : ShapeId
  type : Nat
  traits : Nat
  members : Nat
  target : Option Nat
  index : Option Nat
  deriving DecidableEq, Repr

/-- All objects.  A member that is to be set later is `none` (schemas.py:212-214, 220-222). -/
structure World (V : Type) where
  traits : List (Dict Text (Trait V))
  members : List (Dict Text (Option Nat))
  schemas : List SchemaObj

inductive Err where
  /-- `SmithyError` of the constructor -/
  | memberProperties
  /-- `ExpectationNotMetError` -/
  | expectation
  /-- an error of `ShapeID` -/
  | shapeId (e : Shapes.Err)
  /-- the assertions of a trait's constructor -/
  | assertion
  /-- there is no such schema (there is none in a program) -/
  | noSchema
  deriving DecidableEq, Repr

section
variable {V : Type}

/-- A new schema with new traits. -/
def World.push (w : World V) (id : ShapeId) (type : Nat) (traits : Dict Text (Trait V)) (members : Nat)
    (target index : Option Nat) : World V × Nat :=
  ({ w with
      traits := w.traits ++ [traits]
      schemas := w.schemas ++ [⟨id, type, w.traits.length, members, target, index⟩] },
    w.schemas.length)

/-- A new dict of members. -/
def World.newMembers (w : World V) (d : Dict Text (Option Nat)) : World V × Nat :=
  ({ w with members := w.members ++ [d] }, w.members.length)

/-- `{t.id: t for t in traits}` on top of a dict (schemas.py:75, 264). -/
def addTraits (d : Dict Text (Trait V)) (traits : List (Trait V)) : Dict Text (Trait V) :=
  d.update (traits.map fun t => (t.id, t))

/-- `expect_member_index` and `expect_member_name` of the members given as a list (schemas.py:84-85;
98-104, 121-131). -/
def memberKeys (w : World V) : List Nat → Except Err (List (Nat × Text × Nat))
  | [] => .ok []
  | s :: ss =>
    match w.schemas[s]? with
    | none => .error .noSchema
    | some o =>
      match o.index, o.id.member with
      | some i, some name =>
        match memberKeys w ss with
        | .error e => .error e
        | .ok ks => .ok ((i, name, s) :: ks)
      | _, _ => .error .expectation

/-- `sorted(members, key=lambda m: m.expect_member_index())` (schemas.py:84): a stable sort. -/
def sortKeys (ks : List (Nat × Text × Nat)) : List (Nat × Text × Nat) :=
  ks.insertionSort fun a b => a.1 ≤ b.1

/-- `Schema(id=..., shape_type=..., traits=[...], members=[...])` (schemas.py:36-93). -/
def create (w : World V) (id : ShapeId) (type : Nat) (traits : List (Trait V)) (members : List Nat) :
    World V × Except Err Nat :=
  if id.member.isSome then (w, .error .memberProperties)
  else
    match memberKeys w members with
    | .error e => (w, .error e)
    | .ok ks =>
      let d : Dict Text (Option Nat) :=
        Dict.update [] ((sortKeys ks).map fun k => (k.2.1, some k.2.2))
      let r := (w.newMembers d).1.push id type (addTraits [] traits) w.members.length none none
      (r.1, .ok r.2)

/-- `Schema.member` (schemas.py:240-271).  `replace` passes the traits, a dict of their own, and the
members of the target on to the constructor. -/
def member (w : World V) (id : ShapeId) (target index : Nat) (traits : List (Trait V)) :
    World V × Except Err Nat :=
  match w.schemas[target]? with
  | none => (w, .error .noSchema)
  | some o =>
    match id.member with
    | none => (w, .error .expectation)
    | some _ =>
      if o.target.isSome then (w, .error .expectation)
      else
        let own := addTraits ((w.traits[o.traits]?).getD []) traits
        let r := w.push id o.type own o.members (some target) (some index)
        (r.1, .ok r.2)

/-- The loop of `collection` (schemas.py:217-230).  A mapping has each key once. -/
def collect (id : ShapeId) (i : Nat) :
    World V → List (Text × Option (Nat × List (Trait V))) →
      World V × Except Err (Dict Text (Option Nat))
  | w, [] => (w, .ok [])
  | w, (k, none) :: ms =>
    match collect id (i + 1) w ms with
    | (w, .error e) => (w, .error e)
    | (w, .ok d) => (w, .ok ((k, none) :: d))
  | w, (k, some (target, traits)) :: ms =>
    match id.withMember k with
    | .error e => (w, .error (.shapeId e))
    | .ok mid =>
      match member w mid target i traits with
      | (w, .error e) => (w, .error e)
      | (w, .ok s) =>
        match collect id (i + 1) w ms with
        | (w, .error e) => (w, .error e)
        | (w, .ok d) => (w, .ok ((k, some s) :: d))

/-- `Schema.collection` (schemas.py:195-238). -/
def collection (w : World V) (id : ShapeId) (type : Nat) (traits : List (Trait V))
    (members : List (Text × Option (Nat × List (Trait V)))) : World V × Except Err Nat :=
  match collect id 0 w members with
  | (w, .error e) => (w, .error e)
  | (w, .ok d) =>
    if id.member.isSome then (w, .error .memberProperties)
    else
      let r := (w.newMembers d).1.push id type (addTraits [] traits) w.members.length none none
      (r.1, .ok r.2)

/-- `get_trait` with the class of a trait (schemas.py:152-161).  `accepts` says which values the
constructor of a class takes. -/
def getTrait (accepts : Text → V → Bool) (w : World V) (s : Nat) (cls : Text) :
    World V × Except Err (Option (Trait V)) :=
  match w.schemas[s]? with
  | none => (w, .error .noSchema)
  | some o =>
    let d := (w.traits[o.traits]?).getD []
    match d.get cls with
    | none => (w, .ok none)
    | some t =>
      if t.typed then (w, .ok (some t))
      else if accepts cls t.value then
        ({ w with traits := w.traits.set o.traits (d.set cls { t with typed := true }) },
          .ok (some { t with typed := true }))
      else (w, .error .assertion)

/-- `get_trait` with an identifier (schemas.py:150-151). -/
def getTraitById (w : World V) (s : Nat) (id : Text) : Except Err (Option (Trait V)) :=
  match w.schemas[s]? with
  | none => .error .noSchema
  | some o => .ok (((w.traits[o.traits]?).getD []).get id)

/-- `schema.members[name] = member`, as generated code does it for members that were left out. -/
def populate (w : World V) (s : Nat) (name : Text) (m : Nat) : World V :=
  match w.schemas[s]? with
  | none => w
  | some o => { w with members := w.members.modify o.members fun d => d.set name (some m) }

/-- What a program does with schemas. -/
inductive SOp (V : Type) where
  | create (id : ShapeId) (type : Nat) (traits : List (Trait V)) (members : List Nat)
  | member (id : ShapeId) (target index : Nat) (traits : List (Trait V))
  | collection (id : ShapeId) (type : Nat) (traits : List (Trait V))
      (members : List (Text × Option (Nat × List (Trait V))))
  | getTrait (s : Nat) (cls : Text)
  | populate (s : Nat) (name : Text) (m : Nat)

/-- One step. -/
def sstep (accepts : Text → V → Bool) (w : World V) : SOp V → World V
  | .create id type traits members => (create w id type traits members).1
  | .member id target index traits => (member w id target index traits).1
  | .collection id type traits members => (collection w id type traits members).1
  | .getTrait s cls => (getTrait accepts w s cls).1
  | .populate s name m => populate w s name m

/-- A program. -/
def srun (accepts : Text → V → Bool) (w : World V) (ops : List (SOp V)) : World V :=
  ops.foldl (sstep accepts) w

/-! ## Specification -/

/-- The value of a trait of a schema. -/
def World.traitValue (w : World V) (s : Nat) (id : Text) : Option V :=
  (w.schemas[s]?).bind fun o => (w.traits[o.traits]?).bind fun d => (d.get id).map Trait.value

/-- The members of a schema. -/
def World.membersOf (w : World V) (s : Nat) : Option (Dict Text (Option Nat)) :=
  (w.schemas[s]?).bind fun o => w.members[o.members]?

/-- The last of some traits with an identifier. -/
def lastWith (traits : List (Trait V)) (id : Text) : Option V :=
  (traits.reverse.find? fun t => t.id = id).map Trait.value

/-- The type of a schema. -/
def World.typeOf (w : World V) (s : Nat) : Option Nat := (w.schemas[s]?).map SchemaObj.type

/-- The target of a member schema. -/
def World.targetOf (w : World V) (s : Nat) : Option Nat := (w.schemas[s]?).bind SchemaObj.target

/-- A world as programs make it: starting with nothing. -/
def Reachable (accepts : Text → V → Bool) (w : World V) : Prop :=
  ∃ ops, w = srun accepts ⟨[], [], []⟩ ops

end

/-! ## Theorems -/

section
variable {V : Type}

/-- Dicts and targets of all schemas exist, and targets are not members. -/
structure Ok (w : World V) : Prop where
  traits : ∀ o ∈ w.schemas, o.traits < w.traits.length
  members : ∀ o ∈ w.schemas, o.members < w.members.length
  target : ∀ o ∈ w.schemas, ∀ t, o.target = some t →
    ∃ o', w.schemas[t]? = some o' ∧ o'.target = none ∧ o'.members = o.members ∧ o'.type = o.type
  keyed : ∀ d ∈ w.traits, ∀ e ∈ d, e.2.id = e.1

/-- What every step keeps: schemas stay as they are, and values of traits. -/
structure Keeps (w w' : World V) : Prop where
  schemas : ∀ {s : Nat} {o : SchemaObj}, w.schemas[s]? = some o → w'.schemas[s]? = some o
  traits : ∀ {a : Nat} {d : Dict Text (Trait V)}, w.traits[a]? = some d → ∃ d', w'.traits[a]? = some d' ∧
    ∀ id, (d'.get id).map Trait.value = (d.get id).map Trait.value
  members : w.members.length ≤ w'.members.length

theorem Keeps.refl (w : World V) : Keeps w w := ⟨fun h => h, fun h => ⟨_, h, fun _ => rfl⟩, le_refl _⟩

theorem Keeps.trans {w w' w'' : World V} (h : Keeps w w') (h' : Keeps w' w'') : Keeps w w'' :=
  ⟨fun x => h'.schemas (h.schemas x),
    fun x => by
      obtain ⟨d', h1, h2⟩ := h.traits x
      obtain ⟨d'', h3, h4⟩ := h'.traits h1
      exact ⟨d'', h3, fun id => (h4 id).trans (h2 id)⟩,
    le_trans h.members h'.members⟩

theorem get_append {α : Type} {l : List α} {i : Nat} {a : α} (h : l[i]? = some a) (x : List α) :
    (l ++ x)[i]? = some a := by
  obtain ⟨hl, rfl⟩ := List.getElem?_eq_some_iff.1 h
  rw [List.getElem?_append_left hl]
  exact List.getElem?_eq_getElem hl

theorem keeps_push (w : World V) (id : ShapeId) (type : Nat) (traits : Dict Text (Trait V))
    (members : Nat) (target index : Option Nat) :
    Keeps w (w.push id type traits members target index).1 :=
  ⟨fun h => get_append h _, fun h => ⟨_, get_append h _, fun _ => rfl⟩, le_refl _⟩

theorem keeps_newMembers (w : World V) (d : Dict Text (Option Nat)) : Keeps w (w.newMembers d).1 :=
  ⟨fun h => h, fun h => ⟨_, h, fun _ => rfl⟩, by simp [World.newMembers]⟩

theorem mem_set {K U : Type} [DecidableEq K] {d : Dict K U} {k : K} {v : U} {e : K × U}
    (h : e ∈ d.set k v) : e ∈ d ∨ e = (k, v) := by
  unfold Dict.set at h
  split at h
  · obtain ⟨x, hx, rfl⟩ := List.mem_map.1 h
    split
    · exact Or.inr rfl
    · exact Or.inl hx
  · rcases List.mem_append.1 h with h | h
    · exact Or.inl h
    · exact Or.inr (List.mem_singleton.1 h)

theorem mem_update {K U : Type} [DecidableEq K] (items : List (K × U)) : ∀ {d : Dict K U} {e : K × U},
    e ∈ d.update items → e ∈ d ∨ e ∈ items := by
  induction items with
  | nil => intro d e h; exact Or.inl h
  | cons x items ih =>
    intro d e h
    rcases ih (d := d.set x.1 x.2) h with h | h
    · rcases mem_set h with h | h
      · exact Or.inl h
      · exact Or.inr (by simp [h])
    · exact Or.inr (by simp [h])

theorem addTraits_keyed {d : Dict Text (Trait V)} (hd : ∀ e ∈ d, e.2.id = e.1) (traits : List (Trait V)) :
    ∀ e ∈ addTraits d traits, e.2.id = e.1 := by
  intro e he
  rcases mem_update _ he with h | h
  · exact hd e h
  · obtain ⟨t, _, rfl⟩ := List.mem_map.1 h
    rfl

theorem ok_push {w : World V} (h : Ok w) (id : ShapeId) (type : Nat) (traits : Dict Text (Trait V))
    (members : Nat) (target index : Option Nat) (hm : members < w.members.length)
    (ht : ∀ t, target = some t → ∃ o', w.schemas[t]? = some o' ∧ o'.target = none ∧
      o'.members = members ∧ o'.type = type)
    (hk : ∀ e ∈ traits, e.2.id = e.1) :
    Ok (w.push id type traits members target index).1 := by
  refine ⟨?_, ?_, ?_, ?_⟩
  · intro o ho
    simp only [World.push, List.length_append, List.length_singleton]
    rcases List.mem_append.1 ho with ho | ho
    · have := h.traits o ho; omega
    · rw [List.mem_singleton.1 ho]; simp
  · intro o ho
    rcases List.mem_append.1 ho with ho | ho
    · exact h.members o ho
    · rw [List.mem_singleton.1 ho]; exact hm
  · intro o ho t hto
    rcases List.mem_append.1 ho with ho | ho
    · obtain ⟨o', h1, h2⟩ := h.target o ho t hto
      exact ⟨o', get_append h1 _, h2⟩
    · rw [List.mem_singleton.1 ho] at hto ⊢
      obtain ⟨o', h1, h2⟩ := ht t hto
      exact ⟨o', get_append h1 _, h2⟩
  · intro d hd
    rcases List.mem_append.1 hd with hd | hd
    · exact h.keyed d hd
    · rw [List.mem_singleton.1 hd]; exact hk

theorem ok_newMembers {w : World V} (h : Ok w) (d : Dict Text (Option Nat)) : Ok (w.newMembers d).1 :=
  ⟨h.traits, fun o ho => by
      have := h.members o ho
      simp only [World.newMembers, List.length_append]; omega,
    h.target, h.keyed⟩

theorem member_step {w : World V} (h : Ok w) (id : ShapeId) (target index : Nat)
    (traits : List (Trait V)) :
    Ok (member w id target index traits).1 ∧ Keeps w (member w id target index traits).1 := by
  unfold member
  cases ho : w.schemas[target]? with
  | none => exact ⟨h, .refl w⟩
  | some o =>
    cases id.member with
    | none => exact ⟨h, .refl w⟩
    | some m =>
      simp only
      split
      · exact ⟨h, .refl w⟩
      · rename_i hn
        have hmem := List.mem_of_getElem? ho
        refine ⟨ok_push h _ _ _ _ _ _ (h.members o hmem) ?_ ?_, keeps_push w _ _ _ _ _ _⟩
        · intro t ht
          obtain rfl := Option.some.inj ht
          exact ⟨o, ho, by simpa using hn, rfl, rfl⟩
        · apply addTraits_keyed
          have hl := h.traits o hmem
          rw [List.getElem?_eq_getElem hl]
          exact h.keyed _ (List.getElem_mem hl)

theorem collect_step (id : ShapeId) (ms : List (Text × Option (Nat × List (Trait V)))) :
    ∀ (i : Nat) (w : World V), Ok w →
      Ok (collect id i w ms).1 ∧ Keeps w (collect id i w ms).1 := by
  induction ms with
  | nil => intro i w h; exact ⟨h, .refl w⟩
  | cons x ms ih =>
    intro i w h
    obtain ⟨k, m⟩ := x
    cases m with
    | none =>
      obtain ⟨h1, h2⟩ := ih (i + 1) w h
      simp only [collect]
      generalize collect id (i + 1) w ms = r at h1 h2
      obtain ⟨w', d⟩ := r
      cases d <;> exact ⟨h1, h2⟩
    | some p =>
      obtain ⟨target, traits⟩ := p
      simp only [collect]
      cases id.withMember k with
      | error e => exact ⟨h, .refl w⟩
      | ok mid =>
        obtain ⟨h1, h2⟩ := member_step h mid target i traits
        simp only
        generalize member w mid target i traits = r at h1 h2
        obtain ⟨w', s⟩ := r
        cases s with
        | error e => exact ⟨h1, h2⟩
        | ok s =>
          obtain ⟨h3, h4⟩ := ih (i + 1) w' h1
          simp only
          generalize collect id (i + 1) w' ms = r at h3 h4
          obtain ⟨w'', d⟩ := r
          cases d <;> exact ⟨h3, h2.trans h4⟩

theorem push_new {w : World V} (h : Ok w) (d : Dict Text (Option Nat)) (id : ShapeId) (type : Nat)
    (traits : List (Trait V)) :
    Ok ((w.newMembers d).1.push id type (addTraits [] traits) w.members.length none none).1 ∧
    Keeps w ((w.newMembers d).1.push id type (addTraits [] traits) w.members.length none none).1 := by
  refine ⟨ok_push (ok_newMembers h d) _ _ _ _ _ _ (by simp [World.newMembers]) (by simp)
    (addTraits_keyed (by simp) _), (keeps_newMembers w d).trans (keeps_push _ _ _ _ _ _ _)⟩

theorem getTrait_step (accepts : Text → V → Bool) {w : World V} (h : Ok w) (s : Nat) (cls : Text) :
    Ok (getTrait accepts w s cls).1 ∧ Keeps w (getTrait accepts w s cls).1 := by
  unfold getTrait
  cases ho : w.schemas[s]? with
  | none => exact ⟨h, .refl w⟩
  | some o =>
    have hl := h.traits o (List.mem_of_getElem? ho)
    simp only [List.getElem?_eq_getElem hl, Option.getD_some]
    cases hg : Dict.get w.traits[o.traits] cls with
    | none => exact ⟨h, .refl w⟩
    | some t =>
      simp only
      split
      · exact ⟨h, .refl w⟩
      · split
        · refine ⟨⟨?_, h.members, h.target, ?_⟩, ⟨fun x => x, ?_, le_refl _⟩⟩
          · intro o ho
            simp only [List.length_set]
            exact h.traits o ho
          · intro d hd e he
            rcases List.mem_or_eq_of_mem_set hd with h1 | h1
            · exact h.keyed d h1 e he
            · rw [h1] at he
              rcases mem_set he with h2 | h2
              · exact h.keyed _ (List.getElem_mem hl) e h2
              · rw [h2]
                simp only
                obtain ⟨x, hx, hxt⟩ := Option.map_eq_some_iff.1 hg
                have h3 := h.keyed _ (List.getElem_mem hl) x (List.mem_of_find?_eq_some hx)
                have h4 : x.1 = cls := by simpa using List.find?_some hx
                rw [← hxt, h3, h4]
          · intro a d ha
            by_cases hae : a = o.traits
            · subst hae
              rw [List.getElem?_eq_getElem hl] at ha
              obtain rfl := Option.some.inj ha
              refine ⟨_, List.getElem?_set_self hl, ?_⟩
              intro id
              rw [get_set]
              split
              · rename_i hid
                rw [hid, hg]
                rfl
              · rfl
            · exact ⟨d, by rw [List.getElem?_set_ne (Ne.symm hae)]; exact ha, fun _ => rfl⟩
        · exact ⟨h, .refl w⟩

theorem sstep_ok (accepts : Text → V → Bool) {w : World V} (h : Ok w) (op : SOp V) :
    Ok (sstep accepts w op) ∧ Keeps w (sstep accepts w op) := by
  cases op with
  | create id type traits members =>
    simp only [sstep, create]
    split
    · exact ⟨h, .refl w⟩
    · cases memberKeys w members with
      | error e => exact ⟨h, .refl w⟩
      | ok ks => exact push_new h _ _ _ _
  | member id target index traits => exact member_step h id target index traits
  | collection id type traits members =>
    obtain ⟨h1, h2⟩ := collect_step id members 0 w h
    simp only [sstep, collection]
    generalize collect id 0 w members = r at h1 h2
    obtain ⟨w', d⟩ := r
    cases d with
    | error e => exact ⟨h1, h2⟩
    | ok d =>
      simp only
      split
      · exact ⟨h1, h2⟩
      · obtain ⟨h3, h4⟩ := push_new h1 d id type traits
        exact ⟨h3, h2.trans h4⟩
  | getTrait s cls => exact getTrait_step accepts h s cls
  | populate s name m =>
    simp only [sstep, populate]
    cases ho : w.schemas[s]? with
    | none => exact ⟨h, .refl w⟩
    | some o =>
      refine ⟨⟨h.traits, fun o ho => ?_, h.target, h.keyed⟩,
        ⟨fun x => x, fun x => ⟨_, x, fun _ => rfl⟩, by simp⟩⟩
      simp only [List.length_modify]
      exact h.members o ho

theorem srun_ok (accepts : Text → V → Bool) (ops : List (SOp V)) : ∀ {w : World V}, Ok w →
    Ok (srun accepts w ops) ∧ Keeps w (srun accepts w ops) := by
  induction ops with
  | nil => intro w h; exact ⟨h, .refl w⟩
  | cons op ops ih =>
    intro w h
    obtain ⟨h1, h2⟩ := sstep_ok accepts h op
    obtain ⟨h3, h4⟩ := ih h1
    exact ⟨h3, h2.trans h4⟩

theorem reachable_ok {accepts : Text → V → Bool} {w : World V} (h : Reachable accepts w) : Ok w := by
  obtain ⟨ops, rfl⟩ := h
  exact (srun_ok accepts ops ⟨by simp, by simp, by simp, by simp⟩).1

theorem keeps_traitValue {w w' : World V} (hw : Ok w) (h : Keeps w w') {s : Nat} {o : SchemaObj}
    (hs : w.schemas[s]? = some o) (id : Text) : w'.traitValue s id = w.traitValue s id := by
  have hl := hw.traits o (List.mem_of_getElem? hs)
  obtain ⟨d', h1, h2⟩ := h.traits (List.getElem?_eq_getElem hl)
  simp only [World.traitValue, hs, h.schemas hs, Option.bind_some, h1, List.getElem?_eq_getElem hl]
  exact h2 id

theorem lastWith_eq (traits : List (Trait V)) (id : Text) :
    (((traits.map fun t => (t.id, t)).reverse.find? fun e => e.1 = id).map Prod.snd).map Trait.value =
      lastWith traits id := by
  rw [← List.map_reverse, List.find?_map, Option.map_map, Option.map_map]
  rfl

/-- A member schema has the traits of its target overridden by its own, the members and the type of its
target, and its target is not a member: now and after everything done later, including lookups of
traits, which may replace trait objects, and members added to the target afterwards. -/
theorem C38_member (accepts : Text → V → Bool) {w w1 : World V} (hw : Reachable accepts w)
    (id : ShapeId) (target index : Nat) (traits : List (Trait V)) (m : Nat)
    (hm : member w id target index traits = (w1, .ok m)) (later : List (SOp V)) :
    let w2 := srun accepts w1 later
    (∀ t, w2.traitValue m t = (lastWith traits t).or (w.traitValue target t)) ∧
    (∀ t, w2.traitValue m t = (lastWith traits t).or (w2.traitValue target t)) ∧
    (∃ ms, w2.membersOf m = some ms ∧ w2.membersOf target = some ms) ∧
    (∃ type, w2.typeOf m = some type ∧ w2.typeOf target = some type) ∧
    w2.targetOf m = some target ∧ w2.targetOf target = none ∧
    (w2.schemas[m]?).map (fun o => (o.id, o.index)) = some (id, some index) := by
  have hok := reachable_ok hw
  obtain ⟨hok1, hk1⟩ := member_step hok id target index traits
  unfold member at hm hok1 hk1
  cases ho : w.schemas[target]? with
  | none => rw [ho] at hm; cases (Prod.mk.inj hm).2
  | some o =>
    rw [ho] at hm hok1 hk1
    cases hmem : id.member with
    | none => rw [hmem] at hm; cases (Prod.mk.inj hm).2
    | some name =>
      rw [hmem] at hm hok1 hk1
      simp only at hm hok1 hk1
      cases htg : o.target with
      | some t => rw [htg] at hm; cases (Prod.mk.inj hm).2
      | none =>
        rw [htg] at hm hok1 hk1
        simp only [Option.isSome_none, Bool.false_eq_true, if_false] at hm hok1 hk1
        obtain ⟨rfl, hm2⟩ := Prod.mk.inj hm
        obtain rfl := Except.ok.inj hm2
        intro w2
        obtain ⟨hok2, hk2⟩ := srun_ok accepts later hok1
        have hl := hok.traits o (List.mem_of_getElem? ho)
        have hmo : (w.push id o.type (addTraits ((w.traits[o.traits]?).getD []) traits) o.members
            (some target) (some index)).1.schemas[w.schemas.length]? =
            some ⟨id, o.type, w.traits.length, o.members, some target, some index⟩ := by
          simp [World.push]
        have hval : ∀ t, (w.push id o.type (addTraits ((w.traits[o.traits]?).getD []) traits) o.members
            (some target) (some index)).1.traitValue w.schemas.length t =
            (lastWith traits t).or (w.traitValue target t) := by
          intro t
          simp only [World.traitValue, hmo, ho, Option.bind_some, List.getElem?_eq_getElem hl,
            Option.getD_some, World.push, List.getElem?_append_right (le_refl _), Nat.sub_self,
            List.getElem?_cons_zero]
          rw [addTraits, get_update, Option.map_or, lastWith_eq]
        have hm2 := hk2.schemas hmo
        have ht2 := hk2.schemas (hk1.schemas ho)
        have hmm : o.members < w2.members.length :=
          hok2.members _ (List.mem_of_getElem? ht2)
        have v1 : ∀ t, w2.traitValue w.schemas.length t =
            (lastWith traits t).or (w.traitValue target t) :=
          fun t => (keeps_traitValue hok1 hk2 hmo t).trans (hval t)
        have v2 : ∀ t, w2.traitValue target t = w.traitValue target t :=
          fun t => keeps_traitValue hok (hk1.trans hk2) ho t
        refine ⟨v1, fun t => by rw [v2 t]; exact v1 t, ⟨w2.members[o.members], ?_, ?_⟩, ⟨o.type, ?_, ?_⟩,
          ?_, ?_, ?_⟩
        · change (w2.schemas[w.schemas.length]?).bind _ = _
          rw [hm2]; exact List.getElem?_eq_getElem hmm
        · change (w2.schemas[target]?).bind _ = _
          rw [ht2]; exact List.getElem?_eq_getElem hmm
        · change (w2.schemas[w.schemas.length]?).map _ = _
          rw [hm2]; rfl
        · change (w2.schemas[target]?).map _ = _
          rw [ht2]; rfl
        · change (w2.schemas[w.schemas.length]?).bind _ = _
          rw [hm2]; rfl
        · change (w2.schemas[target]?).bind _ = _
          rw [ht2]; exact htg
        · change (w2.schemas[w.schemas.length]?).map _ = _
          rw [hm2]; rfl

/-- A member of a member is refused. -/
theorem C38_not_of_member {w : World V} (id : ShapeId) (target index : Nat) (traits : List (Trait V))
    (t : Nat) (ht : w.targetOf target = some t) :
    ∃ e, member w id target index traits = (w, .error e) := by
  unfold member
  unfold World.targetOf at ht
  cases ho : w.schemas[target]? with
  | none => rw [ho] at ht; cases ht
  | some o =>
    rw [ho] at ht
    simp only [Option.bind_some] at ht
    cases id.member with
    | none => exact ⟨_, rfl⟩
    | some m => exact ⟨.expectation, by simp only [ht, Option.isSome_some, if_true]⟩

/-- Looking up a trait gives its value, by class as an object of the class, if the class takes the
value; the lookup changes nothing that is observable in terms of values. -/
theorem C38_lookup (accepts : Text → V → Bool) {w : World V} (hw : Reachable accepts w) (s : Nat)
    (o : SchemaObj) (hs : w.schemas[s]? = some o) (cls : Text) :
    (match w.traitValue s cls with
      | none => (getTrait accepts w s cls).2 = .ok none ∧ getTraitById w s cls = .ok none
      | some v => (∃ typed, getTraitById w s cls = .ok (some ⟨cls, typed, v⟩)) ∧
        (accepts cls v = true → (getTrait accepts w s cls).2 = .ok (some ⟨cls, true, v⟩) ∧
          getTraitById (getTrait accepts w s cls).1 s cls = .ok (some ⟨cls, true, v⟩))) ∧
    (∀ s' id, (getTrait accepts w s cls).1.traitValue s' id = w.traitValue s' id) ∧
    (getTrait accepts w s cls).1.schemas = w.schemas ∧
    (getTrait accepts w s cls).1.members = w.members := by
  have hok := reachable_ok hw
  obtain ⟨_, hk⟩ := getTrait_step accepts hok s cls
  have hl := hok.traits o (List.mem_of_getElem? hs)
  have hsch : (getTrait accepts w s cls).1.schemas = w.schemas ∧
      (getTrait accepts w s cls).1.members = w.members := by
    unfold getTrait
    rw [hs]
    simp only
    cases Dict.get ((w.traits[o.traits]?).getD []) cls with
    | none => exact ⟨rfl, rfl⟩
    | some t => simp only; split <;> [exact ⟨rfl, rfl⟩; split <;> exact ⟨rfl, rfl⟩]
  refine ⟨?_, ?_, hsch⟩
  · simp only [World.traitValue, hs, Option.bind_some, List.getElem?_eq_getElem hl]
    cases hg : Dict.get w.traits[o.traits] cls with
    | none =>
      simp only [Option.map_none, getTrait, getTraitById, hs, List.getElem?_eq_getElem hl,
        Option.getD_some, hg, and_self]
    | some t =>
      have hid : t.id = cls := by
        obtain ⟨x, hx, hxt⟩ := Option.map_eq_some_iff.1 hg
        have h3 := hok.keyed _ (List.getElem_mem hl) x (List.mem_of_find?_eq_some hx)
        have h4 : x.1 = cls := by simpa using List.find?_some hx
        rw [← hxt, h3, h4]
      obtain ⟨id, typed, value⟩ := t
      simp only at hid
      subst hid
      simp only [Option.map_some]
      refine ⟨⟨typed, ?_⟩, ?_⟩
      · simp only [getTraitById, hs, List.getElem?_eq_getElem hl, Option.getD_some, hg]
      · intro hacc
        simp only [getTrait, hs, List.getElem?_eq_getElem hl, Option.getD_some, hg]
        cases typed with
        | true =>
          simp only [if_true, getTraitById, hs, List.getElem?_eq_getElem hl, Option.getD_some, hg,
            and_self]
        | false =>
          simp only [Bool.false_eq_true, if_false, hacc, if_true, getTraitById, hs,
            List.getElem?_set_self hl, Option.getD_some, get_set, and_self]
  · intro s' id
    cases hs' : w.schemas[s']? with
    | none => simp [World.traitValue, hsch.1, hs']
    | some o' => exact keeps_traitValue hok hk hs' id

theorem mem_memberKeys {w : World V} (ms : List Nat) : ∀ {ks}, memberKeys w ms = .ok ks →
    List.Forall₂ (fun s k => k.2.2 = s ∧ ∃ o, w.schemas[s]? = some o ∧ o.index = some k.1 ∧
      o.id.member = some k.2.1) ms ks := by
  induction ms with
  | nil => intro ks h; cases h; exact .nil
  | cons s ms ih =>
    intro ks h
    simp only [memberKeys] at h
    cases ho : w.schemas[s]? with
    | none => rw [ho] at h; cases h
    | some o =>
      rw [ho] at h
      simp only at h
      cases hi : o.index with
      | none => rw [hi] at h; cases h
      | some i =>
        cases hn : o.id.member with
        | none => rw [hi, hn] at h; cases h
        | some n =>
          rw [hi, hn] at h
          simp only at h
          cases hr : memberKeys w ms with
          | error e => rw [hr] at h; cases h
          | ok ks' =>
            rw [hr] at h
            obtain rfl := Except.ok.inj h
            exact .cons ⟨rfl, o, ho, hi, hn⟩ (ih hr)

theorem collect_members (id : ShapeId) (ms : List (Text × Option (Nat × List (Trait V)))) :
    ∀ (i : Nat) {w w' : World V} {d : Dict Text (Option Nat)}, Ok w → collect id i w ms = (w', .ok d) →
      d.length = ms.length ∧
      ∀ (j : Nat) (k : Text), ms[j]? = some (k, none) ∧ d[j]? = some (k, none) ∨
        (∀ m, ms[j]? ≠ some (k, m)) ∨
        ∃ target traits s o mid, ms[j]? = some (k, some (target, traits)) ∧ d[j]? = some (k, some s) ∧
          w'.schemas[s]? = some o ∧ o.id = mid ∧ id.withMember k = .ok mid ∧
          o.target = some target ∧ o.index = some (i + j) ∧
          ∀ t, w'.traitValue s t = (lastWith traits t).or (w'.traitValue target t) := by
  induction ms with
  | nil =>
    intro i w w' d _ h
    obtain ⟨rfl, h2⟩ := Prod.mk.inj h
    obtain rfl := Except.ok.inj h2
    exact ⟨rfl, fun j k => Or.inr (Or.inl (by simp))⟩
  | cons x ms ih =>
    intro i w w' d hw h
    obtain ⟨k0, m0⟩ := x
    cases m0 with
    | none =>
      simp only [collect] at h
      cases hr : collect id (i + 1) w ms with
      | mk w1 r =>
        rw [hr] at h
        cases r with
        | error e => cases (Prod.mk.inj h).2
        | ok d1 =>
          obtain ⟨rfl, h2⟩ := Prod.mk.inj h
          obtain rfl := Except.ok.inj h2
          obtain ⟨hlen, hrest⟩ := ih (i + 1) hw hr
          refine ⟨by simp [hlen], ?_⟩
          intro j k
          cases j with
          | zero =>
            by_cases hk : k0 = k
            · subst hk; exact Or.inl ⟨rfl, rfl⟩
            · exact Or.inr (Or.inl (by simp [hk]))
          | succ j =>
            simp only [List.getElem?_cons_succ]
            rcases hrest j k with h3 | h3 | ⟨a, b, c, o, e, h3⟩
            · exact Or.inl h3
            · exact Or.inr (Or.inl h3)
            · exact Or.inr (Or.inr ⟨a, b, c, o, e, by
                rw [show i + (j + 1) = i + 1 + j by omega]; exact h3⟩)
    | some p =>
      obtain ⟨target, traits⟩ := p
      simp only [collect] at h
      cases hid : id.withMember k0 with
      | error e => rw [hid] at h; cases (Prod.mk.inj h).2
      | ok mid =>
        rw [hid] at h
        simp only at h
        cases hr0 : member w mid target i traits with
        | mk w1 r0 =>
          rw [hr0] at h
          cases r0 with
          | error e => cases (Prod.mk.inj h).2
          | ok s =>
            simp only at h
            cases hr : collect id (i + 1) w1 ms with
            | mk w2 r =>
              rw [hr] at h
              cases r with
              | error e => cases (Prod.mk.inj h).2
              | ok d1 =>
                obtain ⟨rfl, h2⟩ := Prod.mk.inj h
                obtain rfl := Except.ok.inj h2
                obtain ⟨hok1, hk1⟩ := member_step hw mid target i traits
                obtain ⟨_, hk2⟩ := collect_step id ms (i + 1) w1 (by rw [hr0] at hok1; exact hok1)
                rw [hr0] at hok1 hk1
                rw [hr] at hk2
                obtain ⟨hlen, hrest⟩ := ih (i + 1) hok1 hr
                refine ⟨by simp [hlen], ?_⟩
                intro j k
                cases j with
                | zero =>
                  by_cases hk : k0 = k
                  · subst hk
                    refine Or.inr (Or.inr ?_)
                    unfold member at hr0
                    cases ho : w.schemas[target]? with
                    | none => rw [ho] at hr0; cases (Prod.mk.inj hr0).2
                    | some o =>
                      rw [ho] at hr0
                      cases hmem : mid.member with
                      | none => rw [hmem] at hr0; cases (Prod.mk.inj hr0).2
                      | some name =>
                        rw [hmem] at hr0
                        simp only at hr0
                        cases htg : o.target with
                        | some t => rw [htg] at hr0; cases (Prod.mk.inj hr0).2
                        | none =>
                          rw [htg] at hr0
                          simp only [Option.isSome_none, Bool.false_eq_true, if_false] at hr0
                          obtain ⟨rfl, hm2⟩ := Prod.mk.inj hr0
                          obtain rfl := Except.ok.inj hm2
                          have hl := hw.traits o (List.mem_of_getElem? ho)
                          have hmo : (w.push mid o.type (addTraits ((w.traits[o.traits]?).getD [])
                              traits) o.members (some target) (some i)).1.schemas[w.schemas.length]? =
                              some ⟨mid, o.type, w.traits.length, o.members, some target, some i⟩ := by
                            simp [World.push]
                          refine ⟨target, traits, _, _, mid, rfl, rfl, hk2.schemas hmo, rfl, hid, rfl,
                            rfl, ?_⟩
                          intro t
                          have v1 := keeps_traitValue hok1 hk2 hmo t
                          have v2 := keeps_traitValue hw (hk1.trans hk2) ho t
                          refine v1.trans ?_
                          rw [v2]
                          simp only [World.traitValue, hmo, ho, Option.bind_some,
                            List.getElem?_eq_getElem hl, Option.getD_some, World.push,
                            List.getElem?_append_right (le_refl _), Nat.sub_self,
                            List.getElem?_cons_zero]
                          rw [addTraits, get_update, Option.map_or, lastWith_eq]
                  · exact Or.inr (Or.inl (by simp [hk]))
                | succ j =>
                  simp only [List.getElem?_cons_succ]
                  rcases hrest j k with h3 | h3 | ⟨a, b, c, o, e, h3⟩
                  · exact Or.inl h3
                  · exact Or.inr (Or.inl h3)
                  · exact Or.inr (Or.inr ⟨a, b, c, o, e, by
                      rw [show i + (j + 1) = i + 1 + j by omega]; exact h3⟩)

/-- A collection has its members in the order given; the member at place `j` has this index, the
identifier of the collection with its name, the given target and the traits of that overridden by the
given ones; members left out are there without schema. -/
theorem C38_collection (accepts : Text → V → Bool) {w w1 : World V} (hw : Reachable accepts w)
    (id : ShapeId) (type : Nat) (traits : List (Trait V))
    (members : List (Text × Option (Nat × List (Trait V)))) (s : Nat)
    (h : collection w id type traits members = (w1, .ok s)) :
    ∃ d, w1.membersOf s = some d ∧ d.map Prod.fst = members.map Prod.fst ∧
      (∀ t, w1.traitValue s t = lastWith traits t) ∧
      ∀ (j : Nat) (k : Text) (m : Option (Nat × List (Trait V))), members[j]? = some (k, m) →
        match m with
        | none => d[j]? = some (k, none)
        | some (target, own) => ∃ (a : Nat) (o : SchemaObj) (mid : ShapeId), d[j]? = some (k, some a) ∧ w1.schemas[a]? = some o ∧
          o.id = mid ∧ id.withMember k = .ok mid ∧ o.index = some j ∧ o.target = some target ∧
          ∀ t, w1.traitValue a t = (lastWith own t).or (w1.traitValue target t) := by
  have hok := reachable_ok hw
  obtain ⟨hok1, hk1⟩ := collect_step id members 0 w hok
  unfold collection at h
  cases hr : collect id 0 w members with
  | mk w' r =>
    rw [hr] at h hok1 hk1
    cases r with
    | error e => cases (Prod.mk.inj h).2
    | ok d =>
      simp only at h
      cases hid : id.member with
      | some m => rw [hid] at h; cases (Prod.mk.inj h).2
      | none =>
        rw [hid] at h
        simp only [Option.isSome_none, Bool.false_eq_true, if_false] at h
        obtain ⟨rfl, h2⟩ := Prod.mk.inj h
        obtain rfl := Except.ok.inj h2
        obtain ⟨hok2, hk2⟩ := push_new hok1 d id type traits
        obtain ⟨hlen, hmem⟩ := collect_members id members 0 hok hr
        have hmem2 : ∀ (j : Nat) k m, members[j]? = some (k, m) → ∃ m', d[j]? = some (k, m') := by
          intro j k m hj
          rcases hmem j k with ⟨_, h3⟩ | h3 | ⟨_, _, _, _, _, _, h3, _⟩
          · exact ⟨_, h3⟩
          · exact absurd hj (h3 m)
          · exact ⟨_, h3⟩
        refine ⟨d, ?_, ?_, ?_, ?_⟩
        · simp [World.membersOf, World.push, World.newMembers]
        · apply List.ext_getElem?
          intro j
          rw [List.getElem?_map, List.getElem?_map]
          cases hj : members[j]? with
          | none =>
            have : d[j]? = none := by
              rw [List.getElem?_eq_none_iff] at hj ⊢; omega
            rw [this]
            rfl
          | some x =>
            obtain ⟨k, m⟩ := x
            obtain ⟨m', h3⟩ := hmem2 j k m hj
            rw [h3]
            rfl
        · intro t
          simp only [World.traitValue, World.push, World.newMembers,
            List.getElem?_append_right (le_refl _), Nat.sub_self, List.getElem?_cons_zero,
            Option.bind_some]
          rw [addTraits, get_update, Option.map_or, lastWith_eq]
          simp [Dict.get]
        · intro j k m hj
          cases m with
          | none =>
            rcases hmem j k with ⟨_, h3⟩ | h3 | ⟨_, _, _, _, _, h3, _⟩
            · exact h3
            · exact absurd hj (h3 _)
            · rw [hj] at h3; cases h3
          | some p =>
            obtain ⟨target, own⟩ := p
            rcases hmem j k with ⟨h3, _⟩ | h3 | ⟨target', own', a, o, mid, h3, h4, h5, h6, h7, h8, h9, h10⟩
            · rw [hj] at h3; cases h3
            · exact absurd hj (h3 _)
            · rw [hj] at h3
              cases h3
              refine ⟨a, o, mid, h4, hk2.schemas h5, h6, h7, by simpa using h9, h8, ?_⟩
              intro t
              obtain ⟨o', ho', _⟩ := hok1.target o (List.mem_of_getElem? h5) _ h8
              rw [keeps_traitValue hok1 hk2 h5, keeps_traitValue hok1 hk2 ho']
              exact h10 t

theorem sortKeys_perm {ks ks' : List (Nat × Text × Nat)} (h : ks.Perm ks')
    (hn : (ks.map Prod.fst).Nodup) : sortKeys ks = sortKeys ks' := by
  have p1 := List.perm_insertionSort (fun a b : Nat × Text × Nat => a.1 ≤ b.1) ks
  have p2 := List.perm_insertionSort (fun a b : Nat × Text × Nat => a.1 ≤ b.1) ks'
  haveI : Std.Total (fun a b : Nat × Text × Nat => a.1 ≤ b.1) := ⟨fun a b => le_total _ _⟩
  haveI : IsTrans (Nat × Text × Nat) (fun a b => a.1 ≤ b.1) := ⟨fun a b c h1 h2 => le_trans h1 h2⟩
  have s1 := List.pairwise_insertionSort (fun a b : Nat × Text × Nat => a.1 ≤ b.1) ks
  have s2 := List.pairwise_insertionSort (fun a b : Nat × Text × Nat => a.1 ≤ b.1) ks'
  have pp : (sortKeys ks).Perm (sortKeys ks') := p1.trans (h.trans p2.symm)
  refine List.Perm.eq_of_pairwise ?_ s1 s2 pp
  intro a b ha hb hab hba
  have ha' := p1.mem_iff.1 ha
  have hb' := h.mem_iff.2 (p2.mem_iff.1 hb)
  exact List.inj_on_of_nodup_map hn ha' hb' (le_antisymm hab hba)

theorem memberKeys_perm {w : World V} {ms ms' : List Nat} (h : ms.Perm ms') :
    ∀ {ks}, memberKeys w ms = .ok ks → ∃ ks', memberKeys w ms' = .ok ks' ∧ ks.Perm ks' := by
  induction h with
  | nil => intro ks h; exact ⟨ks, h, .refl _⟩
  | trans _ _ ih1 ih2 =>
    intro ks h
    obtain ⟨k1, h1, p1⟩ := ih1 h
    obtain ⟨k2, h2, p2⟩ := ih2 h1
    exact ⟨k2, h2, p1.trans p2⟩
  | cons s _ ih =>
    intro ks h
    simp only [memberKeys] at h ⊢
    cases ho : w.schemas[s]? with
    | none => rw [ho] at h; cases h
    | some o =>
      rw [ho] at h
      simp only at h ⊢
      cases hi : o.index with
      | none => rw [hi] at h; cases h
      | some i =>
        cases hn : o.id.member with
        | none => rw [hi, hn] at h; cases h
        | some n =>
          rw [hi, hn] at h
          simp only at h ⊢
          rename_i l1 l2 _
          cases hr : memberKeys w l1 with
          | error e => rw [hr] at h; cases h
          | ok ks' =>
            rw [hr] at h
            obtain rfl := Except.ok.inj h
            obtain ⟨k2, h2, p2⟩ := ih hr
            exact ⟨_, by rw [h2], p2.cons _⟩
  | swap a b l =>
    intro ks h
    simp only [memberKeys] at h ⊢
    cases hob : w.schemas[b]? with
    | none => rw [hob] at h; cases h
    | some ob =>
      rw [hob] at h
      simp only at h ⊢
      cases hib : ob.index with
      | none => rw [hib] at h; cases h
      | some ib =>
        cases hnb : ob.id.member with
        | none => rw [hib, hnb] at h; cases h
        | some nb =>
          rw [hib, hnb] at h
          simp only at h ⊢
          cases hoa : w.schemas[a]? with
          | none => rw [hoa] at h; cases h
          | some oa =>
            rw [hoa] at h
            simp only at h ⊢
            cases hia : oa.index with
            | none => rw [hia] at h; cases h
            | some ia =>
              cases hna : oa.id.member with
              | none => rw [hia, hna] at h; cases h
              | some na =>
                rw [hia, hna] at h
                simp only at h ⊢
                cases hr : memberKeys w l with
                | error e => rw [hr] at h; cases h
                | ok ks' =>
                  rw [hr] at h
                  obtain rfl := Except.ok.inj h
                  exact ⟨_, rfl, .swap _ _ _⟩

/-- A schema made from a list of members with different indices has them in the order of their indices,
whatever the order of the list. -/
theorem C38_create_order {w : World V} (id : ShapeId) (type : Nat) (traits : List (Trait V))
    {members members' : List Nat} (h : members.Perm members') (ks : List (Nat × Text × Nat))
    (hk : memberKeys w members = .ok ks) (hn : (ks.map Prod.fst).Nodup) :
    create w id type traits members = create w id type traits members' := by
  obtain ⟨ks', h1, p⟩ := memberKeys_perm h hk
  unfold create
  rw [hk, h1]
  simp only [sortKeys_perm p hn]

/-! ## The hypotheses are met -/

/-- The identifier of a text, for texts that have one. -/
def someId (t : Text) : ShapeId :=
  match parse t with
  | .ok id => id
  | .error _ => ⟨t, [], [], none⟩

def exampleOps : List (SOp Nat) :=
  [.create (someId "a#S".toList) 3 [⟨"t#x".toList, false, 1⟩, ⟨"t#y".toList, false, 2⟩] [],
    .collection (someId "a#C".toList) 20 []
      [("m".toList, some (0, [⟨"t#y".toList, true, 5⟩])), ("self".toList, none)],
    .member (someId "a#C$self".toList) 2 1 []]

/-- A collection that is recursive: its second member is added afterwards and targets it. -/
example : let w := srun (fun _ _ => true) ⟨[], [], []⟩ exampleOps
    w.traitValue 1 "t#x".toList = some 1 ∧ w.traitValue 1 "t#y".toList = some 5 ∧
    w.membersOf 3 = some [("m".toList, some 1), ("self".toList, none)] ∧
    (populate w 2 "self".toList 3).membersOf 3 =
      some [("m".toList, some 1), ("self".toList, some 3)] := by
  decide +kernel

/-- A member whose hypotheses hold. -/
example : (member (srun (fun _ _ => true) ⟨[], [], []⟩ (exampleOps.take 2)) (someId "a#C$self".toList)
    2 1 ([] : List (Trait Nat))).2 = .ok 3 := by
  decide +kernel

end

end Verif.Schemas
