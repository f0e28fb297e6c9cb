import Verif.TypeCodegen.Model

/-!
# C126: a package of types has the types that were selected, and all that they need
-/

set_option autoImplicit false

namespace Verif.TypeCodegen

/-! ## Specification -/

/-- Shapes that classes are made of. -/
def IsType (s : Shape) : Prop := s.kind = .structure_ ∨ s.kind = .union ∨ s.kind = .enum ∨ s.kind = .intEnum

/-- Shapes that there should be a class for, if they are selected. -/
def Wanted (inputsAndOutputs : Bool) (s : Shape) : Prop :=
  IsType s ∧ s.id.space ≠ "smithy.api".toList ∧ s.blocked = false ∧ (inputsAndOutputs = true ∨ s.input = false ∧ s.output = false)

instance (b : Bool) (s : Shape) : Decidable (Wanted b s) := by unfold Wanted IsType; infer_instance

/-- Neither an error, nor an input, nor an output. -/
def Shape.plain (s : Shape) : Bool := !s.error && !s.input && !s.output

/-- What Smithy makes sure of: its namespaces are not used, only structures are errors, and these are neither inputs nor
outputs. -/
def Valid (model : List Shape) : Prop :=
  ∀ s ∈ model, s.id.space ≠ "smithy.synthetic".toList ∧
    (s.error = true → s.kind = .structure_ ∧ s.input = false ∧ s.output = false)

/-- One shape needs another: there is a way from member to member. -/
inductive Needs (shapes : List Shape) : Shape → Shape → Prop
  | self {s : Shape} : Needs shapes s s
  | member {s t u : Shape} : Needs shapes s t → u ∈ shapes → u.id ∈ t.targets → Needs shapes s u

/-! ## Lemmas -/

theorem shouldGenerate_iff (b : Bool) (s : Shape) : shouldGenerate b s = true ↔ Wanted b s := by
  have hp : s.isPrelude = true ↔ s.id.space = "smithy.api".toList := by simp only [Shape.isPrelude, beq_iff_eq]
  rw [shouldGenerate, Wanted, IsType, ne_eq, ← hp]
  cases s.kind <;> cases s.isPrelude <;> cases b <;> cases s.input <;> cases s.output <;> cases s.blocked <;> decide

theorem plain_iff (s : Shape) : s.plain = !(s.error || s.input || s.output) := by
  rw [Shape.plain]
  cases s.error <;> cases s.input <;> cases s.output <;> rfl

def plains (ss : List Shape) : Nat := (ss.filter Shape.plain).length

theorem plains_cons (s : Shape) (ss : List Shape) : plains (s :: ss) = (if s.plain then 1 else 0) + plains ss := by
  rw [plains, plains, List.filter_cons]
  cases s.plain
  · simp
  · simp [Nat.add_comm]

theorem plains_append (a b : List Shape) : plains (a ++ b) = plains a + plains b := by
  rw [plains, plains, plains, List.filter_append, List.length_append]

/-- The operation and the input for one shape. -/
def opOf (index : Nat) (s : Shape) : Op := if s.plain then ⟨index, [.input index]⟩ else ⟨index, [s.id]⟩

def inputOf (index : Nat) (s : Shape) : List Shape :=
  if s.plain then [⟨.input index, .structure_, false, true, false, false, [s.id]⟩] else []

theorem synthesize_cons (k : Nat) (s : Shape) (ss : List Shape) : synthesize k (s :: ss) =
    (opOf k s :: (synthesize (k + if s.plain then 1 else 0) ss).1, inputOf k s ++ (synthesize (k + if s.plain then 1 else 0) ss).2) := by
  rw [synthesize, opOf, inputOf, plain_iff]
  cases s.error || s.input || s.output <;> simp

theorem synthesize_append (a b : List Shape) : ∀ k, synthesize k (a ++ b) =
    ((synthesize k a).1 ++ (synthesize (k + plains a) b).1, (synthesize k a).2 ++ (synthesize (k + plains a) b).2) := by
  induction a with
  | nil => intro k; simp [synthesize, plains]
  | cons s a ih =>
    intro k
    rw [List.cons_append, synthesize_cons, synthesize_cons, ih, plains_cons, Nat.add_assoc]
    simp

theorem opOf_index (k : Nat) (s : Shape) : (opOf k s).index = k := by rw [opOf]; split <;> rfl

theorem synthesize_index (ss : List Shape) : ∀ k, ∀ o ∈ (synthesize k ss).1, k ≤ o.index ∧ o.index ≤ k + plains ss := by
  induction ss with
  | nil => intro k o ho; simp [synthesize] at ho
  | cons s ss ih =>
    intro k o ho
    rw [synthesize_cons] at ho
    rw [plains_cons]
    rcases List.mem_cons.1 ho with rfl | ho
    · rw [opOf_index]; omega
    · have := ih _ o ho
      omega

theorem synthesize_before (ss : List Shape) (h : ∀ x, ss.getLast? = some x → x.plain = true) (k : Nat) :
    ∀ o ∈ (synthesize k ss).1, o.index < k + plains ss := by
  intro o ho
  rcases List.eq_nil_or_concat ss with rfl | ⟨init, x, rfl⟩
  · simp [synthesize] at ho
  · have hx := h x (by simp)
    rw [List.concat_eq_append] at ho ⊢
    rw [synthesize_append] at ho
    rw [plains_append]
    have h1 : plains [x] = 1 := by simp [plains, hx]
    rcases List.mem_append.1 ho with ho | ho
    · have := (synthesize_index init k o ho).2
      omega
    · have := (synthesize_index [x] _ o ho).2
      rw [synthesize_cons] at ho
      simp only [synthesize, List.mem_singleton] at ho
      rw [ho, opOf_index]
      omega

theorem synthesize_shapes (ss : List Shape) : ∀ k, ∀ t ∈ (synthesize k ss).2, ∃ i, ∃ s ∈ ss, t = ⟨.input i, .structure_, false, true, false, false, [s.id]⟩ := by
  induction ss with
  | nil => intro k t ht; simp [synthesize] at ht
  | cons s ss ih =>
    intro k t ht
    rw [synthesize_cons] at ht
    rcases List.mem_append.1 ht with ht | ht
    · rw [inputOf] at ht
      split at ht
      · simp only [List.mem_singleton] at ht
        exact ⟨k, s, List.mem_cons_self, ht⟩
      · cases ht
    · obtain ⟨i, s', h1, h2⟩ := ih _ t ht
      exact ⟨i, s', List.mem_cons_of_mem _ h1, h2⟩

theorem synthesize_ops (ss : List Shape) : ∀ k, ∀ o ∈ (synthesize k ss).1, ∀ id ∈ o.refs,
    (∃ i, id = .input i) ∨ ∃ s ∈ ss, id = s.id := by
  induction ss with
  | nil => intro k o ho; simp [synthesize] at ho
  | cons s ss ih =>
    intro k o ho id hid
    rw [synthesize_cons] at ho
    rcases List.mem_cons.1 ho with rfl | ho
    · rw [opOf] at hid
      split at hid
      · exact .inl ⟨k, by simpa using hid⟩
      · exact .inr ⟨s, List.mem_cons_self, by simpa using hid⟩
    · rcases ih _ o ho id hid with h | ⟨s', h1, h2⟩
      · exact .inl h
      · exact .inr ⟨s', List.mem_cons_of_mem _ h1, h2⟩

/-! ## Theorems -/

/-- C126: a shape that is selected has a class, unless the one before it or itself is an error, an input or an output. -/
theorem C126_selected_partial (sm : Smithy) (b : Bool) {selected model : List Shape} (hv : Valid model)
    (hsel : ∀ s ∈ selected, s ∈ model) {before after : List Shape} {s : Shape}
    (hs : selected.filter (fun s => decide (Wanted b s)) = before ++ s :: after)
    (hbefore : ∀ x, before.getLast? = some x → x.plain = true) (hself : s.plain = true ∨ s.error = true ∧ after = []) :
    Generated (execute sm none b selected model) s := by
  have hf : selected.filter (shouldGenerate b) = selected.filter (fun s => decide (Wanted b s)) := by
    refine List.filter_congr fun x _ => ?_
    rw [Bool.eq_iff_iff, shouldGenerate_iff, decide_eq_true_iff]
  have hmem : s ∈ selected ∧ Wanted b s := by
    have : s ∈ selected.filter (fun s => decide (Wanted b s)) := by rw [hs]; simp
    simpa using this
  have hmodel := hsel s hmem.1
  obtain ⟨hns, herr⟩ := hv s hmodel
  have hkeep : s ∈ model.filter (fun s => !(s.kind == .operation || s.kind == .service)) := by
    rw [List.mem_filter]
    refine ⟨hmodel, ?_⟩
    rcases hmem.2.1 with h | h | h | h <;> rw [h] <;> rfl
  have hclass : hasClass s = true := by
    rw [hasClass]
    have hno : s.error = true ∨ s.input = false ∧ s.output = false := by
      rcases hself with h | ⟨h, -⟩
      · rw [plain_iff] at h
        cases h1 : s.input <;> cases h2 : s.output <;> simp_all
      · exact .inl h
    have hst : s.error = true ∨ shouldGenerateStructure s = true := by
      rcases hno with h | ⟨h1, h2⟩
      · exact .inl h
      · right
        rw [shouldGenerateStructure, if_neg (by simpa using hns), h1, h2]
        decide
    rcases hmem.2.1 with h | h | h | h <;> rw [h]
    simpa using hst
  refine ⟨?_, hclass⟩
  rw [execute, transform, hf, hs]
  generalize hr : synthesize 0 (before ++ s :: after) = r
  have hr' := hr
  rw [synthesize_append, synthesize_cons] at hr
  have hops : r.1 = (synthesize 0 before).1 ++ opOf (0 + plains before) s ::
      (synthesize (0 + plains before + if s.plain then 1 else 0) after).1 := by rw [← hr]
  have hins : r.2 = (synthesize 0 before).2 ++ (inputOf (0 + plains before) s ++
      (synthesize (0 + plains before + if s.plain then 1 else 0) after).2) := by rw [← hr]
  have hone : (r.1.filter fun p => p.index == (opOf (0 + plains before) s).index) = [opOf (0 + plains before) s] := by
    rw [hops, List.filter_append, List.filter_cons_of_pos (by simp)]
    have h1 : (synthesize 0 before).1.filter (fun p => p.index == (opOf (0 + plains before) s).index) = [] := by
      rw [List.filter_eq_nil_iff]
      intro o ho
      have := synthesize_before before hbefore 0 o ho
      rw [opOf_index]
      simp
      omega
    have h2 : (synthesize (0 + plains before + if s.plain then 1 else 0) after).1.filter
        (fun p => p.index == (opOf (0 + plains before) s).index) = [] := by
      rw [List.filter_eq_nil_iff]
      intro o ho
      rcases hself with h | ⟨-, rfl⟩
      · have := (synthesize_index after _ o ho).1
        rw [opOf_index]
        rw [if_pos h] at this
        simp
        omega
      · simp [synthesize] at ho
    rw [h1, h2]
    rfl
  have hpick : sm.pick [opOf (0 + plains before) s] = some (opOf (0 + plains before) s) := by
    obtain ⟨o, ho⟩ := sm.pick_some [opOf (0 + plains before) s] (by simp)
    have := sm.pick_mem _ _ ho
    simp only [List.mem_singleton] at this
    rw [ho, this]
  have hroot : ∀ id ∈ (opOf (0 + plains before) s).refs, id ∈ (r.1.flatMap fun o =>
      match sm.pick (r.1.filter fun p => p.index == o.index) with
      | some p => p.refs
      | none => []) := by
    intro id hid
    rw [List.mem_flatMap]
    refine ⟨opOf (0 + plains before) s, by rw [hops]; simp, ?_⟩
    rw [hone, hpick]
    exact hid
  by_cases hp : s.plain = true
  · have hin : (⟨.input (0 + plains before), .structure_, false, true, false, false, [s.id]⟩ : Shape) ∈ r.2 := by
      rw [hins, inputOf, if_pos hp]
      simp
    refine .member (s := ⟨.input (0 + plains before), .structure_, false, true, false, false, [s.id]⟩)
      (.root (List.mem_append_right _ hin) (hroot _ ?_)) (List.mem_append_left _ hkeep) (by simp)
    rw [opOf, if_pos hp]
    simp
  · refine .root (List.mem_append_left _ hkeep) (hroot _ ?_)
    rw [opOf, if_neg hp]
    simp

/-- C126: without errors, inputs and outputs among them, all that are selected have classes. -/
theorem C126_plain_partial (sm : Smithy) (b : Bool) {selected model : List Shape} (hv : Valid model)
    (hsel : ∀ s ∈ selected, s ∈ model) (hplain : ∀ s ∈ selected, Wanted b s → s.plain = true) {s : Shape} (hs : s ∈ selected)
    (hw : Wanted b s) : Generated (execute sm none b selected model) s := by
  have hm : s ∈ selected.filter (fun s => decide (Wanted b s)) := by simpa using ⟨hs, hw⟩
  obtain ⟨before, after, he⟩ := List.append_of_mem hm
  refine C126_selected_partial sm b hv hsel he ?_ (.inl (hplain s hs hw))
  intro x hx
  have : x ∈ selected.filter (fun s => decide (Wanted b s)) := by
    rw [he]
    exact List.mem_append_left _ (List.mem_of_getLast? hx)
  simp only [List.mem_filter, decide_eq_true_eq] at this
  exact hplain x this.1 this.2

/-- C126: there are no classes but of shapes that are selected, or that one of these needs. -/
theorem C126_only (sm : Smithy) (b : Bool) {selected model : List Shape} (hv : Valid model)
    (hu : ∀ s ∈ model, ∀ t ∈ model, s.id = t.id → s = t) (hsel : ∀ s ∈ selected, s ∈ model)
    {s : Shape} (h : Generated (execute sm none b selected model) s) :
    s ∈ model ∧ ∃ r ∈ selected, Wanted b r ∧ Needs model r s := by
  obtain ⟨hc, hcls⟩ := h
  have key : ∀ s, Connected (execute sm none b selected model) s →
      (s ∈ model ∧ ∃ r ∈ selected, Wanted b r ∧ Needs model r s) ∨
      ∃ i, ∃ r ∈ selected, Wanted b r ∧ s = ⟨.input i, .structure_, false, true, false, false, [r.id]⟩ := by
    have hsyn : ∀ s ∈ (execute sm none b selected model).shapes, s ∈ model ∨
        ∃ i, ∃ r ∈ selected, Wanted b r ∧ s = ⟨.input i, .structure_, false, true, false, false, [r.id]⟩ := by
      intro s hs
      rcases List.mem_append.1 hs with hs | hs
      · exact .inl (List.mem_filter.1 hs).1
      · obtain ⟨i, r, hr, e⟩ := synthesize_shapes _ _ s hs
        rw [List.mem_filter] at hr
        exact .inr ⟨i, r, hr.1, (shouldGenerate_iff b r).1 hr.2, e⟩
    have hid : ∀ r ∈ model, ∀ i, r.id ≠ .input i := by
      intro r hr i he
      exact (hv r hr).1 (by rw [he]; rfl)
    intro s h
    induction h with
    | @root s hs hr =>
      rcases hsyn s hs with hm | h
      · left
        refine ⟨hm, ?_⟩
        obtain ⟨o, ho, hid'⟩ := List.mem_flatMap.1 hr
        split at hid'
        · rename_i p hp
          have hp := (List.mem_filter.1 (sm.pick_mem _ _ hp)).1
          rcases synthesize_ops _ _ p hp _ hid' with ⟨i, h⟩ | ⟨r, hr, h⟩
          · exact absurd h (hid s hm i)
          · rw [List.mem_filter] at hr
            have : s = r := hu s hm r (hsel r hr.1) h
            subst this
            exact ⟨s, hr.1, (shouldGenerate_iff b s).1 hr.2, .self⟩
        · cases hid'
      · exact .inr h
    | @member s t hs ht hst ih =>
      rcases hsyn t ht with hm | h
      · left
        refine ⟨hm, ?_⟩
        rcases ih with ⟨-, r, hr, hw, hn⟩ | ⟨i, r, hr, hw, rfl⟩
        · exact ⟨r, hr, hw, .member hn hm hst⟩
        · simp only [List.mem_singleton] at hst
          have : t = r := hu t hm r (hsel r hr) hst
          subst this
          exact ⟨t, hr, hw, .self⟩
      · exact .inr h
  rcases key s hc with h | ⟨i, r, -, -, rfl⟩
  · exact h
  · exfalso
    rw [hasClass, shouldGenerateStructure, if_pos (by rw [beq_iff_eq]; rfl)] at hcls
    cases hcls

/-- C126: what a class needs has a class too, if it is not an input or output: whether or not a service is given. -/
theorem C126_closed {sm : Smithy} {service : Option (List Id)} {b : Bool} {selected model : List Shape} (hv : Valid model)
    {s t : Shape} (h : Generated (execute sm service b selected model) s) (ht : t ∈ model)
    (hn : Needs (model.filter fun s => !(s.kind == .operation || s.kind == .service)) s t) (hi : IsType t)
    (hio : t.input = false ∧ t.output = false) : Generated (execute sm service b selected model) t := by
  have hsub : ∀ u ∈ model.filter (fun s => !(s.kind == .operation || s.kind == .service)),
      u ∈ (execute sm service b selected model).shapes := by
    intro u hu
    cases service with
    | some roots => exact (List.mem_filter.1 hu).1
    | none => exact List.mem_append_left _ hu
  refine ⟨?_, ?_⟩
  · clear hi hio ht
    induction hn with
    | self => exact h.1
    | member _ hu hut ih => exact .member ih (hsub _ hu) hut
  · have hst : shouldGenerateStructure t = true := by
      rw [shouldGenerateStructure, if_neg (by simpa using (hv t ht).1), hio.1, hio.2]
      decide
    rw [hasClass]
    rcases hi with h | h | h | h <;> rw [h]
    simp [hst]

/-- C126: every class has its schema. -/
theorem C126_schema {model : List Shape} (hv : Valid model) {s : Shape} (hm : s ∈ model)
    (hp : s.id.space ≠ "smithy.api".toList) (h : hasClass s = true) : hasSchema s = true := by
  have hp : s.isPrelude = false := by simpa [Shape.isPrelude] using hp
  obtain ⟨hns, herr⟩ := hv s hm
  rw [hasSchema, hp]
  rw [hasClass] at h
  cases hk : s.kind <;> rw [hk] at h <;> try (first | rfl | cases h)
  simp only [Bool.or_eq_true] at h
  rcases h with h | h
  · obtain ⟨-, h1, h2⟩ := herr h
    simp only [Bool.not_false, Bool.true_and]
    rw [shouldGenerateStructure, if_neg (by simpa using hns), h1, h2]
    decide
  · simpa using h

/-! ## What does not hold -/

def shapeOf (name : Text) (error input : Bool) : Shape :=
  ⟨.named "com.example".toList name, .structure_, error, input, false, false, []⟩

def notFound : Shape := shapeOf "NotFound".toList true false
def denied : Shape := shapeOf "Denied".toList true false

/-- C126: of two errors one has no class, whichever Smithy keeps. -/
theorem C126_errors_fails : Wanted false notFound ∧ Wanted false denied ∧ Valid [notFound, denied] ∧
    ∀ (sm : Smithy) (b : Bool), ¬ (Generated (execute sm none b [notFound, denied] [notFound, denied]) notFound ∧
      Generated (execute sm none b [notFound, denied] [notFound, denied]) denied) := by
  refine ⟨by decide +kernel, by decide +kernel, ?_, ?_⟩
  · intro s hs
    simp only [List.mem_cons, List.not_mem_nil, or_false] at hs
    rcases hs with rfl | rfl <;> refine ⟨by decide +kernel, by decide +kernel⟩
  · rintro sm b ⟨⟨h1, -⟩, ⟨h2, -⟩⟩
    have hf : [notFound, denied].filter (shouldGenerate b) = [notFound, denied] := by
      cases b <;> decide +kernel
    have hops : synthesize 0 [notFound, denied] = ([⟨0, [notFound.id]⟩, ⟨0, [denied.id]⟩], []) := by decide +kernel
    obtain ⟨o, ho⟩ := sm.pick_some [⟨0, [notFound.id]⟩, ⟨0, [denied.id]⟩] (by simp)
    have hroots : (execute sm none b [notFound, denied] [notFound, denied]).roots = o.refs ++ o.refs := by
      rw [execute, transform, hf, hops]
      simp [ho]
    have hshapes : (execute sm none b [notFound, denied] [notFound, denied]).shapes = [notFound, denied] := by
      rw [execute, transform, hf, hops]
      show [notFound, denied].filter _ ++ [] = _
      decide +kernel
    have key : ∀ s, Connected (execute sm none b [notFound, denied] [notFound, denied]) s → s.id ∈ o.refs := by
      intro s h
      cases h with
      | root hs hr =>
        rw [hroots] at hr
        simpa using hr
      | @member t _ ht hs hst =>
        have : t ∈ [notFound, denied] := by
          rw [← hshapes]
          cases ht with
          | root h => exact h
          | member _ h => exact h
        simp only [List.mem_cons, List.not_mem_nil, or_false] at this
        rcases this with rfl | rfl <;> cases hst
    have k1 := key _ h1
    have k2 := key _ h2
    have := sm.pick_mem _ _ ho
    simp only [List.mem_cons, List.not_mem_nil, or_false] at this
    rcases this with rfl | rfl
    · simp only [List.mem_singleton] at k2
      exact absurd k2 (by decide +kernel)
    · simp only [List.mem_singleton] at k1
      exact absurd k1 (by decide +kernel)

/-- C126: inputs and outputs never have classes, also if they are asked for. -/
theorem C126_inputs_fails : (∃ s : Shape, s.input = true ∧ Wanted true s) ∧
    ∀ (sm : Smithy) (service : Option (List Id)) (b : Bool) (selected model : List Shape) (s : Shape), Valid model → s ∈ model →
      s.kind = .structure_ → s.input = true ∨ s.output = true → ¬ Generated (execute sm service b selected model) s := by
  refine ⟨⟨shapeOf "In".toList false true, rfl, by decide +kernel⟩, ?_⟩
  intro sm service b selected model s hv hm hk hio h
  have h := h.2
  have he : s.error = false := by
    cases he : s.error with
    | false => rfl
    | true =>
      obtain ⟨-, h1, h2⟩ := (hv s hm).2 he
      simp [h1, h2] at hio
  rw [hasClass, hk] at h
  simp only [he, Bool.false_or] at h
  rw [shouldGenerateStructure, if_neg (by simpa using (hv s hm).1)] at h
  rcases hio with hio | hio <;> simp [artifactType, hio] at h

/-! ## Examples -/

/-- Smithy keeps the last. -/
def keepsLast : Smithy where
  pick l := l.getLast?
  pick_mem _ _ h := List.mem_of_getLast? h
  pick_some l h := ⟨l.getLast h, List.getLast?_eq_some_getLast h⟩

def color : Shape := ⟨.named "com.example".toList "Color".toList, .enum, false, false, false, false, []⟩
def colors : Shape := ⟨.named "com.example".toList "Colors".toList, .other, false, false, false, false, [color.id]⟩
def paint : Shape := ⟨.named "com.example".toList "Paint".toList, .structure_, false, false, false, false, [colors.id]⟩

theorem example_valid : Valid [color, colors, paint, denied] := by
  intro s hs
  simp only [List.mem_cons, List.not_mem_nil, or_false] at hs
  rcases hs with rfl | rfl | rfl | rfl <;> refine ⟨by decide +kernel, by decide +kernel⟩

/-- A structure is selected and gets a class, and so does the error at the end; the enum in the list of the structure has one as
the structure needs it. -/
theorem example_paint : Generated (execute keepsLast none false [paint, denied] [color, colors, paint, denied]) paint :=
  C126_selected_partial keepsLast false example_valid (by decide +kernel) (before := []) (after := [denied]) (by decide +kernel)
    (fun x hx => by cases hx) (.inl (by decide +kernel))

example : Generated (execute keepsLast none false [paint, denied] [color, colors, paint, denied]) denied :=
  C126_selected_partial keepsLast false example_valid (by decide +kernel) (before := [paint]) (after := []) (by decide +kernel)
    (fun x hx => by cases hx; decide +kernel) (.inr ⟨rfl, rfl⟩)

theorem example_color : Generated (execute keepsLast none false [paint, denied] [color, colors, paint, denied]) color :=
  C126_closed example_valid example_paint (by decide +kernel)
    (.member (.member .self (by decide +kernel : colors ∈ _) (by decide +kernel)) (by decide +kernel) (by decide +kernel))
    (by unfold IsType; decide +kernel) ⟨rfl, rfl⟩

example : ∃ r ∈ [paint, denied], Wanted false r ∧ Needs [color, colors, paint, denied] r color :=
  (C126_only keepsLast false example_valid (by decide +kernel) (by decide +kernel) example_color).2

example : hasSchema color = true := C126_schema example_valid (by decide +kernel) (by decide +kernel) rfl

example : Generated (execute keepsLast none false [paint] [color, colors, paint, denied]) paint :=
  C126_plain_partial keepsLast false example_valid (by decide +kernel) (by decide +kernel) (by decide +kernel) (by decide +kernel)

end Verif.TypeCodegen
