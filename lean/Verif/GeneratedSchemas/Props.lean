import Verif.GeneratedSchemas.Lemmas

/-!
# The schemas of a generated client: theorems
-/

set_option autoImplicit false

namespace Verif.GeneratedSchemas

open Verif.Dict

variable {nm : String → String} {m : List Shape}

/-- **C106.**  For every model, with shapes in any order and targets that may come later or lead back
in circles, and whatever the order in which the members that were put aside are written: the module
of schemas can be imported, and then it has a schema for every shape that says what the model
does. -/
theorem C106_schemas (hv : Valid nm m) (order : List Deferred)
    (ho : ∀ d, d ∈ order ↔ d ∈ (writeAll nm [] m).2) :
    ∃ st, load nm m order = some st ∧ ∀ s ∈ m, Described nm m st s := by
  obtain ⟨st₁, h₁, inv₁⟩ := run_writeAll hv m [] [] start (by simp) (inv_start nm m)
  rw [List.append_nil, List.nil_append] at inv₁
  obtain ⟨st₂, h₂, inv₂⟩ := run_finalize hv order (done := m.reverse) (by simp) (by simp)
    (fun d hd => mem_writeAll nm m [] d ((ho d).mp hd)) inv₁
  refine ⟨st₂, ?_, ?_⟩
  · unfold load
    rw [run_append]
    simp only [List.map_nil] at h₁
    rw [h₁]
    exact h₂
  · intro s hs
    obtain ⟨a, o, d, g₁, g₂, g₃, g₄, g₅, g₆, g₇, g₈, g₉, g₁₀, g₁₁⟩ :=
      inv₂.shapes s (List.mem_reverse.mpr hs)
    refine ⟨a, o, d, g₁, g₂, g₃, g₄, g₅, g₆, g₇, g₈, g₉, g₁₀, ?_⟩
    intro i x hx
    rcases g₁₁ i x hx with ⟨_, k⟩ | k
    · rw [List.mem_filter] at k
      simp only [List.map_nil, decide_not, Bool.not_eq_true', decide_eq_false_iff_not, ho] at k
      exact absurd k.1 k.2
    · exact k

/-- The schema of a shape's member, by its name. -/
theorem follow_step {st : State} {s : Shape} (hv : Valid nm m) (hs : s ∈ m)
    {o : Schema} {d : List (String × Option Nat)} (hd : st.dicts[o.members]? = some d)
    (hk : d.map (·.1) = s.members.map (·.name))
    (hm : ∀ (i : Nat) (x : Member), s.members[i]? = some x → ∃ b c, d[i]? = some (x.name, some b) ∧
      st.objs[b]? = some c ∧ MemberDescribed nm m st s x i c)
    {n : String} {x : Member} (hx : s.members.find? (·.name = n) = some x) :
    ∃ i c, s.members[i]? = some x ∧ x.name = n ∧ MemberDescribed nm m st s x i c ∧
      ∀ ns, follow st o (n :: ns) = follow st c ns := by
  have hmem := List.mem_of_find?_eq_some hx
  have hn : x.name = n := by simpa using List.find?_some hx
  obtain ⟨i, hi⟩ := List.getElem?_of_mem hmem
  obtain ⟨b, c, h₁, h₂, h₃⟩ := hm i x hi
  refine ⟨i, c, hi, hn, h₃, ?_⟩
  intro ns
  have hl : d.lookup n = some (some b) := by
    apply lookup_of_nodup
    · rw [hk]
      exact hv.members s hs
    · rw [← hn]
      exact List.mem_of_getElem? h₁
  simp [follow, hd, hl, h₂]

/-- **C106.**  Following names of members from the schema of a shape, however far and through
whatever circles, gives the schema of the member the model has there. -/
theorem C106_paths (hv : Valid nm m) (order : List Deferred)
    (ho : ∀ d, d ∈ order ↔ d ∈ (writeAll nm [] m).2) {st : State}
    (hl : load nm m order = some st) (path : List String) : ∀ {s : Shape}, s ∈ m →
    ∀ {a : Nat} {o : Schema}, st.find (.schema (nm s.id)) = some a → st.objs[a]? = some o →
    ∀ {s' : Shape} {x : Member}, memberAt m s path = some (s', x) →
    ∃ i c, follow st o path = some c ∧ s'.members[i]? = some x ∧
      MemberDescribed nm m st s' x i c := by
  obtain ⟨st', hl', hall⟩ := C106_schemas hv order ho
  rw [hl] at hl'
  have : st = st' := Option.some.inj hl'
  subst this
  -- what holds of any schema with the members of a shape's schema
  have key : ∀ (path : List String) (s : Shape), s ∈ m → ∀ (o p : Schema) (a : Nat),
      st.find (.schema (nm s.id)) = some a → st.objs[a]? = some p → o.members = p.members →
      ∀ (s' : Shape) (x : Member), memberAt m s path = some (s', x) →
      ∃ i c, follow st o path = some c ∧ s'.members[i]? = some x ∧
        MemberDescribed nm m st s' x i c := by
    intro path
    induction path with
    | nil => intro s _ o p a _ _ _ s' x h; simp [memberAt] at h
    | cons n ns ih =>
      intro s hs o p a hf ho hop s' x h
      obtain ⟨a', o', d, g₁, g₂, _, _, _, _, _, _, g₉, g₁₀, g₁₁⟩ := hall s hs
      rw [hf] at g₁
      have : a = a' := Option.some.inj g₁
      subst this
      rw [ho] at g₂
      have : p = o' := Option.some.inj g₂
      subst this
      rw [← hop] at g₉
      cases ns with
      | nil =>
        simp only [memberAt, Option.map_eq_some_iff] at h
        obtain ⟨y, hy, he⟩ := h
        simp only [Prod.mk.injEq] at he
        obtain ⟨rfl, rfl⟩ := he
        obtain ⟨i, c, h₁, _, h₃, h₄⟩ := follow_step hv hs g₉ g₁₀ g₁₁ hy
        exact ⟨i, c, by rw [h₄]; rfl, h₁, h₃⟩
      | cons n' ns =>
        simp only [memberAt, Option.bind_eq_some_iff] at h
        obtain ⟨y, hy, t, ht, h⟩ := h
        obtain ⟨i, c, h₁, _, h₃, h₄⟩ := follow_step hv hs g₉ g₁₀ g₁₁ hy
        rw [h₄]
        have htm := List.mem_of_find?_eq_some ht
        have htid : t.id = y.target := by simpa using List.find?_some ht
        obtain ⟨b, tt, k₁, k₂, k₃, k₄⟩ := h₃.target
        have href : ref nm y.target = .schema (nm t.id) := by
          rw [← htid]
          simp [ref, hv.ownShapes t htm]
        rw [href] at k₁
        exact ih t htm c tt b k₁ k₂ k₄ s' x h
  intro s hs a o hf hobj s' x h
  exact key path s hs o o a hf hobj rfl s' x h

/-- **C107.**  Looking up a trait by its class gives what the model has, for every class but three. -/
theorem C107_trait_classes_partial (hv : Valid nm m) (order : List Deferred)
    (ho : ∀ d, d ∈ order ↔ d ∈ (writeAll nm [] m).2) {cls id : String}
    (hc : (cls, id) ∈ smithyTraits)
    (hne : cls ≠ "DefaultTrait" ∧ cls ≠ "UnitTypeTrait" ∧ cls ≠ "IdempotencyTokenTrait") :
    ∃ st, load nm m order = some st ∧ ∀ s ∈ m,
      (∃ a o, st.find (.schema (nm s.id)) = some a ∧ st.objs[a]? = some o ∧
        getTrait o cls = own s.traits id) ∧
      ∀ n x, s.members.find? (·.name = n) = some x → ∃ a o c,
        st.find (.schema (nm s.id)) = some a ∧ st.objs[a]? = some o ∧
        follow st o [n] = some c ∧
        getTrait c cls = (own x.traits id).or (inherited m x.target id) := by
  have hcls : traitClasses.lookup cls = some id ∧ id ≠ "smithy.api#default" ∧
      id ≠ "smithy.appi#default" ∧ id ≠ "smithy.api#unitType" ∧
      id ≠ "smithy.api#UnitTypeTrait" := by
    have : ∀ p ∈ smithyTraits, p.1 ≠ "DefaultTrait" ∧ p.1 ≠ "UnitTypeTrait" ∧
        p.1 ≠ "IdempotencyTokenTrait" → traitClasses.lookup p.1 = some p.2 ∧
        p.2 ≠ "smithy.api#default" ∧ p.2 ≠ "smithy.appi#default" ∧ p.2 ≠ "smithy.api#unitType" ∧
        p.2 ≠ "smithy.api#UnitTypeTrait" := by decide +kernel
    exact this (cls, id) hc hne
  obtain ⟨hlk, hid⟩ := hcls
  obtain ⟨st, hl, hall⟩ := C106_schemas hv order ho
  refine ⟨st, hl, ?_⟩
  intro s hs
  obtain ⟨a, o, d, g₁, g₂, _, _, _, _, _, g₈, g₉, g₁₀, g₁₁⟩ := hall s hs
  refine ⟨⟨a, o, g₁, g₂, by simp only [getTrait, hlk, g₈]⟩, ?_⟩
  intro n x hx
  obtain ⟨i, c, h₁, _, h₃, h₄⟩ := follow_step hv hs g₉ g₁₀ g₁₁ hx
  refine ⟨a, o, c, g₁, g₂, by rw [h₄]; rfl, ?_⟩
  simp only [getTrait, hlk]
  apply h₃.traits
  rintro _ ⟨_, h | h | h | h⟩
  · exact hid.1 h
  · exact hid.2.1 h
  · exact hid.2.2.1 h
  · exact hid.2.2.2 h

/-- Whether a member streams: it or its target has the trait. -/
def Streams (m : List Shape) (x : Member) : Prop :=
  ((own x.traits "smithy.api#streaming").or
    (inherited m x.target "smithy.api#streaming")).isSome = true

/-- **C107.**  The stream of an operation is the first member of its input or output that streams;
there is none if none of them does. -/
theorem C107_stream (hv : Valid nm m) (order : List Deferred)
    (ho : ∀ d, d ∈ order ↔ d ∈ (writeAll nm [] m).2) :
    ∃ st, load nm m order = some st ∧ ∀ s ∈ m, ∃ a o,
      st.find (.schema (nm s.id)) = some a ∧ st.objs[a]? = some o ∧
      ((∀ x ∈ s.members, ¬ Streams m x) → streamMember st o = none) ∧
      ∀ (i : Nat) (x : Member), s.members[i]? = some x → Streams m x →
        (∀ (j : Nat) (y : Member), j < i → s.members[j]? = some y → ¬ Streams m y) →
        ∃ c, streamMember st o = some c ∧ MemberDescribed nm m st s x i c := by
  obtain ⟨st, hl, hall⟩ := C106_schemas hv order ho
  refine ⟨st, hl, ?_⟩
  intro s hs
  obtain ⟨a, o, d, g₁, g₂, _, _, _, _, _, _, g₉, g₁₀, g₁₁⟩ := hall s hs
  refine ⟨a, o, g₁, g₂, ?_⟩
  have hkey : ∀ (x : Member) (i : Nat) (c : Schema), MemberDescribed nm m st s x i c →
      ((getTrait c "StreamingTrait").isSome = true ↔ Streams m x) := by
    intro x i c hc
    have h₁ : getTrait c "StreamingTrait" = c.traits.lookup "smithy.api#streaming" := by
      have : traitClasses.lookup "StreamingTrait" = some "smithy.api#streaming" := by
        decide +kernel
      simp only [getTrait, this]
    rw [h₁, hc.traits, Streams]
    rintro _ ⟨_, h | h | h | h⟩ <;> exact absurd h (by decide +kernel)
  -- the members, in order
  have hlist : ∀ (xs : List Member) (k : Nat) (d : List (String × Option Nat)),
      d.map (·.1) = xs.map (·.name) →
      (∀ (i : Nat) (x : Member), xs[i]? = some x → ∃ b c, d[i]? = some (x.name, some b) ∧
        st.objs[b]? = some c ∧ MemberDescribed nm m st s x (k + i) c) →
      let found := (d.filterMap fun p => p.2.bind fun a => st.objs[a]?).find?
        fun x => (getTrait x "StreamingTrait").isSome
      ((∀ x ∈ xs, ¬ Streams m x) → found = none) ∧
      ∀ (i : Nat) (x : Member), xs[i]? = some x → Streams m x →
        (∀ (j : Nat) (y : Member), j < i → xs[j]? = some y → ¬ Streams m y) →
        ∃ c, found = some c ∧ MemberDescribed nm m st s x (k + i) c := by
    intro xs
    induction xs with
    | nil =>
      intro k d hd _
      have : d = [] := by simpa using hd
      subst this
      exact ⟨fun _ => rfl, by simp⟩
    | cons x xs ih =>
      intro k d hd hm
      cases d with
      | nil => simp at hd
      | cons p d =>
        simp only [List.map_cons, List.cons.injEq] at hd
        obtain ⟨b, c, h₁, h₂, h₃⟩ := hm 0 x rfl
        simp only [List.getElem?_cons_zero, Option.some.injEq] at h₁
        subst h₁
        have hi := ih (k + 1) d hd.2 (by
          intro i y hy
          obtain ⟨b, c, h₁, h₂, h₃⟩ := hm (i + 1) y hy
          exact ⟨b, c, h₁, h₂, by rw [show k + 1 + i = k + (i + 1) by omega]; exact h₃⟩)
        have hf : ((x.name, some b) :: d).filterMap (fun p => p.2.bind fun a => st.objs[a]?) =
            c :: d.filterMap fun p => p.2.bind fun a => st.objs[a]? := by
          simp [h₂]
        simp only [hf, List.find?_cons]
        by_cases hst : Streams m x
        · have := (hkey x _ c h₃).mpr hst
          simp only [this]
          refine ⟨fun h => absurd hst (h x List.mem_cons_self), ?_⟩
          intro i y hy hsy hfirst
          cases i with
          | zero =>
            simp only [List.getElem?_cons_zero, Option.some.injEq] at hy
            subst hy
            exact ⟨c, rfl, h₃⟩
          | succ i => exact absurd hst (hfirst 0 x (by omega) rfl)
        · have : (getTrait c "StreamingTrait").isSome = false := by
            rw [Bool.eq_false_iff]
            exact fun h => hst ((hkey x _ c h₃).mp h)
          simp only [this]
          refine ⟨fun h => hi.1 fun y hy => h y (List.mem_cons_of_mem _ hy), ?_⟩
          intro i y hy hsy hfirst
          cases i with
          | zero =>
            simp only [List.getElem?_cons_zero, Option.some.injEq] at hy
            subst hy
            exact absurd hsy hst
          | succ i =>
            obtain ⟨c', k₁, k₂⟩ := hi.2 i y hy hsy (fun j z hj hz => hfirst (j + 1) z (by omega) hz)
            exact ⟨c', k₁, by rw [show k + (i + 1) = k + 1 + i by omega]; exact k₂⟩
  have := hlist s.members 0 d g₁₀ (by simpa using g₁₁)
  simp only [Nat.zero_add] at this
  simp only [streamMember, State.membersOf, g₉]
  exact this

/-- **C107.**  A schema is that of an operation that polls if and only if the operation has the trait
in the model. -/
theorem C107_long_polling (hv : Valid nm m) (order : List Deferred)
    (ho : ∀ d, d ∈ order ↔ d ∈ (writeAll nm [] m).2) :
    ∃ st, load nm m order = some st ∧ ∀ s ∈ m, ∃ a o,
      st.find (.schema (nm s.id)) = some a ∧ st.objs[a]? = some o ∧
      longPolling o = (own s.traits "smithy.api#longPoll").isSome := by
  obtain ⟨st, hl, hall⟩ := C107_trait_classes_partial hv order ho (cls := "LongPollTrait")
    (id := "smithy.api#longPoll") (by decide +kernel) (by decide +kernel)
  refine ⟨st, hl, fun s hs => ?_⟩
  obtain ⟨⟨a, o, h1, h2, h3⟩, -⟩ := hall s hs
  exact ⟨a, o, h1, h2, by rw [longPolling, h3]⟩

/-- **C107.**  No idempotency token is ever found in a model in which no trait has the ID that the
class is declared with, which is not that of Smithy's trait (see `C107_idempotency_fails`). -/
theorem C107_idempotency_never (hv : Valid nm m) (order : List Deferred)
    (ho : ∀ d, d ∈ order ↔ d ∈ (writeAll nm [] m).2)
    (hno : ∀ s ∈ m, s.traits.lookup "smithy.api#IdempotencyToken" = none ∧
      ∀ x ∈ s.members, x.traits.lookup "smithy.api#IdempotencyToken" = none) :
    ∃ st, load nm m order = some st ∧ ∀ s ∈ m, ∃ a o,
      st.find (.schema (nm s.id)) = some a ∧ st.objs[a]? = some o ∧
      idempotencyTokenMember st o = none := by
  obtain ⟨st, hl, hall⟩ := C106_schemas hv order ho
  refine ⟨st, hl, ?_⟩
  intro s hs
  obtain ⟨a, o, d, g₁, g₂, _, _, _, _, _, _, g₉, g₁₀, g₁₁⟩ := hall s hs
  refine ⟨a, o, g₁, g₂, ?_⟩
  simp only [idempotencyTokenMember, State.membersOf, g₉]
  rw [List.find?_eq_none]
  intro c hc
  rw [List.mem_filterMap] at hc
  obtain ⟨p, hp, hb⟩ := hc
  obtain ⟨i, hi⟩ := List.getElem?_of_mem hp
  have hlen : i < s.members.length := by
    have h₁ := (List.getElem?_eq_some_iff.mp hi).1
    have h₂ : d.length = s.members.length := by simpa using congrArg List.length g₁₀
    omega
  obtain ⟨b, c', h₁, h₂, h₃⟩ := g₁₁ i s.members[i] (List.getElem?_eq_getElem hlen)
  have hx : s.members[i] ∈ s.members := List.getElem_mem hlen
  rw [hi] at h₁
  have : p = _ := Option.some.inj h₁
  subst this
  simp only [Option.bind_some, h₂, Option.some.injEq] at hb
  subst hb
  have htr := h₃.traits "smithy.api#IdempotencyToken" (by
    rintro _ ⟨_, h | h | h | h⟩ <;> exact absurd h (by decide +kernel))
  have ho₁ : own s.members[i].traits "smithy.api#IdempotencyToken" = none := by
    simp only [own, (hno s hs).2 _ hx, Option.map_none, ite_self]
  have ho₂ : inherited m s.members[i].target "smithy.api#IdempotencyToken" = none := by
    unfold inherited
    split
    · rfl
    · cases hf : m.find? (·.id = s.members[i].target) with
      | none => rfl
      | some t =>
        have ht := List.mem_of_find?_eq_some hf
        simp only [Option.bind_some, own, (hno t ht).1, Option.map_none, ite_self]
  have hcl : traitClasses.lookup "IdempotencyTokenTrait" = some "smithy.api#IdempotencyToken" := by
    decide +kernel
  simp only [getTrait, hcl, htr, ho₁, ho₂]
  simp

end Verif.GeneratedSchemas
