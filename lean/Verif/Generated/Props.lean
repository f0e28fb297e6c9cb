import Verif.Generated.Lemmas
import Mathlib.Data.List.Nodup

/-!
# Structures of a generated client: theorems (C100-C102)
-/

set_option autoImplicit false

namespace Verif.Generated

open Verif.Dict

variable {V : Type} {g : Gen} {m : Model} {rank : Nat → Nat}

/-! ## `_smithy_default` -/

theorem generate_spec (hv : Valid g m rank) {n id : Nat} {s : Struct} (hs : m[id]? = some (.struct s)) (hn : rank id < n) :
    ∃ c : Class V, g.generate m n id = some c ∧ c.fields = g.fields m s ∧
      c.consumer = (s.members.map fun x => if isStream m x then none else some (g.pyName s x)) ∧
      (∀ name e, (name, e) ∈ c.corrections ↔
        ∃ x, IsProperty m s x ∧ Required x ∧ g.pyName s x = name ∧ visit m n x.target = some (some e)) ∧
      (isRequiredTarget m id = true → ¬ Stuck m id → c.smithyDefault = some c.corrections) := by
  have hid : id < m.length := by
    by_contra h
    rw [List.getElem?_eq_none (by omega)] at hs
    cases hs
  obtain ⟨cs, h1, h2⟩ := corrections_spec (V := V) (visit m n)
    (((properties m s).filter isRequired).map fun x => (g.pyName s x, x.target)) (by
      intro y hy
      obtain ⟨x, hx, rfl⟩ := List.mem_map.1 hy
      obtain ⟨hx, hr⟩ := List.mem_filter.1 hx
      have hx := (mem_properties m s x).1 hx
      have := hv.acyclic id s x hs hx.1 ((isRequired_iff x).1 hr)
      rcases visit_spec (V := V) hv n x.target (hv.targets id s x hs hx.1) (by omega) with ⟨_, h⟩ | ⟨_, e, h, _⟩
      · exact ⟨_, h⟩
      · exact ⟨_, h⟩)
  obtain ⟨own, ho, hstuck⟩ : ∃ own, (visit m n id : Option (Option (Expr V))) = some own ∧ (¬ Stuck m id → own.isSome) := by
    rcases visit_spec (V := V) hv n id hid hn with ⟨h', h⟩ | ⟨_, e, h, _⟩
    · exact ⟨_, h, fun h => absurd h' h⟩
    · exact ⟨_, h, fun _ => rfl⟩
  refine ⟨{
      fields := g.fields m s
      consumer := s.members.map fun x => if isStream m x then none else some (g.pyName s x)
      corrections := cs
      smithyDefault := if isRequiredTarget m id then own.map fun _ => cs else none },
    by simp only [Gen.generate, hs, h1, ho], rfl, rfl, fun name e => ?_, fun hr hns => ?_⟩
  · rw [h2 name e]
    constructor
    · rintro ⟨t, ht, hf⟩
      obtain ⟨x, hx, he⟩ := List.mem_map.1 ht
      obtain ⟨hx, hr⟩ := List.mem_filter.1 hx
      cases he
      exact ⟨x, (mem_properties m s x).1 hx, (isRequired_iff x).1 hr, rfl, hf⟩
    · rintro ⟨x, hx, hr, rfl, hf⟩
      exact ⟨x.target, List.mem_map.2 ⟨x, List.mem_filter.2 ⟨(mem_properties m s x).2 hx, (isRequired_iff x).2 hr⟩, rfl⟩, hf⟩
  · simp only [hr, if_true]
    have := hstuck hns
    cases own with
    | none => cases this
    | some e => rfl

theorem isRequiredTarget_of {id : Nat} {s : Struct} {x : Member} (hs : m[id]? = some (.struct s)) (hx : x ∈ s.members)
    (hr : Required x) : isRequiredTarget m x.target = true := by
  unfold isRequiredTarget
  rw [List.any_eq_true]
  refine ⟨.struct s, List.mem_of_getElem? hs, ?_⟩
  simp only [List.any_eq_true]
  exact ⟨x, hx, by rw [(isRequired_iff x).2 hr]; simp⟩

/-- The expression for a target that is required somewhere gives a value that can stand for it. -/
theorem eval_spec (hv : Valid g m rank) (n : Nat) : ∀ (k id : Nat) (e : Expr V), rank id < n → rank id < k → id < m.length →
    isRequiredTarget m id = true → visit m n id = some (some e) →
    ∃ v, eval (g.generate m n) k e = .ok v ∧ Corrected g m id v
  | 0, _, _, _, h, _, _, _ => absurd h (Nat.not_lt_zero _)
  | k + 1, id, e, hn, hk, hid, hrt, hvis => by
    rcases visit_spec (V := V) hv n id hid hn with ⟨_, h⟩ | ⟨hns, e', h, hfit⟩
    · rw [h] at hvis; cases hvis
    rw [h] at hvis
    cases hvis
    rcases hfit with ⟨v, rfl, hc⟩ | ⟨s, hs, rfl⟩
    · exact ⟨v, by simp only [eval], hc⟩
    obtain ⟨c, hg, hf, _, hcs, hdef⟩ := generate_spec (V := V) hv hs hn
    have hdef := hdef hrt hns
    have hns' : ∀ x ∈ s.members, Required x → ¬ Stuck m x.target := fun x hx hr ht =>
      hns ((stuck_struct hs).2 ⟨x, hx, hr, ht⟩)
    -- the arguments
    have hargs : ∀ a ∈ c.corrections, ∃ v, eval (g.generate m n) k a.2 = .ok v := by
      rintro ⟨name, e⟩ ha
      obtain ⟨x, hx, hr, _, hvx⟩ := (hcs name e).1 ha
      have := hv.acyclic id s x hs hx.1 hr
      obtain ⟨v, he, _⟩ := eval_spec hv n k x.target e (by omega) (by omega) (hv.targets id s x hs hx.1)
        (isRequiredTarget_of hs hx.1 hr) hvx
      exact ⟨v, he⟩
    obtain ⟨vs, h1, h2, h3⟩ := evalArgs_spec _ c.corrections hargs
    have hsome : ∀ x, IsProperty m s x → Required x → ∃ v, vs.lookup (g.pyName s x) = some v := by
      intro x hx hr
      have := hv.acyclic id s x hs hx.1 hr
      rcases visit_spec (V := V) hv n x.target (hv.targets id s x hs hx.1) (by omega) with ⟨ht, _⟩ | ⟨_, e, he, _⟩
      · exact absurd ht (hns' x hx.1 hr)
      · cases hl : vs.lookup (g.pyName s x) with
        | some v => exact ⟨v, rfl⟩
        | none =>
          rw [lookup_eq_none, h2] at hl
          exact absurd (List.mem_map.2 ⟨(g.pyName s x, e), (hcs _ e).2 ⟨x, hx, hr, rfl, he⟩, rfl⟩) hl
    have hval : ∀ x v, IsProperty m s x → vs.lookup (g.pyName s x) = some v → Required x ∧ Corrected g m x.target v := by
      intro x v hx hl
      obtain ⟨e, he, hev⟩ := h3 _ v (mem_of_lookup _ v vs hl)
      obtain ⟨y, hy, hr, hxy, hvy⟩ := (hcs _ e).1 he
      have hyx : y = x := List.inj_on_of_nodup_map (nodup_properties hv hs) ((mem_properties m s y).2 hy)
        ((mem_properties m s x).2 hx) hxy
      subst hyx
      have := hv.acyclic id s y hs hy.1 hr
      obtain ⟨w, hw, hc⟩ := eval_spec hv n k y.target e (by omega) (by omega) (hv.targets id s y hs hy.1)
        (isRequiredTarget_of hs hy.1 hr) hvy
      rw [hev] at hw
      cases hw
      exact ⟨hr, hc⟩
    obtain ⟨fs, ho, hfs⟩ := construct_ok id (g.fields m s) vs (keys_fields s)
      (by
        intro name hl
        obtain ⟨v, hl⟩ := Option.ne_none_iff_exists'.1 hl
        obtain ⟨e, he, _⟩ := h3 _ v (mem_of_lookup _ v vs hl)
        obtain ⟨y, hy, _, rfl, _⟩ := (hcs _ e).1 he
        rw [fields_property hv hs hy]
        exact nofun)
      (by
        intro name hl
        obtain ⟨x, hx, hr, rfl⟩ := fields_none hv hs name hl
        obtain ⟨v, h⟩ := hsome x hx hr
        rw [h]
        exact nofun)
    refine ⟨.object id fs, by simp only [eval, hg, hdef, h1, hf, ho], ?_⟩
    have hfield : ∀ x, IsProperty m s x → ∃ v, fs.lookup (g.pyName s x) = some v ∧
        (Required x → Corrected g m x.target v) ∧ (¬ Required x → v = g.optional m x) := by
      intro x hx
      have hl := hfs (g.pyName s x)
      rw [fields_property hv hs hx] at hl
      by_cases hr : Required x
      · obtain ⟨v, hvx⟩ := hsome x hx hr
        rw [hvx] at hl
        exact ⟨v, hl, fun _ => (hval x v hx hvx).2, fun h => absurd hr h⟩
      · have hnone : vs.lookup (g.pyName s x) = none := by
          cases hvx : vs.lookup (g.pyName s x) with
          | none => rfl
          | some v => exact absurd (hval x v hx hvx).1 hr
        rw [hnone, if_neg (fun h => hr ((isRequired_iff x).1 h))] at hl
        exact ⟨_, hl, fun h => absurd h hr, fun _ => rfl⟩
    classical
    refine .struct (fun x => if h : IsProperty m s x then (hfield x h).choose else .none) fs hs ?_ ?_ ?_
    · intro x hx
      simp only [dif_pos hx]
      exact (hfield x hx).choose_spec.1
    · intro x hx hr
      simp only [dif_pos hx]
      exact (hfield x hx).choose_spec.2.1 hr
    · intro x hx hr
      simp only [dif_pos hx]
      exact (hfield x hx).choose_spec.2.2 hr

/-! ## Members by their index -/

theorem index_unique {A B : Type} (p : A → Bool) (f : A → B) : ∀ (l : List A) (i j : Nat) (x y : A),
    ((l.filter p).map f).Nodup → l[i]? = some x → l[j]? = some y → p x = true → p y = true → f x = f y → i = j
  | [], i, _, _, _, _, h, _, _, _, _ => by simp at h
  | a :: l, i, j, x, y, hn, hi, hj, hx, hy, hf => by
    have tail : ((l.filter p).map f).Nodup := by
      refine hn.sublist (List.Sublist.map _ ?_)
      exact List.Sublist.filter _ (List.sublist_cons_self a l)
    have first : ∀ (k : Nat) (z : A), p a = true → p z = true → f z = f a → l[k]? = some z → False := by
      intro k z ha hz hfz hk
      rw [List.filter_cons_of_pos ha, List.map_cons, List.nodup_cons] at hn
      exact hn.1 (List.mem_map.2 ⟨z, List.mem_filter.2 ⟨List.mem_of_getElem? hk, hz⟩, hfz⟩)
    cases i with
    | zero =>
      cases j with
      | zero => rfl
      | succ j =>
        simp only [List.getElem?_cons_zero, Option.some.injEq] at hi
        subst hi
        exact (first j y hx hy hf.symm hj).elim
    | succ i =>
      cases j with
      | zero =>
        simp only [List.getElem?_cons_zero, Option.some.injEq] at hj
        subst hj
        exact (first i x hy hx hf hi).elim
      | succ j =>
        have := index_unique p f l i j x y tail hi hj hx hy hf
        omega

/-- What the consumer has collected, under the name of a member that is not an event stream. -/
theorem consume_member (hv : Valid g m rank) {id : Nat} {s : Struct} (hs : m[id]? = some (.struct s)) {i : Nat} {x : Member}
    (hi : s.members[i]? = some x) (hx : isStream m x = false) (reads : List (Nat × V)) :
    (consume (s.members.map fun x => if isStream m x then none else some (g.pyName s x)) reads).lookup (g.pyName s x) =
      (lastRead reads i).map .read := by
  refine consume_index _ i _ ?_ ?_ reads
  · rw [List.getElem?_map, hi]
    simp [hx]
  · intro j hj
    rw [List.getElem?_map] at hj
    cases hy : s.members[j]? with
    | none => rw [hy] at hj; cases hj
    | some y =>
      rw [hy] at hj
      simp only [Option.map_some, Option.some.injEq] at hj
      cases hys : isStream m y with
      | true => rw [hys] at hj; simp at hj
      | false =>
        rw [hys] at hj
        simp only [Bool.false_eq_true, if_false, Option.some.injEq] at hj
        exact index_unique (fun x => !isStream m x) (g.pyName s) s.members j i y x (hv.names id s hs) hy hi (by simp [hys])
          (by simp [hx]) hj

theorem consume_name {s : Struct} (reads : List (Nat × V)) (k : Text)
    (h : (consume (s.members.map fun x => if isStream m x then none else some (g.pyName s x)) reads).lookup k ≠ none) :
    ∃ x ∈ s.members, isStream m x = false ∧ g.pyName s x = k := by
  by_contra hc
  push Not at hc
  refine h (consume_other _ k ?_ reads)
  intro hk
  obtain ⟨x, hx, he⟩ := List.mem_map.1 hk
  cases hs : isStream m x with
  | true => rw [hs] at he; simp at he
  | false =>
    rw [hs] at he
    simp only [Bool.false_eq_true, if_false, Option.some.injEq] at he
    exact hc x hx hs he

theorem pyName_message {s : Struct} {x : Member} (h : isMessage s x = true) : g.pyName s x = "message".toList := by
  unfold Gen.pyName
  rw [if_pos h]

theorem property_not_stream {s : Struct} {x : Member} (h : IsProperty m s x) : isStream m x = false := by
  cases hs : isStream m x with
  | false => rfl
  | true => exact absurd ((isStream_iff m x).1 hs) h.2.1

/-! ## `deserialize` -/

/-- All that `deserialize` does. -/
theorem deserialize_spec (hv : Valid g m rank) {id : Nat} {s : Struct} (hs : m[id]? = some (.struct s)) {n : Nat}
    (hn : rank id < n) (reads : List (Nat × V)) :
    ((∃ i x, s.members[i]? = some x ∧ IsProperty m s x ∧ Required x ∧ Stuck m x.target ∧ lastRead reads i = none) →
      g.deserialize m n id reads = .error .typeError) ∧
    ((∀ i x, s.members[i]? = some x → IsProperty m s x → Required x → Stuck m x.target → lastRead reads i ≠ none) →
      ∃ fields, g.deserialize m n id reads = .ok (.object id fields) ∧
        (∀ i x, s.members[i]? = some x → IsProperty m s x →
          (∀ v, lastRead reads i = some v → fields.lookup (g.pyName s x) = some (.read v)) ∧
          (lastRead reads i = none → Required x → ∃ v, fields.lookup (g.pyName s x) = some v ∧ Corrected g m x.target v) ∧
          (lastRead reads i = none → ¬ Required x → fields.lookup (g.pyName s x) = some (g.optional m x))) ∧
        (∀ k, (∀ x, IsProperty m s x → g.pyName s x ≠ k) →
          fields.lookup k = ((baseFields s).lookup k).map fun d =>
            ((consume (s.members.map fun x => if isStream m x then none else some (g.pyName s x)) reads).lookup k).getD
              (d.getD .none))) := by
  obtain ⟨c, hg, hf, hcon, hcs, _⟩ := generate_spec (V := V) hv hs hn
  have hev : ∀ a ∈ c.corrections, ∃ v, eval (g.generate m n) n a.2 = .ok v := by
    rintro ⟨name, e⟩ ha
    obtain ⟨x, hx, hr, _, hvx⟩ := (hcs name e).1 ha
    have := hv.acyclic id s x hs hx.1 hr
    obtain ⟨v, he, _⟩ := eval_spec hv n n x.target e (by omega) (by omega) (hv.targets id s x hs hx.1)
      (isRequiredTarget_of hs hx.1 hr) hvx
    exact ⟨v, he⟩
  obtain ⟨kw', hcorr, hk1, hk2, hk3⟩ := correct_spec _ c.corrections (consume c.consumer reads) hev
  rw [hcon] at hk1 hk2 hk3 hcorr
  have hd : g.deserialize m n id reads = construct id (g.fields m s) kw' := by
    simp only [Gen.deserialize, hg, hcon, hcorr, hf]
  -- the name of a correction belongs to one property
  have hname : ∀ x, IsProperty m s x → ∀ e, (g.pyName s x, e) ∈ c.corrections →
      Required x ∧ visit m n x.target = some (some e) := by
    intro x hx e he
    obtain ⟨y, hy, hr, hxy, hvy⟩ := (hcs _ e).1 he
    have hyx : y = x := List.inj_on_of_nodup_map (nodup_properties hv hs) ((mem_properties m s y).2 hy)
      ((mem_properties m s x).2 hx) hxy
    subst hyx
    exact ⟨hr, hvy⟩
  constructor
  · rintro ⟨i, x, hi, hx, hr, ht, hnone⟩
    rw [hd]
    refine construct_error id _ _ (g.pyName s x) ?_ ?_
    · rw [fields_property hv hs hx, if_pos ((isRequired_iff x).2 hr)]
    · refine hk2 _ ?_ ?_
      · rw [consume_member hv hs hi (property_not_stream hx), hnone]
        rfl
      · intro hm
        obtain ⟨⟨_, e⟩, he, heq⟩ := List.mem_map.1 hm
        simp only at heq
        subst heq
        obtain ⟨_, hvis⟩ := hname x hx e he
        have := hv.acyclic id s x hs hx.1 hr
        rcases visit_spec (V := V) hv n x.target (hv.targets id s x hs hx.1) (by omega) with ⟨_, h⟩ | ⟨h, _⟩
        · rw [h] at hvis; cases hvis
        · exact h ht
  · intro hall
    have hprop : ∀ i x, s.members[i]? = some x → IsProperty m s x →
        (∀ v, lastRead reads i = some v → kw'.lookup (g.pyName s x) = some (.read v)) ∧
        (lastRead reads i = none → Required x → ∃ v, kw'.lookup (g.pyName s x) = some v ∧ Corrected g m x.target v) ∧
        (lastRead reads i = none → ¬ Required x → kw'.lookup (g.pyName s x) = none) := by
      intro i x hi hx
      have hc := consume_member (V := V) hv hs hi (property_not_stream hx) reads
      refine ⟨fun v hl => ?_, fun hl hr => ?_, fun hl hr => ?_⟩
      · rw [hl] at hc
        exact hk1 _ _ hc
      · rw [hl] at hc
        have hacy := hv.acyclic id s x hs hx.1 hr
        rcases visit_spec (V := V) hv n x.target (hv.targets id s x hs hx.1) (by omega) with ⟨ht, _⟩ | ⟨_, e, he, _⟩
        · exact absurd hl (hall i x hi hx hr ht)
        · obtain ⟨e', v, hm, hev', hl'⟩ := hk3 _ hc
            (List.mem_map.2 ⟨(g.pyName s x, e), (hcs _ e).2 ⟨x, hx, hr, rfl, he⟩, rfl⟩)
          obtain ⟨_, hvis⟩ := hname x hx e' hm
          obtain ⟨w, hw, hcw⟩ := eval_spec hv n n x.target e' (by omega) (by omega) (hv.targets id s x hs hx.1)
            (isRequiredTarget_of hs hx.1 hr) hvis
          rw [hev'] at hw
          cases hw
          exact ⟨v, hl', hcw⟩
      · rw [hl] at hc
        refine hk2 _ hc fun hm => ?_
        obtain ⟨⟨_, e⟩, he, heq⟩ := List.mem_map.1 hm
        simp only at heq
        subst heq
        exact hr (hname x hx e he).1
    have hindex : ∀ x ∈ s.members, ∃ i, s.members[i]? = some x := fun x hx => List.mem_iff_getElem?.1 hx
    obtain ⟨fs, ho, hfs⟩ := construct_ok id (g.fields m s) kw' (keys_fields s)
      (by
        intro name hl
        by_cases hp : ∃ x, IsProperty m s x ∧ g.pyName s x = name
        · obtain ⟨x, hx, rfl⟩ := hp
          rw [fields_property hv hs hx]
          exact nofun
        · push Not at hp
          rw [fields_other hv hs name hp]
          have hcn : (consume (s.members.map fun x => if isStream m x then none else some (g.pyName s x)) reads).lookup name
              ≠ none := by
            intro hc
            by_cases hm : name ∈ c.corrections.map Prod.fst
            · obtain ⟨⟨_, e⟩, he, heq⟩ := List.mem_map.1 hm
              simp only at heq
              subst heq
              obtain ⟨y, hy, _, hyn, _⟩ := (hcs _ e).1 he
              exact hp y hy hyn
            · exact hl (hk2 _ hc hm)
          obtain ⟨x, hx, hst, hxn⟩ := consume_name reads name hcn
          have hmsg : isMessage s x = true := by
            by_contra hmsg
            refine hp x ?_ hxn
            rw [← mem_properties]
            unfold properties
            rw [List.mem_filter, hst]
            simpa using ⟨hx, by simpa using hmsg⟩
          rw [pyName_message hmsg] at hxn
          subst hxn
          obtain ⟨t, ht⟩ := Option.isSome_iff_exists.1 ((isMessage_iff s x).1 hmsg).1
          rw [baseFields_error s t ht]
          exact fun h => by cases h)
      (by
        intro name hl
        obtain ⟨x, hx, hr, rfl⟩ := fields_none hv hs name hl
        obtain ⟨i, hi⟩ := hindex x hx.1
        cases hlr : lastRead reads i with
        | some v => rw [(hprop i x hi hx).1 v hlr]; exact nofun
        | none =>
          obtain ⟨v, hvx, _⟩ := (hprop i x hi hx).2.1 hlr hr
          rw [hvx]
          exact nofun)
    refine ⟨fs, by rw [hd, ho], fun i x hi hx => ?_, fun k hk => ?_⟩
    · have hl := hfs (g.pyName s x)
      rw [fields_property hv hs hx] at hl
      obtain ⟨p1, p2, p3⟩ := hprop i x hi hx
      refine ⟨fun v hlr => ?_, fun hlr hr => ?_, fun hlr hr => ?_⟩
      · rw [hl, p1 v hlr]; rfl
      · obtain ⟨v, hvx, hc⟩ := p2 hlr hr
        exact ⟨v, by rw [hl, hvx]; rfl, hc⟩
      · rw [hl, p3 hlr hr, if_neg (fun h => hr ((isRequired_iff x).1 h))]; rfl
    · rw [hfs k, fields_other hv hs k hk]
      congr 1
      funext d
      congr 1
      cases hc : (consume (s.members.map fun x => if isStream m x then none else some (g.pyName s x)) reads).lookup k with
      | some v => exact hk1 _ _ hc
      | none =>
        refine hk2 _ hc fun hm => ?_
        obtain ⟨⟨_, e⟩, he, heq⟩ := List.mem_map.1 hm
        simp only at heq
        subst heq
        obtain ⟨y, hy, _, hyn, _⟩ := (hcs _ e).1 he
        exact hk y hy hyn

/-- C100: what `deserialize` makes of the members that are read, when the service has sent those that nothing can stand for.
Members that were read have the value that was read last; required ones that are missing have a value that can stand for them;
optional ones have their default. -/
theorem C100_deserialize (hv : Valid g m rank) {id : Nat} {s : Struct} (hs : m[id]? = some (.struct s)) {n : Nat}
    (hn : rank id < n) (reads : List (Nat × V))
    (h : ∀ i x, s.members[i]? = some x → IsProperty m s x → Required x → Stuck m x.target → lastRead reads i ≠ none) :
    ∃ fields, g.deserialize m n id reads = .ok (.object id fields) ∧
      ∀ i x, s.members[i]? = some x → IsProperty m s x →
        (∀ v, lastRead reads i = some v → fields.lookup (g.pyName s x) = some (.read v)) ∧
        (lastRead reads i = none → Required x → ∃ v, fields.lookup (g.pyName s x) = some v ∧ Corrected g m x.target v) ∧
        (lastRead reads i = none → ¬ Required x → fields.lookup (g.pyName s x) = some (g.optional m x)) := by
  obtain ⟨fields, h1, h2, _⟩ := (deserialize_spec hv hs hn reads).2 h
  exact ⟨fields, h1, h2⟩

/-- C100: it is an error, and always the same one, if such a member is missing. -/
theorem C100_missing (hv : Valid g m rank) {id : Nat} {s : Struct} (hs : m[id]? = some (.struct s)) {n : Nat}
    (hn : rank id < n) (reads : List (Nat × V)) (i : Nat) (x : Member) (hi : s.members[i]? = some x) (hx : IsProperty m s x)
    (hr : Required x) (ht : Stuck m x.target) (h : lastRead reads i = none) :
    g.deserialize m n id reads = .error .typeError :=
  (deserialize_spec hv hs hn reads).1 ⟨i, x, hi, hx, hr, ht, h⟩

/-- C100: there is a value for all shapes but those that nothing can stand for. -/
theorem C100_stands (hv : Valid g m rank) {id : Nat} (hid : id < m.length) (h : ¬ Stuck m id) :
    ∃ v : Value V, Corrected g m id v := by
  by_cases hs : ∃ s, m[id]? = some (.struct s)
  · obtain ⟨s, hs⟩ := hs
    obtain ⟨fields, _, hf⟩ := C100_deserialize (V := V) hv hs (Nat.lt_succ_self _) [] fun i x _ hx hr ht =>
      absurd ((stuck_struct hs).2 ⟨x, hx.1, hr, ht⟩) h
    have hall : ∀ x, IsProperty m s x → ∃ v, fields.lookup (g.pyName s x) = some v ∧
        (Required x → Corrected g m x.target v) ∧ (¬ Required x → v = g.optional m x) := by
      intro x hx
      obtain ⟨i, hi⟩ := List.mem_iff_getElem?.1 hx.1
      obtain ⟨_, h2, h3⟩ := hf i x hi hx
      by_cases hr : Required x
      · obtain ⟨v, hv1, hv2⟩ := h2 rfl hr
        exact ⟨v, hv1, fun _ => hv2, fun h => absurd hr h⟩
      · exact ⟨_, h3 rfl hr, fun h => absurd h hr, fun _ => rfl⟩
    classical
    refine ⟨_, .struct (fun x => if h : IsProperty m s x then (hall x h).choose else .none) fields hs ?_ ?_ ?_⟩
    · intro x hx
      simp only [dif_pos hx]
      exact (hall x hx).choose_spec.1
    · intro x hx hr
      simp only [dif_pos hx]
      exact (hall x hx).choose_spec.2.1 hr
    · intro x hx hr
      simp only [dif_pos hx]
      exact (hall x hx).choose_spec.2.2 hr
  · rcases visit_spec (V := V) hv (rank id + 1) id hid (Nat.lt_succ_self _) with ⟨h', _⟩ | ⟨_, e, _, hf⟩
    · exact absurd h' h
    · rcases hf with ⟨v, _, hc⟩ | ⟨s, hs', _⟩
      · exact ⟨v, hc⟩
      · exact absurd ⟨s, hs'⟩ hs

/-- C100: the defaults of optional members.  Partial: those of blobs are not what the model says
(`C100_blob_default_fails`), and times that are given as text are taken from elsewhere. -/
theorem C100_optional_partial (x : Member) :
    (x.default = none → (g.optional m x : Value V) = .none) ∧
    (x.default = some .null → m[x.target]? ≠ some .document → (g.optional m x : Value V) = .none) ∧
    (∀ b, x.default = some (.bool b) → m[x.target]? = some .boolean → (g.optional m x : Value V) = .bool b) ∧
    (∀ i, x.default = some (.num i) → m[x.target]? = some .integer → (g.optional m x : Value V) = .int i) ∧
    (∀ t, x.default = some (.str t) → m[x.target]? = some .string → (g.optional m x : Value V) = .str t) ∧
    (∀ t, x.default = some (.str t) → m[x.target]? = some .enum → (g.optional m x : Value V) = .enum x.target (.str t)) ∧
    (∀ i, x.default = some (.num i) → m[x.target]? = some .intEnum → (g.optional m x : Value V) = .enum x.target (.num i)) ∧
    (∀ i, x.default = some (.num i) → m[x.target]? = some .timestamp → (g.optional m x : Value V) = .time i) ∧
    (x.default = some .emptyList → m[x.target]? = some .list → (g.optional m x : Value V) = .emptyList) ∧
    (x.default = some .emptyMap → m[x.target]? = some .map → (g.optional m x : Value V) = .emptyMap) ∧
    (∀ d, x.default = some d → m[x.target]? = some .document → (g.optional m x : Value V) = .document d) := by
  unfold Gen.optional
  refine ⟨?_, ?_, ?_, ?_, ?_, ?_, ?_, ?_, ?_, ?_, ?_⟩
  · intro h; rw [h]
  · intro h hk
    rw [h]
    cases hm : m[x.target]? with
    | none => rfl
    | some k => cases k <;> first | rfl | exact absurd hm hk
  all_goals intros; simp only [*]; rfl

/-- C100: the names of attributes. -/
theorem C100_names (s : Struct) (x : Member) :
    (s.error.isSome = true ∧
        x.name.map Char.toLower ∈ ["errormessage".toList, "error_message".toList, "message".toList] →
      g.pyName s x = "message".toList) ∧
    (¬ (s.error.isSome = true ∧
        x.name.map Char.toLower ∈ ["errormessage".toList, "error_message".toList, "message".toList]) →
      g.pyName s x = g.snake x.name ∨ g.pyName s x = g.snake x.name ++ ['_']) := by
  rw [← isMessage_iff]
  unfold Gen.pyName
  constructor
  · intro h
    rw [if_pos h]
  · intro h
    rw [if_neg h]
    split
    · exact .inr rfl
    · exact .inl rfl

/-- C100: no attribute is named like a keyword of Python, as the names in snake case have no capital letters. -/
theorem C100_keywords (s : Struct) (x : Member) (hlow : ∀ c ∈ g.snake x.name, c.isUpper = false) :
    g.pyName s x ∉ ["False", "None", "True", "and", "as", "assert", "async", "await", "break", "class", "continue", "def", "del",
      "elif", "else", "except", "finally", "for", "from", "global", "if", "import", "in", "is", "lambda", "nonlocal", "not",
      "or", "pass", "raise", "return", "try", "while", "with", "yield"].map String.toList := by
  unfold Gen.pyName
  split
  · decide
  · split
    · intro h
      have : ∀ k ∈ ["False", "None", "True", "and", "as", "assert", "async", "await", "break", "class", "continue", "def",
          "del", "elif", "else", "except", "finally", "for", "from", "global", "if", "import", "in", "is", "lambda", "nonlocal",
          "not", "or", "pass", "raise", "return", "try", "while", "with", "yield"].map String.toList,
          k.getLast? ≠ some '_' := by decide +kernel
      exact this _ h (by simp)
    · rename_i h1
      intro h
      have : ∀ k ∈ ["False", "None", "True", "and", "as", "assert", "async", "await", "break", "class", "continue", "def",
          "del", "elif", "else", "except", "finally", "for", "from", "global", "if", "import", "in", "is", "lambda", "nonlocal",
          "not", "or", "pass", "raise", "return", "try", "while", "with", "yield"].map String.toList,
          k ∈ reserved ∨ (k.any Char.isUpper) = true := by decide +kernel
      rcases this _ h with hr | hu
      · exact h1 (List.contains_iff_mem.2 hr)
      · rw [List.any_eq_true] at hu
        obtain ⟨c, hc, hu⟩ := hu
        rw [hlow c hc] at hu
        cases hu

/-! ## Errors -/

theorem property_of {s : Struct} {x : Member} (hx : x ∈ s.members) (hst : isStream m x = false) (hm : isMessage s x = false) :
    IsProperty m s x := by
  rw [← mem_properties]
  unfold properties
  rw [List.mem_filter, hst, hm]
  exact ⟨hx, rfl⟩

/-- C101: what an error that a service has sent says about retries and who is at fault is what its traits say, and its message
is the one that was sent, or empty.  Partial: only for errors without members that are named like these attributes, see
`C101_reserved_fails` and `C101_fault_fails`. -/
theorem C101_error_partial (hv : Valid g m rank) {id : Nat} {s : Struct} (hs : m[id]? = some (.struct s)) {t : ErrorTraits}
    (ht : s.error = some t) {n : Nat} (hn : rank id < n) (reads : List (Nat × V)) (fields : List (Text × Value V))
    (h : g.deserialize m n id reads = .ok (.object id fields)) :
    fields.lookup "fault".toList = some (.str t.fault) ∧
    fields.lookup "is_retry_safe".toList = some (if t.retryable.isSome then .bool true else .none) ∧
    fields.lookup "is_throttling_error".toList = some (.bool (decide (t.retryable = some true))) ∧
    fields.lookup "retry_after".toList = some .none ∧
    fields.lookup "is_timeout_error".toList = some (.bool false) ∧
    (∀ i x v, s.members[i]? = some x → m[x.target]? ≠ some (.union true) →
      x.name.map Char.toLower ∈ ["errormessage".toList, "error_message".toList, "message".toList] →
      lastRead reads i = some v → fields.lookup "message".toList = some (.read v)) ∧
    ((∀ i x, s.members[i]? = some x →
      x.name.map Char.toLower ∈ ["errormessage".toList, "error_message".toList, "message".toList] →
      lastRead reads i = none) → fields.lookup "message".toList = some (.str [])) := by
  obtain ⟨spec1, spec2⟩ := deserialize_spec hv hs hn reads
  have hall : ∀ i x, s.members[i]? = some x → IsProperty m s x → Required x → Stuck m x.target → lastRead reads i ≠ none := by
    intro i x hi hx hr hst hl
    rw [spec1 ⟨i, x, hi, hx, hr, hst, hl⟩] at h
    cases h
  obtain ⟨fields', h1, _, h3⟩ := spec2 hall
  rw [h1] at h
  cases h
  have hsome : s.error.isSome = true := by rw [ht]; rfl
  have hnames : ∀ k ∈ ["fault", "message", "is_retry_safe", "retry_after", "is_throttling_error", "is_timeout_error"].map
      String.toList, ∀ x, IsProperty m s x → g.pyName s x ≠ k := by
    rintro k hk x hx rfl
    exact hv.errors id s x hs hsome hx hk
  have hsub : ∀ k ∈ ["fault", "is_retry_safe", "retry_after", "is_throttling_error", "is_timeout_error"].map String.toList,
      k ∈ ["fault", "message", "is_retry_safe", "retry_after", "is_throttling_error", "is_timeout_error"].map
        String.toList := by decide
  have hbase : ∀ k ∈ ["fault", "is_retry_safe", "retry_after", "is_throttling_error", "is_timeout_error"].map String.toList,
      (consume (s.members.map fun x => if isStream m x then none else some (g.pyName s x)) reads).lookup k = none := by
    intro k hk
    by_contra hc
    obtain ⟨x, hx, hst, hxk⟩ := consume_name reads k hc
    cases hm : isMessage s x with
    | true =>
      rw [pyName_message hm] at hxk
      rw [← hxk] at hk
      exact absurd hk (by decide)
    | false =>
      exact hnames k (hsub k hk) x (property_of hx hst hm) hxk
  have val : ∀ k d, k ∈ ["fault", "is_retry_safe", "retry_after", "is_throttling_error", "is_timeout_error"].map String.toList →
      (baseFields s : List (Text × Option (Value V))).lookup k = some (some d) → fields.lookup k = some d := by
    intro k d hk hd
    rw [h3 k (hnames k (hsub k hk)), hbase k hk, hd]
    rfl
  have hmessage : fields.lookup "message".toList =
      some (((consume (s.members.map fun x => if isStream m x then none else some (g.pyName s x)) reads).lookup
        "message".toList).getD (.str [])) := by
    rw [h3 _ (hnames _ (by decide)), baseFields_error s t ht]
    rfl
  refine ⟨?_, ?_, ?_, ?_, ?_, ?_, ?_⟩
  · exact val _ _ (by decide) (by rw [baseFields_error s t ht]; rfl)
  · refine val _ _ (by decide) ?_
    rw [baseFields_error s t ht]
    cases t.retryable <;> rfl
  · refine val _ _ (by decide) ?_
    rw [baseFields_error s t ht]
    rcases t.retryable with _ | _ | _ <;> rfl
  · exact val _ _ (by decide) (by rw [baseFields_error s t ht]; rfl)
  · exact val _ _ (by decide) (by rw [baseFields_error s t ht]; rfl)
  · intro i x v hi hst hm hl
    have hm : isMessage s x = true := (isMessage_iff s x).2 ⟨hsome, hm⟩
    have hst : isStream m x = false := by
      cases hst' : isStream m x with
      | false => rfl
      | true => exact absurd ((isStream_iff m x).1 hst') hst
    have hc := consume_member (V := V) hv hs hi hst reads
    rw [pyName_message hm, hl] at hc
    rw [hmessage, hc]
    rfl
  · intro hno
    have hc : (consume (s.members.map fun x => if isStream m x then none else some (g.pyName s x)) reads).lookup
        "message".toList = none := by
      by_contra hc
      obtain ⟨x, hx, hst, hxk⟩ := consume_name reads _ hc
      obtain ⟨i, hi⟩ := List.mem_iff_getElem?.1 hx
      cases hm : isMessage s x with
      | true =>
        have hc' := consume_member (V := V) hv hs hi hst reads
        rw [hxk, hno i x hi ((isMessage_iff s x).1 hm).2] at hc'
        exact hc hc'
      | false => exact hnames _ (by decide) x (property_of hx hst hm) hxk
    rw [hmessage, hc]
    rfl

/-! ## `serialize_members` -/

theorem serializeFrom_spec (s : Struct) (fields : List (Text × Value V)) : ∀ (xs : List Member) (i : Nat),
    (∀ x ∈ xs, isStream m x = false → fields.lookup (g.pyName s x) ≠ none) →
    ∃ w, g.serializeFrom m s fields i xs = .ok w ∧ (w.map Prod.fst).Pairwise (· < ·) ∧ (∀ e ∈ w, i ≤ e.1) ∧
      ∀ j v, (i + j, v) ∈ w ↔ ∃ x, xs[j]? = some x ∧ isStream m x = false ∧ fields.lookup (g.pyName s x) = some v ∧
        (mayBeNone m x && isNone v) = false
  | [], i, _ => ⟨[], rfl, .nil, (fun e h => by cases h), fun j v => ⟨(fun h => by cases h), fun ⟨x, h, _⟩ => by simp at h⟩⟩
  | x :: xs, i, h => by
    obtain ⟨w, h1, h2, h3, h4⟩ := serializeFrom_spec s fields xs (i + 1) fun y hy => h y (List.mem_cons_of_mem _ hy)
    have hrest : (¬ ∃ v, isStream m x = false ∧ fields.lookup (g.pyName s x) = some v ∧ (mayBeNone m x && isNone v) = false) →
        ∀ j v, (i + j, v) ∈ w ↔ ∃ y, (x :: xs)[j]? = some y ∧ isStream m y = false ∧
          fields.lookup (g.pyName s y) = some v ∧ (mayBeNone m y && isNone v) = false := by
      intro hno j v
      cases j with
      | zero =>
        constructor
        · intro hw
          have := h3 _ hw
          simp only at this
          omega
        · rintro ⟨y, hy, hy'⟩
          simp only [List.getElem?_cons_zero, Option.some.injEq] at hy
          subst hy
          exact absurd ⟨v, hy'⟩ hno
      | succ j =>
        rw [show i + (j + 1) = i + 1 + j by omega, h4 j v]
        simp only [List.getElem?_cons_succ]
    by_cases hst : isStream m x = true
    · refine ⟨w, by simp only [Gen.serializeFrom, if_pos hst, h1], h2, fun e he => by have := h3 e he; omega, ?_⟩
      refine hrest ?_
      rintro ⟨v, hs, _⟩
      rw [hs] at hst
      cases hst
    · have hst' : isStream m x = false := by simpa using hst
      obtain ⟨v, hv⟩ := Option.ne_none_iff_exists'.1 (h x (List.mem_cons_self ..) hst')
      by_cases hskip : (mayBeNone m x && isNone v) = true
      · refine ⟨w, by simp only [Gen.serializeFrom, if_neg hst, hv, if_pos hskip, h1], h2,
          fun e he => by have := h3 e he; omega, ?_⟩
        refine hrest ?_
        rintro ⟨v', _, hv', hs⟩
        rw [hv] at hv'
        cases hv'
        rw [hs] at hskip
        cases hskip
      · refine ⟨(i, v) :: w, by simp only [Gen.serializeFrom, if_neg hst, hv, if_neg hskip, h1], ?_, ?_, ?_⟩
        · rw [List.map_cons, List.pairwise_cons]
          refine ⟨fun a ha => ?_, h2⟩
          obtain ⟨e, he, rfl⟩ := List.mem_map.1 ha
          have := h3 e he
          omega
        · intro e he
          rcases List.mem_cons.1 he with rfl | he
          · exact Nat.le_refl _
          · have := h3 e he
            omega
        · intro j v'
          rw [List.mem_cons]
          cases j with
          | zero =>
            simp only [List.getElem?_cons_zero, Option.some.injEq, Nat.add_zero]
            constructor
            · rintro (he | hw)
              · cases he
                exact ⟨x, rfl, hst', hv, by simpa using hskip⟩
              · have := h3 _ hw
                simp only at this
                omega
            · rintro ⟨y, rfl, _, hv', _⟩
              rw [hv] at hv'
              cases hv'
              exact .inl rfl
          | succ j =>
            rw [show i + (j + 1) = i + 1 + j by omega, h4 j v']
            simp only [List.getElem?_cons_succ]
            constructor
            · rintro (he | hw)
              · have := congrArg Prod.fst he
                simp only at this
                omega
              · exact hw
            · exact .inr

/-- C102: `serialize_members` writes the members in the order of the model, each once: those with a value, and those that
cannot be null whatever they are; event streams are left out. -/
theorem C102_written (s : Struct) (fields : List (Text × Value V))
    (h : ∀ x ∈ s.members, m[x.target]? ≠ some (.union true) → fields.lookup (g.pyName s x) ≠ none) :
    ∃ w, g.serialize m s fields = .ok w ∧ (w.map Prod.fst).Pairwise (· < ·) ∧
      ∀ i v, (i, v) ∈ w ↔ ∃ x, s.members[i]? = some x ∧ m[x.target]? ≠ some (.union true) ∧
        fields.lookup (g.pyName s x) = some v ∧
        (v ≠ .none ∨ x.nullable = false ∨ (m[x.target]? = some .document ∧ x.default ≠ none)) := by
  have hst : ∀ x, isStream m x = false ↔ m[x.target]? ≠ some (.union true) := by
    intro x
    rw [Ne, ← isStream_iff]
    simp
  have hskip : ∀ (x : Member) (v : Value V), (mayBeNone m x && isNone v) = false ↔
      (v ≠ .none ∨ x.nullable = false ∨ (m[x.target]? = some .document ∧ x.default ≠ none)) := by
    intro x v
    have hv : isNone v = true ↔ v = .none := by cases v <;> simp [isNone]
    unfold mayBeNone
    have hd : (m[x.target]? == some .document) = true ↔ m[x.target]? = some .document := by simp
    rw [Ne, Ne, ← hv, ← hd]
    cases isNone v <;> cases x.nullable <;> cases (m[x.target]? == some .document) <;> cases x.default <;> simp
  obtain ⟨w, h1, h2, _, h4⟩ := serializeFrom_spec (g := g) (m := m) s fields s.members 0 fun x hx hs => h x hx ((hst x).1 hs)
  refine ⟨w, h1, h2, fun i v => ?_⟩
  have := h4 i v
  rw [Nat.zero_add] at this
  rw [this]
  constructor
  · rintro ⟨x, a, b, c, d⟩
    exact ⟨x, a, (hst x).1 b, c, (hskip x v).1 d⟩
  · rintro ⟨x, a, b, c, d⟩
    exact ⟨x, a, (hst x).2 b, c, (hskip x v).2 d⟩

theorem lastRead_of_pairwise (w : List (Nat × V)) (hw : (w.map Prod.fst).Pairwise (· < ·)) (i : Nat) :
    (∀ v, (i, v) ∈ w → lastRead w i = some v) ∧ ((∀ v, (i, v) ∉ w) → lastRead w i = none) := by
  have hk : Keys w.reverse := by
    unfold Keys
    rw [List.map_reverse, List.nodup_reverse]
    exact hw.imp fun h => Nat.ne_of_lt h
  constructor
  · intro v hv
    exact lookup_of_mem i v _ hk (List.mem_reverse.2 hv)
  · intro hno
    unfold lastRead
    rw [lookup_eq_none]
    intro hm
    obtain ⟨⟨j, v⟩, he, rfl⟩ := List.mem_map.1 hm
    exact hno v (List.mem_reverse.1 he)

/-- C102: an object that is serialized and deserialized again has the same attributes, if those that cannot be null are not
`None`, and an attribute is only `None` where that is its default.  Partial: see `C102_none_fails` for the last condition. -/
theorem C102_round_trip_partial (hv : Valid g m rank) {id : Nat} {s : Struct} (hs : m[id]? = some (.struct s)) {n : Nat}
    (hn : rank id < n) (fields : List (Text × Value V))
    (h1 : ∀ x ∈ s.members, m[x.target]? ≠ some (.union true) → fields.lookup (g.pyName s x) ≠ none)
    (h2 : ∀ x, IsProperty m s x → fields.lookup (g.pyName s x) = some .none → x.nullable = true)
    (h3 : ∀ x, IsProperty m s x → fields.lookup (g.pyName s x) = some .none → x.default = none ∨ x.default = some .null) :
    ∃ w back, g.serialize m s fields = .ok w ∧ g.deserialize m n id w = .ok (.object id back) ∧
      ∀ x, IsProperty m s x → ∃ v, fields.lookup (g.pyName s x) = some v ∧
        (back.lookup (g.pyName s x) = some (.read v) ∨ v = .none ∧ back.lookup (g.pyName s x) = some .none) := by
  obtain ⟨w, hw, hp, hmem⟩ := C102_written (g := g) (m := m) s fields h1
  have hread : ∀ i x v, s.members[i]? = some x → IsProperty m s x → fields.lookup (g.pyName s x) = some v →
      (v ≠ .none ∨ (m[x.target]? = some .document ∧ x.default ≠ none) → lastRead w i = some v) ∧
      (v = .none → lastRead w i = some v ∨ lastRead w i = none) := by
    intro i x v hi hx hl
    refine ⟨fun h => (lastRead_of_pairwise w hp i).1 v ?_, fun _ => ?_⟩
    · exact (hmem i v).2 ⟨x, hi, hx.2.1, hl, h.imp_right .inr⟩
    · by_cases hiv : (i, v) ∈ w
      · exact .inl ((lastRead_of_pairwise w hp i).1 v hiv)
      · refine .inr ((lastRead_of_pairwise w hp i).2 fun v' hv' => hiv ?_)
        obtain ⟨y, hy, _, hl', _⟩ := (hmem i v').1 hv'
        rw [hi] at hy
        cases hy
        rw [hl] at hl'
        cases hl'
        exact hv'
  have hall : ∀ i x, s.members[i]? = some x → IsProperty m s x → Required x → Stuck m x.target → lastRead w i ≠ none := by
    intro i x hi hx hr _
    obtain ⟨v, hl⟩ := Option.ne_none_iff_exists'.1 (h1 x hx.1 hx.2.1)
    have hne : v ≠ .none := by
      rintro rfl
      have := h2 x hx hl
      rw [hr.1] at this
      cases this
    rw [(hread i x v hi hx hl).1 (.inl hne)]
    exact nofun
  obtain ⟨back, hb, hf⟩ := C100_deserialize hv hs hn w hall
  refine ⟨w, back, hw, hb, fun x hx => ?_⟩
  obtain ⟨i, hi⟩ := List.mem_iff_getElem?.1 hx.1
  obtain ⟨v, hl⟩ := Option.ne_none_iff_exists'.1 (h1 x hx.1 hx.2.1)
  refine ⟨v, hl, ?_⟩
  obtain ⟨f1, _, f3⟩ := hf i x hi hx
  by_cases hnone : v = .none
  · subst hnone
    rcases (hread i x _ hi hx hl).2 rfl with hlr | hlr
    · exact .inl (f1 _ hlr)
    · right
      refine ⟨rfl, ?_⟩
      have hnr : ¬ Required x := fun hr => by
        have := h2 x hx hl
        rw [hr.1] at this
        cases this
      rw [f3 hlr hnr]
      rcases h3 x hx hl with hd | hd
      · rw [(C100_optional_partial x).1 hd]
      · by_cases hdoc : m[x.target]? = some .document
        · have := (hread i x _ hi hx hl).1 (.inr ⟨hdoc, by rw [hd]; exact nofun⟩)
          rw [this] at hlr
          cases hlr
        · rw [(C100_optional_partial x).2.1 hd hdoc]
  · exact .inl (f1 _ ((hread i x v hi hx hl).1 (.inl hnone)))

end Verif.Generated
