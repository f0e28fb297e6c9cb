import Verif.Fields.Spec
import Mathlib.Data.List.Forall2

/-! # Collections and lists of fields -/

set_option autoImplicit false

namespace Verif.Fields

variable {S : Type} [DecidableEq S] {lower : S → S}

/-- Entry by entry: the address holds the field and the key is its lower-cased name. -/
def Match (lower : S → S) (h : Heap S) (x : S × Nat) (f : Field S) : Prop :=
  h[x.2]? = some f ∧ x.1 = lower f.name

/-- The collection `d` in the heap `h` holds the fields `c`; no object twice, no name twice. -/
structure Rep (lower : S → S) (h : Heap S) (d : Dict S) (c : List (Field S)) : Prop where
  all : List.Forall₂ (Match lower h) d c
  keys : (d.map Prod.fst).Nodup
  addrs : (d.map Prod.snd).Nodup

theorem forall2_fields {h : Heap S} {d : Dict S} {c : List (Field S)}
    (hr : List.Forall₂ (Match lower h) d c) : fields h d = c := by
  induction hr with
  | nil => rfl
  | cons hx _ ih =>
    simp only [fields, List.filterMap_cons] at ih ⊢
    rw [hx.1, ih]

theorem forall2_keys {h : Heap S} {d : Dict S} {c : List (Field S)}
    (hr : List.Forall₂ (Match lower h) d c) : d.map Prod.fst = c.map fun f => lower f.name := by
  induction hr with
  | nil => rfl
  | cons hx _ ih => simp [ih, hx.2]

theorem Rep.distinct {h : Heap S} {d : Dict S} {c : List (Field S)} (hr : Rep lower h d c) :
    Distinct lower c := by
  have := hr.keys
  rw [forall2_keys hr.all, List.Nodup, List.pairwise_map] at this
  exact this

theorem lookup_cons (f : Field S) (c : List (Field S)) (name : S) :
    lookup lower (f :: c) name = if same lower f.name name then some f else lookup lower c name := by
  simp only [lookup, List.find?_cons]
  split <;> simp_all

/-- Looking up a key and looking up a name. -/
theorem get_lookup {h : Heap S} {d : Dict S} {c : List (Field S)}
    (hr : List.Forall₂ (Match lower h) d c) (name : S) :
    match d.get (lower name) with
    | none => lookup lower c name = none
    | some a => ∃ f, lookup lower c name = some f ∧ h[a]? = some f ∧ lower f.name = lower name ∧
        (lower name, a) ∈ d := by
  induction hr with
  | nil => rfl
  | @cons x f d c hx _ ih =>
    obtain ⟨k, a⟩ := x
    obtain ⟨h1, h2⟩ := hx
    simp only at h1 h2
    simp only [Dict.get, List.lookup_cons, lookup_cons] at ih ⊢
    by_cases hk : lower name = k
    · subst hk
      simp only [BEq.rfl, if_true]
      exact ⟨f, by simp [same, h2], h1, h2.symm, by simp⟩
    · have hb : (lower name == k) = false := by simpa using hk
      have hs : same lower f.name name = false := by
        simp only [same, decide_eq_false_iff_not]
        intro e; exact hk (by rw [h2, e])
      simp only [hb, hs, Bool.false_eq_true, if_false]
      generalize hg : List.lookup (lower name) d = g at ih ⊢
      cases g with
      | none => exact ih
      | some b =>
        obtain ⟨f', h3, h4, h5, h6⟩ := ih
        exact ⟨f', h3, h4, h5, by simp [h6]⟩

theorem get_none_iff {h : Heap S} {d : Dict S} {c : List (Field S)}
    (hr : List.Forall₂ (Match lower h) d c) (name : S) :
    d.get (lower name) = none ↔ lookup lower c name = none := by
  have := get_lookup hr name
  generalize d.get (lower name) = g at this ⊢
  cases g with
  | none => simp [this]
  | some a =>
    obtain ⟨f, h1, _⟩ := this
    simp [h1]

theorem get_isSome {h : Heap S} {d : Dict S} {c : List (Field S)}
    (hr : List.Forall₂ (Match lower h) d c) (name : S) :
    (d.get (lower name)).isSome = (lookup lower c name).isSome := by
  have := get_none_iff hr name
  cases h1 : d.get (lower name) <;> cases h2 : lookup lower c name <;> simp_all

theorem set_new (d : Dict S) (k : S) (a : Nat) (hk : d.get k = none) :
    d.set k a = d ++ [(k, a)] := by
  induction d with
  | nil => rfl
  | cons x d ih =>
    obtain ⟨k', a'⟩ := x
    simp only [Dict.get, List.lookup_cons] at hk
    have hne : k' ≠ k := by
      rintro rfl
      simp at hk
    have hb : (k == k') = false := by simpa using Ne.symm hne
    rw [hb] at hk
    simp only [Dict.set, hne, if_false, List.cons_append]
    rw [ih hk]

theorem map_none (c : List (Field S)) (name : S) (u : Field S → Field S)
    (hc : ∀ g ∈ c, same lower g.name name = false) :
    (c.map fun g => if same lower g.name name then u g else g) = c := by
  induction c with
  | nil => rfl
  | cons g c ih =>
    simp only [List.map_cons, hc g (by simp)]
    rw [ih fun g' hg => hc g' (by simp [hg])]
    rfl

theorem mem_fst {h : Heap S} {d : Dict S} {c : List (Field S)}
    (hr : List.Forall₂ (Match lower h) d c) {f : Field S} (hf : f ∈ c) :
    lower f.name ∈ d.map Prod.fst := by
  rw [forall2_keys hr]
  exact List.mem_map.2 ⟨f, hf, rfl⟩

/-- Overwriting an existing key. -/
theorem set_old {h : Heap S} {d : Dict S} {c : List (Field S)}
    (hr : List.Forall₂ (Match lower h) d c) (hk : (d.map Prod.fst).Nodup) (f : Field S) (a : Nat)
    (ha : h[a]? = some f) (hs : (d.get (lower f.name)).isSome = true) :
    List.Forall₂ (Match lower h) (d.set (lower f.name) a)
      (c.map fun g => if same lower g.name f.name then f else g) ∧
    (d.set (lower f.name) a).map Prod.fst = d.map Prod.fst := by
  induction hr with
  | nil => simp [Dict.get] at hs
  | @cons x g d c hx hr ih =>
    obtain ⟨k, b⟩ := x
    obtain ⟨h1, h2⟩ := hx
    simp only at h1 h2
    simp only [List.map_cons, List.nodup_cons] at hk
    by_cases hkf : k = lower f.name
    · simp only [Dict.set, hkf, if_true, List.map_cons]
      have : same lower g.name f.name = true := by simp [same, ← h2, hkf]
      rw [this]
      refine ⟨.cons ⟨ha, rfl⟩ ?_, by simp⟩
      rw [map_none]
      · exact hr
      · intro g' hg'
        simp only [same, decide_eq_false_iff_not]
        intro e
        exact hk.1 (by rw [hkf, ← e]; exact mem_fst hr hg')
    · have hne : same lower g.name f.name = false := by
        simp only [same, decide_eq_false_iff_not]
        intro e; exact hkf (by rw [h2, e])
      have hb : (lower f.name == k) = false := by simpa using Ne.symm hkf
      simp only [Dict.get, List.lookup_cons, hb] at hs
      obtain ⟨i1, i2⟩ := ih hk.2 hs
      simp only [Dict.set, hkf, if_false, List.map_cons, hne]
      exact ⟨.cons ⟨h1, h2⟩ i1, by simp [i2]⟩

theorem set_addrs (d : Dict S) (k : S) (a : Nat) (x : Nat)
    (hx : x ∈ (d.set k a).map Prod.snd) : x ∈ d.map Prod.snd ∨ x = a := by
  induction d with
  | nil => simp [Dict.set] at hx; exact Or.inr hx
  | cons y d ih =>
    obtain ⟨k', a'⟩ := y
    simp only [Dict.set] at hx
    split at hx
    · simp only [List.map_cons, List.mem_cons] at hx ⊢
      tauto
    · simp only [List.map_cons, List.mem_cons] at hx ⊢
      rcases hx with hx | hx
      · tauto
      · have := ih hx; tauto

theorem set_addrs_nodup (d : Dict S) (k : S) (a : Nat) (hd : (d.map Prod.snd).Nodup)
    (ha : a ∉ d.map Prod.snd) : ((d.set k a).map Prod.snd).Nodup := by
  induction d with
  | nil => simp [Dict.set]
  | cons y d ih =>
    obtain ⟨k', a'⟩ := y
    simp only [List.map_cons, List.nodup_cons, List.mem_cons, not_or] at hd ha
    simp only [Dict.set]
    split
    · simp only [List.map_cons, List.nodup_cons]
      exact ⟨ha.2, hd.2⟩
    · simp only [List.map_cons, List.nodup_cons]
      refine ⟨fun h => ?_, ih hd.2 ha.2⟩
      rcases set_addrs d k a a' h with h | h
      · exact hd.1 h
      · exact ha.1 h.symm

theorem rep_put {h : Heap S} {d : Dict S} {c : List (Field S)} (hr : Rep lower h d c)
    (f : Field S) (a : Nat) (ha : h[a]? = some f) (hfresh : a ∉ d.map Prod.snd) :
    Rep lower h (d.set (lower f.name) a) (put lower c f) := by
  have hi := get_isSome hr.all f.name
  unfold put
  by_cases hs : (lookup lower c f.name).isSome = true
  · rw [if_pos hs]
    obtain ⟨h1, h2⟩ := set_old hr.all hr.keys f a ha (by rw [hi, hs])
    exact ⟨h1, by rw [h2]; exact hr.keys, set_addrs_nodup d _ a hr.addrs hfresh⟩
  · rw [if_neg hs]
    have hn : d.get (lower f.name) = none := by
      rw [get_none_iff hr.all]; simpa using hs
    refine ⟨?_, ?_, set_addrs_nodup d _ a hr.addrs hfresh⟩
    · rw [set_new _ _ _ hn]
      exact List.rel_append hr.all (.cons ⟨ha, rfl⟩ .nil)
    · rw [set_new _ _ _ hn]
      simp only [List.map_append, List.map_cons, List.map_nil]
      rw [List.nodup_append]
      refine ⟨hr.keys, by simp, ?_⟩
      rintro k hk k' hk' rfl
      simp only [List.mem_singleton] at hk'
      subst hk'
      obtain ⟨x, hx, hxe⟩ := List.mem_map.1 hk
      have : (lookup lower c f.name) = none := by simpa using hs
      rw [forall2_keys hr.all] at hk
      obtain ⟨g, hg, hge⟩ := List.mem_map.1 hk
      have h3 := List.find?_eq_none.1 this g hg
      simp [same, hge] at h3

theorem update_get (h : Heap S) (b a : Nat) (u : Field S → Field S) :
    (Heap.update h b u)[a]? = if a = b then (h[a]?).map u else h[a]? := by
  unfold Heap.update
  cases hb : h[b]? with
  | none =>
    simp only
    split
    · next e => subst e; simp [hb]
    · rfl
  | some x =>
    simp only [List.getElem?_set]
    have hlt : b < h.length := by
      rcases Nat.lt_or_ge b h.length with h1 | h1
      · exact h1
      · rw [List.getElem?_eq_none h1] at hb; cases hb
    by_cases e : a = b
    · subst e
      rw [if_pos rfl, if_pos rfl, if_pos hlt, hb]; rfl
    · simp [e, Ne.symm e]

/-- Changing an object the collection does not hold. -/
theorem update_other {h : Heap S} {d : Dict S} {c : List (Field S)}
    (hr : List.Forall₂ (Match lower h) d c) (b : Nat) (u : Field S → Field S)
    (hb : b ∉ d.map Prod.snd) : List.Forall₂ (Match lower (Heap.update h b u)) d c := by
  induction hr with
  | nil => exact .nil
  | @cons x g d c hx hr ih =>
    simp only [List.map_cons, List.mem_cons, not_or] at hb
    refine .cons ⟨?_, hx.2⟩ (ih hb.2)
    rw [update_get, if_neg (fun e => hb.1 e.symm)]
    exact hx.1

theorem rep_modify {h : Heap S} {d : Dict S} {c : List (Field S)} (hr : Rep lower h d c)
    (name : S) (a : Nat) (ha : d.get (lower name) = some a) (u : Field S → Field S)
    (hu : ∀ f, (u f).name = f.name) :
    Rep lower (Heap.update h a u) d (c.map fun g => if same lower g.name name then u g else g) := by
  refine ⟨?_, hr.keys, hr.addrs⟩
  obtain ⟨hall, hkeys, haddrs⟩ := hr
  induction hall with
  | nil => simp [Dict.get] at ha
  | @cons x g d c hx hr ih =>
    obtain ⟨k, b⟩ := x
    obtain ⟨h1, h2⟩ := hx
    simp only at h1 h2
    simp only [List.map_cons, List.nodup_cons] at hkeys haddrs
    by_cases hk : lower name = k
    · have hb : (lower name == k) = true := by simpa using hk
      simp only [Dict.get, List.lookup_cons, hb, Option.some.injEq] at ha
      subst ha
      have hsame : same lower g.name name = true := by simp [same, ← h2, hk]
      simp only [List.map_cons, hsame, if_true]
      refine .cons ⟨?_, ?_⟩ ?_
      · rw [update_get, if_pos rfl, h1]; rfl
      · rw [hu]; exact h2
      · rw [map_none]
        · exact update_other hr b u haddrs.1
        · intro g' hg'
          simp only [same, decide_eq_false_iff_not]
          intro e
          exact hkeys.1 (by rw [← hk, ← e]; exact mem_fst hr hg')
    · have hb : (lower name == k) = false := by simpa using hk
      simp only [Dict.get, List.lookup_cons, hb] at ha
      have hsame : same lower g.name name = false := by
        simp only [same, decide_eq_false_iff_not]
        intro e; exact hk (by rw [h2, e])
      simp only [List.map_cons, hsame]
      refine .cons ⟨?_, h2⟩ (ih ha hkeys.2 haddrs.2)
      rw [update_get, if_neg]
      · exact h1
      · rintro rfl
        apply haddrs.1
        have := get_lookup hr name
        simp only [Dict.get, ha] at this
        obtain ⟨f, -, -, -, hm⟩ := this
        exact List.mem_map.2 ⟨_, hm, rfl⟩

theorem rep_append {h : Heap S} {d : Dict S} {c : List (Field S)} (hr : Rep lower h d c)
    (h' : Heap S) : Rep lower (h ++ h') d c := by
  refine ⟨hr.all.imp ?_, hr.keys, hr.addrs⟩
  rintro x f ⟨h1, h2⟩
  refine ⟨?_, h2⟩
  have : x.2 < h.length := by
    rcases Nat.lt_or_ge x.2 h.length with h3 | h3
    · exact h3
    · rw [List.getElem?_eq_none h3] at h1; cases h1
  rw [List.getElem?_append_left this]
  exact h1

theorem rep_lt {h : Heap S} {d : Dict S} {c : List (Field S)} (hr : Rep lower h d c) (a : Nat)
    (ha : a ∈ d.map Prod.snd) : a < h.length := by
  obtain ⟨hall, -, -⟩ := hr
  induction hall with
  | nil => simp at ha
  | @cons x g d c hx hr ih =>
    simp only [List.map_cons, List.mem_cons] at ha
    rcases ha with rfl | ha
    · rcases Nat.lt_or_ge x.2 h.length with h3 | h3
      · exact h3
      · have := hx.1; rw [List.getElem?_eq_none h3] at this; cases this
    · exact ih ha

theorem rep_del {h : Heap S} {d : Dict S} {c : List (Field S)} (hr : Rep lower h d c) (name : S) :
    Rep lower h (d.del (lower name)) (c.filter fun f => !same lower f.name name) := by
  obtain ⟨hall, hkeys, haddrs⟩ := hr
  refine ⟨?_, ?_, ?_⟩
  · clear hkeys haddrs
    induction hall with
    | nil => exact .nil
    | @cons x g d c hx hr ih =>
      obtain ⟨h1, h2⟩ := hx
      simp only [Dict.del, List.filter_cons] at ih ⊢
      by_cases hk : x.1 = lower name
      · have hsame : same lower g.name name = true := by simp [same, ← h2, hk]
        simp only [hk, ne_eq, not_true_eq_false, decide_false, hsame, Bool.not_true,
          Bool.false_eq_true, if_false]
        exact ih
      · have hsame : same lower g.name name = false := by
          simp only [same, decide_eq_false_iff_not]
          intro e; exact hk (by rw [h2, e])
        simp only [ne_eq, hk, not_false_eq_true, decide_true, if_true, hsame, Bool.not_false]
        exact .cons ⟨h1, h2⟩ ih
  · exact hkeys.sublist (List.filter_sublist.map _)
  · exact haddrs.sublist (List.filter_sublist.map _)

theorem merge_none (c : List (Field S)) (f : Field S) (h : lookup lower c f.name = none) :
    merge lower c f = c ++ [f] := by
  simp [merge, h]

theorem put_none (c : List (Field S)) (f : Field S) (h : lookup lower c f.name = none) :
    put lower c f = c ++ [f] := by
  simp [put, h]

/-- `extend` with objects the collection does not hold. -/
theorem rep_extend (fs : List (Field S)) : ∀ (addrs : List Nat) {h : Heap S} {d : Dict S}
    {c : List (Field S)}, Rep lower h d c → addrs.Nodup → (∀ a ∈ addrs, a ∉ d.map Prod.snd) →
    List.Forall₂ (fun (a : Nat) (f : Field S) => h[a]? = some f) addrs fs →
    ∃ h' d', extend lower h d addrs = some (h', d') ∧ Rep lower h' d' (fs.foldl (merge lower) c) := by
  induction fs with
  | nil =>
    intro addrs h d c hr _ _ hall
    cases hall
    exact ⟨h, d, rfl, hr⟩
  | cons f fs ih =>
    intro addrs h d c hr hnd hfresh hall
    cases hall with
    | @cons a _ addrs _ ha hall =>
    simp only [List.nodup_cons] at hnd
    simp only [extend, ha, List.foldl_cons]
    have hl := get_lookup hr.all f.name
    cases hg : d.get (lower f.name) with
    | some b =>
      rw [hg] at hl
      obtain ⟨g, h1, h2, h3, h4⟩ := hl
      have hbd : b ∈ d.map Prod.snd := List.mem_map.2 ⟨_, h4, rfl⟩
      have hba : b ≠ a := by
        rintro rfl
        exact hfresh b (by simp) hbd
      simp only [hba, false_and, if_false]
      have hm := rep_modify hr f.name b hg
        (fun g => { g with values := g.values ++ f.values }) (fun _ => rfl)
      have he : (c.map fun g => if same lower g.name f.name then
          { g with values := g.values ++ f.values } else g) = merge lower c f := by
        simp [merge, h1]
      rw [he] at hm
      refine ih addrs hm hnd.2 (fun x hx => hfresh x (by simp [hx])) ?_
      have haddr : ∀ x ∈ addrs, x ≠ b := by
        rintro x hx rfl
        exact hfresh x (by simp [hx]) hbd
      clear ih hnd hfresh hm
      induction hall with
      | nil => exact .nil
      | @cons x y xs ys hxy _ ih' =>
        refine .cons ?_ (ih' fun z hz => haddr z (by simp [hz]))
        rw [update_get, if_neg (haddr x (by simp))]
        exact hxy
    | none =>
      rw [hg] at hl
      simp only
      have hp := rep_put hr f a ha (hfresh a (by simp))
      rw [put_none c f hl] at hp
      rw [merge_none c f hl]
      refine ih addrs hp hnd.2 ?_ hall
      intro x hx hmem
      rcases set_addrs d _ a x hmem with hmem | rfl
      · exact hfresh x (by simp [hx]) hmem
      · exact hnd.1 hx

end Verif.Fields
