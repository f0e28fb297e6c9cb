import Verif.Fields.Lemmas

/-! # A header collection is a map keyed by the lower-cased name (C25) -/

set_option autoImplicit false

namespace Verif.Fields

variable {S : Type} [DecidableEq S] {lower : S → S}

theorem set_mem_none (d : Dict S) (k : S) (hk : k ∉ d.map Prod.fst) : d.get k = none := by
  induction d with
  | nil => rfl
  | cons x d ih =>
    obtain ⟨k', a'⟩ := x
    simp only [List.map_cons, List.mem_cons, not_or] at hk
    have hb : (k == k') = false := by simpa using hk.1
    simp only [Dict.get, List.lookup_cons, hb] at ih ⊢
    exact ih hk.2

theorem foldl_set (xs : List (S × Nat)) : ∀ (d : Dict S), ((d ++ xs).map Prod.fst).Nodup →
    xs.foldl (fun d x => Dict.set d x.1 x.2) d = d ++ xs := by
  induction xs with
  | nil => intro d _; simp
  | cons x xs ih =>
    intro d hd
    simp only [List.foldl_cons]
    rw [set_new, ih]
    · simp
    · simpa using hd
    · apply set_mem_none
      rw [List.map_append, List.nodup_append] at hd
      intro hm
      exact hd.2.2 _ hm x.1 (by simp) rfl

theorem fresh_get (h : Heap S) (fs : List (Field S)) :
    List.Forall₂ (fun (a : Nat) (f : Field S) => (h ++ fs)[a]? = some f)
      (List.range' h.length fs.length) fs := by
  induction fs generalizing h with
  | nil => exact .nil
  | cons f fs ih =>
    rw [List.length_cons, List.range'_succ]
    refine .cons (by simp) ?_
    have := ih (h ++ [f])
    simpa using this

theorem keys_fresh (h : Heap S) (addrs : List Nat) (fs : List (Field S))
    (hall : List.Forall₂ (fun (a : Nat) (f : Field S) => h[a]? = some f) addrs fs) :
    let keys := addrs.filterMap fun a => (h[a]?).map fun f => (lower f.name, a)
    keys.map Prod.fst = fs.map (fun f => lower f.name) ∧ keys.map Prod.snd = addrs ∧
      List.Forall₂ (Match lower h) keys fs := by
  induction hall with
  | nil => exact ⟨rfl, rfl, .nil⟩
  | @cons a f as fs ha _ ih =>
    simp only [List.filterMap_cons, ha, Option.map_some, List.map_cons] at ih ⊢
    obtain ⟨h1, h2, h3⟩ := ih
    exact ⟨by rw [h1], by rw [h2], .cons ⟨ha, rfl⟩ h3⟩

theorem distinct_iff (fs : List (Field S)) :
    (fs.map fun f => lower f.name).Nodup ↔ Distinct lower fs := by
  rw [List.Nodup, List.pairwise_map]; rfl

/-- `Fields(initial)`: the fields in the order given, or a `ValueError`. -/
theorem construct_spec (h : Heap S) (addrs : List Nat) (fs : List (Field S))
    (hall : List.Forall₂ (fun (a : Nat) (f : Field S) => h[a]? = some f) addrs fs) :
    (¬ Distinct lower fs ∧ construct lower h addrs = .error .valueError) ∨
    (Distinct lower fs ∧ ∃ d, construct lower h addrs = .ok d ∧ d.map Prod.snd = addrs ∧
      List.Forall₂ (Match lower h) d fs) := by
  obtain ⟨h1, h2, h3⟩ := keys_fresh (lower := lower) h addrs fs hall
  simp only [construct]
  by_cases hd : Distinct lower fs
  · right
    have hn := (distinct_iff fs).2 hd
    rw [← h1] at hn
    rw [if_pos hn, foldl_set _ [] (by simpa using hn)]
    exact ⟨hd, _, rfl, by simpa using h2, by simpa using h3⟩
  · left
    have hn : ¬ _ := fun hx => hd ((distinct_iff fs).1 hx)
    rw [← h1] at hn
    rw [if_neg hn]
    exact ⟨hd, rfl⟩

theorem erase_filter (v : S) (l : List S) : (l.erase v).filter (· ≠ v) = l.filter (· ≠ v) := by
  induction l with
  | nil => rfl
  | cons x l ih =>
    by_cases h : x = v
    · subst h; simp
    · rw [List.erase_cons_tail (by simpa using h)]
      simp only [List.filter_cons, ih]

theorem removeAll_filter (v : S) (n : Nat) : ∀ (l : List S), l.length ≤ n →
    removeAll v n l = l.filter (· ≠ v) := by
  induction n with
  | zero =>
    intro l hl
    cases l with
    | nil => rfl
    | cons => simp at hl
  | succ n ih =>
    intro l hl
    simp only [removeAll]
    by_cases hv : v ∈ l
    · rw [if_pos hv, ih _ (by rw [List.length_erase_of_mem hv]; omega), erase_filter]
    · rw [if_neg hv]
      exact (List.filter_eq_self.2 fun x hx => by simp; rintro rfl; exact hv hx).symm

theorem Field.remove_eq (f : Field S) (v : S) :
    f.remove v = ⟨f.name, f.values.filter (· ≠ v), f.kind⟩ := by
  rw [Field.remove, removeAll_filter _ _ _ (Nat.le_refl _)]

theorem step_spec (s : St S) (c : List (Field S)) (hr : Rep lower s.heap s.entries c) (op : Op S) :
    (s.step lower op).2 = (specStep lower c op).2 ∧
    Rep lower (s.step lower op).1.heap (s.step lower op).1.entries (specStep lower c op).1 := by
  have hfresh : s.heap.length ∉ s.entries.map Prod.snd := fun hm =>
    Nat.lt_irrefl _ (rep_lt hr _ hm)
  have hmod : ∀ name (u : Field S → Field S), (∀ f, (u f).name = f.name) →
      (s.modify lower name u).2 = (specModify lower c name u).2 ∧
      Rep lower (s.modify lower name u).1.heap (s.modify lower name u).1.entries
        (specModify lower c name u).1 := by
    intro name u hu
    simp only [St.modify, getItem, specModify, ← get_isSome hr.all name]
    cases hg : s.entries.get (lower name) with
    | none => simpa using hr
    | some a =>
      simp only [Option.isSome_some, if_true, true_and]
      exact rep_modify hr name a hg u hu
  cases op with
  | setItem name f =>
    simp only [St.step, setItem, specStep, same]
    rw [show (s.heap ++ [f])[s.heap.length]? = some f by simp]
    by_cases he : lower name = lower f.name
    · simp only [he, if_true, decide_true, true_and]
      exact rep_put (rep_append hr [f]) f _ (by simp) hfresh
    · simp only [he, if_false, decide_false, Bool.false_eq_true, true_and]
      exact rep_append hr [f]
  | setField f =>
    simp only [St.step, setField, setItem, specStep]
    rw [show (s.heap ++ [f])[s.heap.length]? = some f by simp]
    simp only [if_true, true_and]
    exact rep_put (rep_append hr [f]) f _ (by simp) hfresh
  | get name =>
    have hl := get_lookup hr.all name
    simp only [St.step, getItem, specStep]
    cases hg : s.entries.get (lower name) with
    | none =>
      rw [hg] at hl
      simp only [hl]
      exact ⟨trivial, hr⟩
    | some a =>
      rw [hg] at hl
      obtain ⟨f, h1, h2, -⟩ := hl
      simp only [h1, h2]
      exact ⟨trivial, hr⟩
  | contains name =>
    simp only [St.step, contains, specStep, get_isSome hr.all name, lookup]
    refine ⟨?_, hr⟩
    congr 1
    rw [List.isSome_find?]
  | del name =>
    simp only [St.step, delItem, contains, specStep, get_isSome hr.all name]
    by_cases hs : (lookup lower c name).isSome = true
    · simp only [hs, if_true, true_and]
      exact rep_del hr name
    · simp only [hs, if_false, Bool.false_eq_true, true_and]
      exact hr
  | extend fs =>
    have hall := fresh_get s.heap fs
    simp only [St.step, specStep]
    rcases construct_spec (lower := lower) _ _ _ hall with ⟨hd, he⟩ | ⟨hd, d, he, hs, -⟩
    · rw [he]
      simp only [hd, if_false, true_and]
      exact rep_append hr fs
    · rw [he]
      simp only [hd, if_true]
      have hx := rep_extend (lower := lower) fs (d.map Prod.snd) (rep_append hr fs)
        (by rw [hs]; exact List.nodup_range') (by
          intro a ha hm
          rw [hs, List.mem_range'_1] at ha
          have := rep_lt hr a hm
          omega) (by rw [hs]; exact hall)
      obtain ⟨h', d', h1, h2⟩ := hx
      rw [h1]
      exact ⟨rfl, h2⟩
  | add name v => exact hmod name _ fun _ => rfl
  | setValues name vs => exact hmod name _ fun _ => rfl
  | remove name v =>
    simp only [St.step, specStep, Field.remove_eq]
    exact hmod name _ fun _ => rfl
  | iter =>
    simp only [St.step, specStep, forall2_fields hr.all, true_and]
    exact hr
  | byType k =>
    simp only [St.step, specStep, getByType, forall2_fields hr.all, true_and]
    exact hr
  | len =>
    simp only [St.step, specStep, hr.all.length_eq, true_and]
    exact hr

theorem run_spec (ops : List (Op S)) : ∀ (s : St S) (c : List (Field S)),
    Rep lower s.heap s.entries c →
    (s.run lower ops).2 = (specRun lower c ops).2 ∧
    Rep lower (s.run lower ops).1.heap (s.run lower ops).1.entries (specRun lower c ops).1 := by
  induction ops with
  | nil => intro s c hr; exact ⟨rfl, hr⟩
  | cons op ops ih =>
    intro s c hr
    obtain ⟨h1, h2⟩ := step_spec s c hr op
    obtain ⟨h3, h4⟩ := ih _ _ h2
    simp only [St.run, specRun]
    exact ⟨by rw [h1, h3], h4⟩

/-- **C25**: whatever operations are performed on a collection that starts empty, in whatever casing
of the names, every answer and the fields found by iterating afterwards are those of a list of
fields in insertion order that is searched by lower-cased name. Fields are created where they are
put in; see `C25_extend_aliases_fails` for fields shared between collections. -/
theorem C25_case_insensitive_map_partial (lower : S → S) (ops : List (Op S)) :
    let r := St.run lower ⟨[], []⟩ ops
    r.2 = (specRun lower [] ops).2 ∧
    fields r.1.heap r.1.entries = (specRun lower [] ops).1 := by
  obtain ⟨h1, h2⟩ := run_spec (lower := lower) ops ⟨[], []⟩ [] ⟨.nil, by simp, by simp⟩
  exact ⟨h1, forall2_fields h2.all⟩

/-- **C25**: after any operations, no two fields of the collection have names equal up to case. -/
theorem C25_names_distinct (lower : S → S) (ops : List (Op S)) :
    let r := St.run lower ⟨[], []⟩ ops
    (fields r.1.heap r.1.entries).Pairwise fun f g => lower f.name ≠ lower g.name := by
  obtain ⟨-, h2⟩ := run_spec (lower := lower) ops ⟨[], []⟩ [] ⟨.nil, by simp, by simp⟩
  simp only
  rw [forall2_fields h2.all]
  exact h2.distinct

/-- **C25**: constructing a collection from fields succeeds exactly when no two names are equal up
to case, and then iteration yields those fields in that order. -/
theorem C25_construction (lower : S → S) (fs : List (Field S)) :
    (∃ d, construct lower fs (List.range' 0 fs.length) = .ok d ∧ fields fs d = fs) ↔
      fs.Pairwise fun f g => lower f.name ≠ lower g.name := by
  have hall : List.Forall₂ (fun (a : Nat) (f : Field S) => fs[a]? = some f)
      (List.range' 0 fs.length) fs := by simpa using fresh_get [] fs
  rcases construct_spec (lower := lower) _ _ _ hall with ⟨hd, he⟩ | ⟨hd, d, he, hs, hm⟩
  · rw [he]
    constructor
    · rintro ⟨d, h, -⟩; cases h
    · intro h; exact absurd h hd
  · rw [he]
    exact ⟨fun _ => hd, fun _ => ⟨d, rfl, forall2_fields hm⟩⟩

/-- **C25**: a rejected construction is a `ValueError`. -/
theorem C25_construction_rejected (lower : S → S) (fs : List (Field S))
    (h : ¬ fs.Pairwise fun f g => lower f.name ≠ lower g.name) :
    construct lower fs (List.range' 0 fs.length) = .error .valueError := by
  have hall : List.Forall₂ (fun (a : Nat) (f : Field S) => fs[a]? = some f)
      (List.range' 0 fs.length) fs := by simpa using fresh_get [] fs
  rcases construct_spec (lower := lower) _ _ _ hall with ⟨hd, he⟩ | ⟨hd, -⟩
  · exact he
  · exact absurd hd h

theorem ofTuples_spec (kind : Option Kind) (ts : List (S × S)) : ∀ (h : Heap S) (d : Dict S)
    (c : List (Field S)), Rep lower h d c →
    Rep lower (ofTuples lower kind h d ts).1 (ofTuples lower kind h d ts).2
      (ts.foldl (fun c t => merge lower c ⟨t.1, [t.2], kind.getD .header⟩) c) := by
  induction ts with
  | nil => intro h d c hr; exact hr
  | cons t ts ih =>
    obtain ⟨name, value⟩ := t
    intro h d c hr
    simp only [ofTuples, List.foldl_cons]
    have hl := get_lookup hr.all name
    cases hg : d.get (lower name) with
    | some a =>
      rw [hg] at hl
      obtain ⟨f, h1, -⟩ := hl
      simp only
      apply ih
      have := rep_modify hr name a hg (fun f => f.add value) (fun _ => rfl)
      simpa [merge, h1, Field.add] using this
    | none =>
      rw [hg] at hl
      simp only
      apply ih
      rw [merge_none _ _ (by simpa using hl)]
      have := rep_put (rep_append hr [⟨name, [value], kind.getD .header⟩])
        ⟨name, [value], kind.getD .header⟩ h.length (by simp)
        (fun hm => Nat.lt_irrefl _ (rep_lt hr _ hm))
      rwa [put_none _ _ (by simpa using hl)] at this

/-- **C25**: the collection made from (name, value) pairs gathers the values of each name, under
whatever casing they come, in order under the casing seen first. -/
theorem C25_from_tuples (lower : S → S) (kind : Option Kind) (ts : List (S × S)) :
    fields (ofTuples lower kind [] [] ts).1 (ofTuples lower kind [] [] ts).2 =
      ts.foldl (fun c t => merge lower c ⟨t.1, [t.2], kind.getD .header⟩) [] :=
  forall2_fields (ofTuples_spec (lower := lower) kind ts [] [] [] ⟨.nil, by simp, by simp⟩).all

/-! ## Collections sharing fields -/

/-- ASCII lower-casing, for the examples. -/
def ascii (s : List Char) : List Char := s.map Char.toLower

/-- What is false of the code: `a.extend(b)` puts the fields of `b` themselves into `a`. Adding a
value to that field of `a` then changes `b`. -/
theorem C25_extend_aliases_fails :
    let h : Heap (List Char) := [⟨"X".toList, ["1".toList], .header⟩]
    let b : Dict (List Char) := [("x".toList, 0)]
    ∃ h' a, extend ascii h [] (b.map Prod.snd) = some (h', a) ∧
      getItem ascii a "x".toList = .ok 0 ∧
      fields h' b = [⟨"X".toList, ["1".toList], .header⟩] ∧
      fields (Heap.update h' 0 fun f => f.add "2".toList) b =
        [⟨"X".toList, ["1".toList, "2".toList], .header⟩] := by
  refine ⟨_, _, rfl, ?_, ?_, ?_⟩ <;> decide +kernel

/-- What is false of the code: extending from the same collection twice does not return. -/
theorem C25_extend_twice_fails :
    let h : Heap (List Char) := [⟨"X".toList, ["1".toList], .header⟩]
    let b : Dict (List Char) := [("x".toList, 0)]
    ∃ h' a, extend ascii h [] (b.map Prod.snd) = some (h', a) ∧
      extend ascii h' a (b.map Prod.snd) = none := by
  refine ⟨_, _, rfl, ?_⟩
  decide +kernel

/-- **C25**, what does hold of collections that share no field: extending gathers the values. -/
theorem C25_extend_gathers_partial (lower : S → S) (h : Heap S) (a b : Dict S)
    (ca cb : List (Field S)) (ha : Rep lower h a ca) (hb : Rep lower h b cb)
    (hsep : ∀ x ∈ b.map Prod.snd, x ∉ a.map Prod.snd) :
    ∃ h' a', extend lower h a (b.map Prod.snd) = some (h', a') ∧
      fields h' a' = cb.foldl (merge lower) ca := by
  obtain ⟨h', a', h1, h2⟩ := rep_extend (lower := lower) cb (b.map Prod.snd) ha hb.addrs hsep (by
    have := hb.all
    clear hsep
    obtain ⟨hall, -, -⟩ := hb
    clear this
    induction hall with
    | nil => exact .nil
    | cons hx _ ih => exact .cons hx.1 ih)
  exact ⟨h', a', h1, forall2_fields h2.all⟩

/-! ## The hypotheses are met -/

example : (St.run ascii ⟨[], []⟩
    [.setField ⟨"Content-Type".toList, ["a".toList], .header⟩,
     .setField ⟨"X".toList, [], .trailer⟩,
     .add "CONTENT-type".toList "b".toList,
     .setItem "y".toList ⟨"X".toList, [], .header⟩,
     .contains "x".toList,
     .extend [⟨"x".toList, ["1".toList], .header⟩, ⟨"Z".toList, [], .header⟩],
     .del "content-TYPE".toList,
     .iter]).2 =
  [.done, .done, .done, .failed .valueError, .bool true, .done, .done,
   .list [⟨"X".toList, ["1".toList], .trailer⟩, ⟨"Z".toList, [], .header⟩]] := by decide +kernel

example : ¬ List.Pairwise (fun f g => ascii f.name ≠ ascii g.name)
    [(⟨"X".toList, [], .header⟩ : Field (List Char)), ⟨"x".toList, [], .trailer⟩] := by
  decide +kernel

example : ∃ (h : Heap (List Char)) (a b : Dict (List Char)) (ca cb : List (Field (List Char))),
    Rep ascii h a ca ∧ Rep ascii h b cb ∧ (∀ x ∈ b.map Prod.snd, x ∉ a.map Prod.snd) ∧
      ca ≠ [] ∧ cb ≠ [] :=
  ⟨[⟨"X".toList, [], .header⟩, ⟨"x".toList, [], .trailer⟩], [("x".toList, 0)], [("x".toList, 1)],
    [⟨"X".toList, [], .header⟩], [⟨"x".toList, [], .trailer⟩],
    ⟨.cons ⟨rfl, by decide +kernel⟩ .nil, by simp, by simp⟩,
    ⟨.cons ⟨rfl, by decide +kernel⟩ .nil, by simp, by simp⟩, by simp, by simp, by simp⟩

end Verif.Fields
