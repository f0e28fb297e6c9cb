import Verif.Changelog.Render
import Mathlib.Data.List.Perm.Basic

/-!
# C124 and C125 together, witnesses and examples
-/

set_option autoImplicit false

namespace Verif.Changelog

open Verif.Text Verif.Dict
open Verif.Json (Json)

/-! ## What scripts leave behind -/

def IsTold (j : Json) : Prop := ∃ t ∈ types, ∃ s, j = told t s

structure HistoryDisk (py : Py) (d : Disk) : Prop where
  pendingNodup : (d.pending.map Prod.fst).Nodup
  pendingNames : ∀ f ∈ d.pending, ∃ x, x ≠ [] ∧ f.1 = x ++ ".json".toList
  pendingTold : ∀ f ∈ d.pending, ∃ j, f.2 = .json j ∧ IsTold j
  nodup : (d.releases.map Prod.fst).Nodup
  made : ∀ f ∈ d.releases, (∃ u, IsVersion py u ∧ (f.1 = u ++ ".json".toList ∨ f.1 = u ++ ['\n'] ++ ".json".toList)) ∧
    ∃ xs, f.2 = .json (.obj [("changes".toList, .arr xs)]) ∧ ∀ x ∈ xs, IsTold x

theorem history_disk {py : Py} (ho : ∀ l, (py.order l).Perm l) (hs : ∀ n, py.stuck n = false) (hdot : py.digit '.' = none)
    (hlf : py.digit '\n' = none) {d : Disk} {l : List Json} (h : History py d l) : HistoryDisk py d := by
  induction h with
  | start => exact ⟨by simp, by simp, by simp, by simp, by simp⟩
  | @entry d d' l package type description id c h ht hf he ih =>
    obtain ⟨n, hn⟩ := he
    rw [newEntry_eq ht] at hn
    rcases entry_run py d (entryName package type id) (told type description) n with e | e | e
    · rw [e] at hn; cases hn
    · rw [e] at hn; cases hn
    · rw [e] at hn
      cases hn
      rw [put_fresh hf]
      refine ⟨?_, ?_, ?_, ih.nodup, ih.made⟩
      · show (List.map Prod.fst (d.pending ++ _)).Nodup
        rw [List.map_append, List.nodup_append]
        refine ⟨ih.pendingNodup, by simp, ?_⟩
        intro a ha b hb hab
        simp only [List.map_cons, List.map_nil, List.mem_singleton] at hb
        exact lookup_none.1 hf (hb ▸ hab ▸ ha)
      · intro f hf'
        rcases List.mem_append.1 hf' with hf' | hf'
        · exact ih.pendingNames f hf'
        · simp only [List.mem_singleton] at hf'
          subst hf'
          exact ⟨_, by simp, rfl⟩
      · intro f hf'
        rcases List.mem_append.1 hf' with hf' | hf'
        · exact ih.pendingTold f hf'
        · simp only [List.mem_singleton] at hf'
          subst hf'
          exact ⟨_, rfl, type, ht, description, rfl⟩
  | @release d d' l version dry c h he ih =>
    obtain ⟨h1, h2, h3⟩ := C124_release ho hdot hlf ih.pendingNodup ih.pendingNames version dry c he
    by_cases hc : c ≠ 0 ∨ dry = true
    · rw [h3 hc]
      exact ih
    · have hc0 : c = 0 := by
        by_contra hne
        exact hc (.inl hne)
      have hd : dry = false := by
        cases dry with
        | false => rfl
        | true => exact absurd (.inr rfl) hc
      obtain ⟨⟨xs, hx, hr⟩, hp⟩ := h2 hc0 hd
      obtain ⟨⟨u, hu, hv⟩, -, hfree⟩ := h1.1 hc0
      have hfree : d.releases.lookup (version ++ ".json".toList) = none := by
        rcases hfree with hfree | hfree
        · rw [hd] at hfree; cases hfree
        · exact hfree
      have hp := hp hs
      refine ⟨by rw [hp]; simp, by rw [hp]; simp, by rw [hp]; simp, ?_, ?_⟩
      · rw [hr, List.map_append, List.nodup_append]
        refine ⟨ih.nodup, by simp, ?_⟩
        intro a ha b hb hab
        simp only [List.map_cons, List.map_nil, List.mem_singleton] at hb
        exact lookup_none.1 hfree (hb ▸ hab ▸ ha)
      · intro f hf
        rw [hr] at hf
        rcases List.mem_append.1 hf with hf | hf
        · exact ih.made f hf
        · simp only [List.mem_singleton] at hf
          subst hf
          refine ⟨⟨u, hu, ?_⟩, _, rfl, ?_⟩
          · rcases hv with rfl | rfl
            · exact .inl rfl
            · exact .inr rfl
          · intro x hx'
            obtain ⟨t, -, hx'⟩ := List.mem_flatMap.1 hx'
            have hx' := hx.mem_iff.1 (List.mem_filter.1 hx').1
            obtain ⟨g, hg, hgx⟩ := List.mem_filterMap.1 hx'
            obtain ⟨j, hj, htold⟩ := ih.pendingTold g hg
            rw [hj] at hgx
            simp only [Option.some.injEq] at hgx
            exact hgx ▸ htold

/-! ## Lemmas -/

/-- A change of the changelog as it was told. -/
def asTold (c : Change) : Json := .obj [("type".toList, c.type), ("description".toList, c.description)]

def toChange (j : Json) : Change := (changeOf j).getD ⟨.null, .null⟩

theorem lookup_type (a b : Json) : List.lookup "type".toList [("type".toList, a), ("description".toList, b)] = some a := by
  rw [Verif.Dict.lookup_cons, if_pos rfl]

theorem lookup_description (a b : Json) :
    List.lookup "description".toList [("type".toList, a), ("description".toList, b)] = some b := by
  rw [Verif.Dict.lookup_cons, if_neg (by decide +kernel), Verif.Dict.lookup_cons, if_pos rfl]

theorem changeOf_told (t s : Text) : changeOf (told t s) = some ⟨.str t, .str s⟩ := by
  simp only [changeOf, told, lookup_type, lookup_description, Option.getD_some]

theorem changesOf_told {xs : List Json} (h : ∀ x ∈ xs, IsTold x) :
    changesOf (.obj [("changes".toList, .arr xs)]) = some (xs.map toChange) := by
  have : changesOf (.obj [("changes".toList, .arr xs)]) = xs.mapM changeOf := by
    rw [changesOf]
    simp only [List.lookup, beq_self_eq_true]
  rw [this]
  induction xs with
  | nil => rfl
  | cons x xs ih =>
    obtain ⟨t, -, s, rfl⟩ := h x (by simp)
    rw [List.mapM_cons, ih (fun y hy => h y (by simp [hy])) (by rw [changesOf]; simp only [List.lookup, beq_self_eq_true]),
      changeOf_told]
    simp only [List.map_cons, toChange, changeOf_told, Option.getD_some]
    rfl

theorem asTold_toChange {x : Json} (h : IsTold x) : asTold (toChange x) = x := by
  obtain ⟨t, -, s, rfl⟩ := h
  rw [toChange, changeOf_told]
  rfl

theorem inRelease_changes (xs : List Json) : inRelease (.json (.obj [("changes".toList, .arr xs)])) = xs := by
  rw [inRelease, if_pos rfl]

theorem stem (u : Text) : (u ++ ".json".toList).take ((u ++ ".json".toList).length - 5) = u := by simp

/-! ## Theorems -/

/-- The versions whose files have no line feed in their names are all versions but those given with one at their ends. -/
theorem plain_name {py : Py} {d : Disk} (h : HistoryDisk py d) (hp : ∀ f ∈ d.releases, '\n' ∉ f.1) {f : Text × File}
    (hf : f ∈ d.releases) : ∃ u, IsVersion py u ∧ f.1 = u ++ ".json".toList := by
  obtain ⟨⟨u, hu, e | e⟩, -⟩ := h.made f hf
  · exact ⟨u, hu, e⟩
  · exact absurd (by rw [e]; simp) (hp f hf)

/-- C125: after any number of scripts that ran one after the other, every change that was told either waits or is in the
changelog, once and under its heading. Missing: versions given with a line feed at their ends (`C125_newline_fails`). -/
theorem C125_every_change_partial {py : Py} (ho : ∀ l, (py.order l).Perm l) (hs : ∀ n, py.stuck n = false)
    (hdot : py.digit '.' = none) (hlf : py.digit '\n' = none) {d : Disk} {l : List Json} (h : History py d l)
    (hp : ∀ f ∈ d.releases, '\n' ∉ f.1) (hne : d.releases ≠ []) :
    ∃ rs : List (Text × List Change), render py d = some ("# Changelog\n".toList ++ rs.flatMap (layout py)) ∧
      (rs.map Prod.fst).Nodup ∧ (rs.Pairwise fun x y => ¬ Older py x.1 y.1) ∧
      (∀ r ∈ rs, ∀ c ∈ r.2, ∃ t ∈ types, ∃ s, c = ⟨.str t, .str s⟩) ∧
      (waiting d ++ (rs.flatMap Prod.snd).map asTold).Perm l := by
  have hd := history_disk ho hs hdot hlf h
  obtain ⟨text, ht⟩ : ∃ text, render py d = some text := by
    cases hr : render py d with
    | some text => exact ⟨text, rfl⟩
    | none =>
      rcases (C125_none ho hdot d).1 hr with h1 | ⟨v, j, hv, hj, hc⟩
      · obtain ⟨f, hf⟩ := List.exists_mem_of_ne_nil _ hne
        obtain ⟨u, hu, hfu⟩ := plain_name hd hp hf
        obtain ⟨-, xs, hx, -⟩ := hd.made f hf
        exact absurd (lookup_mem hd.nodup (show (u ++ ".json".toList, File.json _) ∈ d.releases by rw [← hfu, ← hx]; exact hf)) (h1 u _ hu)
      · obtain ⟨-, xs, hx, hx'⟩ := hd.made _ (mem_of_lookup hj)
        cases hx
        rw [changesOf_told hx'] at hc
        cases hc
  obtain ⟨rs, e, -, hnd, hord, hmem⟩ := C125_render ho hdot ht
  refine ⟨rs, by rw [ht, e], hnd, hord, ?_, ?_⟩
  · rintro ⟨v, cs⟩ hr c hc
    obtain ⟨-, j, hj, hcs⟩ := (hmem v cs).1 hr
    obtain ⟨-, xs, hx, hx'⟩ := hd.made _ (mem_of_lookup hj)
    cases hx
    rw [changesOf_told hx'] at hcs
    cases hcs
    obtain ⟨x, hxx, rfl⟩ := List.mem_map.1 hc
    obtain ⟨t, ht, s, rfl⟩ := hx' x hxx
    exact ⟨t, ht, s, by rw [toChange, changeOf_told]; rfl⟩
  · refine List.Perm.trans (List.Perm.append_left _ ?_) (C124_exactly_once ho hs h)
    have hR : rs.Perm (d.releases.map fun f => (f.1.take (f.1.length - 5), (inRelease f.2).map toChange)) := by
      rw [List.perm_ext_iff_of_nodup (List.Nodup.of_map _ hnd)]
      · rintro ⟨v, cs⟩
        rw [hmem, List.mem_map]
        constructor
        · rintro ⟨-, j, hj, hcs⟩
          obtain ⟨-, xs, hx, hx'⟩ := hd.made _ (mem_of_lookup hj)
          cases hx
          rw [changesOf_told hx'] at hcs
          cases hcs
          refine ⟨_, mem_of_lookup hj, ?_⟩
          rw [inRelease_changes]
          simp
        · rintro ⟨f, hf, he⟩
          obtain ⟨u, hu, hfu⟩ := plain_name hd hp hf
          obtain ⟨-, xs, hx, hx'⟩ := hd.made f hf
          rw [hx, inRelease_changes, hfu] at he
          cases he
          rw [stem]
          refine ⟨hu, _, ?_, changesOf_told hx'⟩
          rw [← hfu, ← hx]
          exact lookup_mem hd.nodup hf
      · apply List.Nodup.of_map Prod.fst
        rw [List.map_map]
        have : ((d.releases.map Prod.fst).map fun n => n.take (n.length - 5)).Nodup := by
          refine List.Nodup.map_on ?_ hd.nodup
          intro a ha b hb hab
          obtain ⟨f, hf, rfl⟩ := List.mem_map.1 ha
          obtain ⟨g, hg, rfl⟩ := List.mem_map.1 hb
          obtain ⟨u, -, hu⟩ := plain_name hd hp hf
          obtain ⟨w, -, hw⟩ := plain_name hd hp hg
          simp only [hu, hw, stem] at hab ⊢
          rw [hab]
        rw [List.map_map] at this
        exact this
    refine ((hR.flatMap_right _).map _).trans ?_
    rw [released, List.flatMap_map, List.map_flatMap]
    apply List.Perm.of_eq
    refine List.flatMap_congr fun f hf => ?_
    obtain ⟨-, xs, hx, hx'⟩ := hd.made f hf
    rw [hx, inRelease_changes]
    show (xs.map toChange).map asTold = xs
    rw [List.map_map]
    conv => rhs; rw [← List.map_id xs]
    exact List.map_congr_left fun x hx => asTold_toChange (hx' x hx)

end Verif.Changelog
