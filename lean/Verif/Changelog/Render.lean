import Verif.Changelog.Props
import Mathlib.Data.List.Induction
import Mathlib.Data.List.Nodup

/-!
# C125: the changelog has every release, the newest first
-/

set_option autoImplicit false

namespace Verif.Changelog

open Verif.Text Verif.Dict
open Verif.Json (Json)

/-! ## Specification -/

/-- One heading with its changes, if there are any. -/
def section_ (py : Py) (cs : List Change) (type title : Text) : Text :=
  match cs.filter fun c => match c.type with
      | .str s => s == type
      | _ => false with
  | [] => []
  | items => "\n\n### ".toList ++ title ++ items.flatMap fun c => "\n* ".toList ++ (match c.description with
      | .str t => t
      | j => py.show_ j)

/-- One release. -/
def layout (py : Py) (r : Text × List Change) : Text :=
  "\n## v".toList ++ r.1 ++
    section_ py r.2 "breaking".toList "Breaking Changes".toList ++ section_ py r.2 "feature".toList "Features".toList ++
    section_ py r.2 "enhancement".toList "Enhancements".toList ++ section_ py r.2 "bugfix".toList "Bug fixes".toList ++
    section_ py r.2 "dependency".toList "Dependencies".toList ++ "\n".toList

/-- The number that digits stand for. -/
inductive Number (py : Py) : Text → Nat → Prop
  | nil : Number py [] 0
  | snoc {t : Text} {n x : Nat} {c : Char} : Number py t n → py.digit c = some x → Number py (t ++ [c]) (10 * n + x)

/-- One version is before another: by the first number, then by the second, then by the third. -/
def Older (py : Py) (v w : Text) : Prop :=
  ∃ a b c a' b' c' : Text, ∃ i j k i' j' k' : Nat, v = a ++ '.' :: b ++ '.' :: c ∧ w = a' ++ '.' :: b' ++ '.' :: c' ∧
    Number py a i ∧ Number py b j ∧ Number py c k ∧ Number py a' i' ∧ Number py b' j' ∧ Number py c' k' ∧
    (i < i' ∨ i = i' ∧ (j < j' ∨ j = j' ∧ k < k'))

/-- A release that is on disk, with its changes. -/
def OnDisk (py : Py) (d : Disk) (v : Text) (cs : List Change) : Prop :=
  IsVersion py v ∧ ∃ j, d.releases.lookup (v ++ ".json".toList) = some (.json j) ∧ changesOf j = some cs

/-! ## Lemmas: versions -/

theorem value_number {py : Py} {t : Text} {n : Nat} (h : Number py t n) : value py t = n := by
  induction h with
  | nil => rfl
  | snoc h hc ih =>
    rw [value, List.foldl_append]
    rw [value] at ih
    rw [ih]
    simp [hc]

theorem number_digits {py : Py} {t : Text} {n : Nat} (h : Number py t n) : ∀ ch ∈ t, (py.digit ch).isSome = true := by
  induction h with
  | nil => simp
  | snoc h hc ih =>
    intro ch hch
    rcases List.mem_append.1 hch with hch | hch
    · exact ih ch hch
    · simp only [List.mem_singleton] at hch
      rw [hch, hc]
      rfl

theorem number_exists {py : Py} : ∀ (t : Text), (∀ ch ∈ t, (py.digit ch).isSome = true) → Number py t (value py t) := by
  intro t
  induction t using List.reverseRecOn with
  | nil => exact fun _ => .nil
  | append_singleton t c ih =>
    intro h
    obtain ⟨x, hx⟩ := Option.isSome_iff_exists.1 (h c (by simp))
    have := Number.snoc (ih fun ch hc => h ch (by simp [hc])) hx
    rw [value_number this]
    exact this

theorem split_version {py : Py} (hdot : py.digit '.' = none) {a b c : Text}
    (h : ∀ x ∈ [a, b, c], ∀ ch ∈ x, (py.digit ch).isSome = true) : split '.' (a ++ '.' :: b ++ '.' :: c) = [a, b, c] := by
  have := split_join '.' [a, b, c] (by simp) fun x hx => digits_not_mem (h x hx) hdot
  simpa [join] using this

theorem less_iff {py : Py} (hdot : py.digit '.' = none) {v w : Text} (hv : IsVersion py v) (hw : IsVersion py w) :
    less (key py v) (key py w) = true ↔ Older py v w := by
  obtain ⟨a, b, c, h1, rfl⟩ := hv
  obtain ⟨a', b', c', h2, rfl⟩ := hw
  have k1 : ∀ a b c : Text, (∀ x ∈ [a, b, c], ∀ ch ∈ x, (py.digit ch).isSome = true) →
      key py (a ++ '.' :: b ++ '.' :: c) = [value py a, value py b, value py c] := by
    intro a b c h
    rw [key, split_version hdot h]
    rfl
  rw [k1 _ _ _ fun x hx => (h1 x hx).2, k1 _ _ _ fun x hx => (h2 x hx).2]
  have n1 := fun x hx => number_exists x (h1 x hx).2
  have n2 := fun x hx => number_exists x (h2 x hx).2
  simp only [less, Bool.or_eq_true, Bool.and_eq_true, decide_eq_true_eq, Bool.false_eq_true, and_false, or_false]
  constructor
  · intro h
    exact ⟨a, b, c, a', b', c', _, _, _, _, _, _, rfl, rfl, n1 a (by simp), n1 b (by simp), n1 c (by simp), n2 a' (by simp),
      n2 b' (by simp), n2 c' (by simp), h⟩
  · rintro ⟨x, y, z, x', y', z', i, j, k, i', j', k', e1, e2, m1, m2, m3, m4, m5, m6, h⟩
    have s1 : [a, b, c] = [x, y, z] := by
      rw [← split_version hdot fun x hx => (h1 x hx).2, e1]
      refine split_version (py := py) hdot fun u hu => ?_
      simp only [List.mem_cons, List.not_mem_nil, or_false] at hu
      rcases hu with rfl | rfl | rfl
      · exact number_digits m1
      · exact number_digits m2
      · exact number_digits m3
    have s2 : [a', b', c'] = [x', y', z'] := by
      rw [← split_version hdot fun x hx => (h2 x hx).2, e2]
      refine split_version (py := py) hdot fun u hu => ?_
      simp only [List.mem_cons, List.not_mem_nil, or_false] at hu
      rcases hu with rfl | rfl | rfl
      · exact number_digits m4
      · exact number_digits m5
      · exact number_digits m6
    cases s1
    cases s2
    rw [value_number m1, value_number m2, value_number m3, value_number m4, value_number m5, value_number m6]
    exact h

theorem versionOf_iff {py : Py} (hdot : py.digit '.' = none) (name v : Text) :
    versionOf py name = some v ↔ IsVersion py v ∧ (name = v ++ ".json".toList ∨ name = v ++ ".json".toList ++ ['\n']) := by
  have last : ∀ x : Text, (x ++ ".json".toList).getLast? ≠ some '\n' := by
    intro x
    rw [List.getLast?_append]
    simp
  rw [← beforeEnd_iff name _ (last v)]
  constructor
  · intro h
    rw [versionOf.eq_def] at h
    split at h
    · rename_i a b c e hs
      by_cases hc : (isDigits py a && isDigits py b && isDigits py c && e == "json".toList) = true
      · rw [if_pos hc] at h
        cases h
        simp only [Bool.and_eq_true, isDigits_iff, beq_iff_eq] at hc
        obtain ⟨⟨⟨ha, hb⟩, hc⟩, rfl⟩ := hc
        have hj : join '.' [a, b, c] = a ++ '.' :: b ++ '.' :: c := by simp [join]
        refine ⟨⟨a, b, c, ?_, hj⟩, ?_⟩
        · intro x hx
          simp only [List.mem_cons, List.not_mem_nil, or_false] at hx
          rcases hx with rfl | rfl | rfl
          · exact ha
          · exact hb
          · exact hc
        · rw [← join_split '.' (beforeEnd name), hs]
          simp [join]
      · rw [if_neg hc] at h
        cases h
    · cases h
  · rintro ⟨⟨a, b, c, h1, rfl⟩, h⟩
    have hs : split '.' (beforeEnd name) = [a, b, c, "json".toList] := by
      rw [h]
      have := split_join '.' [a, b, c, "json".toList] (by simp) (by
        intro x hx
        simp only [List.mem_cons, List.not_mem_nil, or_false] at hx
        rcases hx with rfl | rfl | rfl | rfl
        · exact digits_not_mem (h1 _ (by simp)).2 hdot
        · exact digits_not_mem (h1 _ (by simp)).2 hdot
        · exact digits_not_mem (h1 _ (by simp)).2 hdot
        · decide)
      simpa [join] using this
    rw [versionOf, hs]
    simp only
    rw [if_pos]
    · simp [join]
    · simp only [Bool.and_eq_true, isDigits_iff, beq_iff_eq]
      exact ⟨⟨⟨h1 _ (by simp), h1 _ (by simp)⟩, h1 _ (by simp)⟩, trivial⟩

/-! ## Lemmas: sorting -/

theorem less_trans : ∀ (x y z : List Nat), less y x = false → less z y = false → less z x = false
  | [], y, z, _, h2 => by
    cases z <;> rfl
  | a :: x, [], z, h1, h2 => by simp [less] at h1
  | a :: x, b :: y, [], h1, h2 => by simp [less] at h2
  | a :: x, b :: y, c :: z, h1, h2 => by
    simp only [less, Bool.or_eq_false_iff, decide_eq_false_iff_not, Bool.and_eq_false_iff] at *
    have ih := less_trans x y z
    refine ⟨by omega, ?_⟩
    by_cases h : c = a
    · right
      have e1 : a = b := by omega
      subst e1 h
      simp only [not_true_eq_false, false_or] at h1 h2
      exact ih h1.2 h2.2
    · exact .inl h

theorem less_asymm : ∀ (x y : List Nat), less x y = true → less y x = false
  | [], [], h => by simp [less] at h
  | [], _ :: _, _ => rfl
  | _ :: _, [], h => by simp [less] at h
  | a :: x, b :: y, h => by
    simp only [less, Bool.or_eq_true, Bool.and_eq_true, decide_eq_true_eq] at h
    simp only [less, Bool.or_eq_false_iff, decide_eq_false_iff_not, Bool.and_eq_false_iff]
    rcases h with h | ⟨rfl, h⟩
    · exact ⟨by omega, .inl (by omega)⟩
    · exact ⟨by omega, .inr (less_asymm x y h)⟩

theorem insert_sorted {α : Type} {lt : α → α → Bool} (tr : ∀ x y z, lt y x = false → lt z y = false → lt z x = false)
    (as : ∀ x y, lt x y = true → lt y x = false) (x : α) (l : List α) (h : l.Pairwise fun a b => lt b a = false) :
    (insert lt x l).Pairwise fun a b => lt b a = false := by
  induction l with
  | nil => simp [insert]
  | cons y l ih =>
    rw [List.pairwise_cons] at h
    rw [insert]
    by_cases hy : lt y x = true
    · rw [if_pos hy, List.pairwise_cons]
      refine ⟨?_, ih h.2⟩
      intro z hz
      rcases List.mem_cons.1 ((insert_perm lt x l).mem_iff.1 hz) with rfl | hz
      · exact as _ _ hy
      · exact h.1 z hz
    · rw [if_neg hy, List.pairwise_cons, List.pairwise_cons]
      have hy : lt y x = false := by simpa using hy
      refine ⟨?_, h⟩
      intro z hz
      rcases List.mem_cons.1 hz with rfl | hz
      · exact hy
      · exact tr _ _ _ hy (h.1 z hz)

theorem sort_sorted {α : Type} {lt : α → α → Bool} (tr : ∀ x y z, lt y x = false → lt z y = false → lt z x = false)
    (as : ∀ x y, lt x y = true → lt y x = false) (l : List α) : (sort lt l).Pairwise fun a b => lt b a = false := by
  induction l with
  | nil => exact .nil
  | cons x l ih => exact insert_sorted tr as x _ ih

/-! ## Lemmas: loading -/

/-- What is known of the releases that have been loaded, and those that are still to be. -/
structure Loaded (py : Py) (d : Disk) (r : List (Text × List Change)) : Prop where
  nodup : (r.map Prod.fst).Nodup
  disk : ∀ e ∈ r, ∃ j, d.releases.lookup (versionFile e.1) = some (.json j) ∧ changesOf j = some e.2
  sorted : r.Pairwise fun x y => less (key py y.1) (key py x.1) = false

theorem loadReleases_spec {py : Py} {d : Disk} : ∀ (vs : List Text) (r : List (Text × List Change)), Loaded py d r →
    (vs.Pairwise fun x y => less (key py y) (key py x) = false) →
    (∀ e ∈ r, ∀ v ∈ vs, less (key py v) (key py e.1) = false) →
    (∀ rs, loadReleases d vs r = some rs → Loaded py d rs ∧ ∀ v cs, (v, cs) ∈ rs ↔ (v, cs) ∈ r ∨
      v ∈ vs ∧ ∃ j, d.releases.lookup (versionFile v) = some (.json j) ∧ changesOf j = some cs) ∧
    (loadReleases d vs r = none ↔ ∃ v ∈ vs, ∃ j, d.releases.lookup (versionFile v) = some (.json j) ∧ changesOf j = none) := by
  intro vs
  induction vs with
  | nil =>
    intro r hr _ _
    refine ⟨?_, by simp [loadReleases]⟩
    intro rs h
    cases h
    exact ⟨hr, by simp⟩
  | cons v vs ih =>
    intro r hr hs hle
    rw [List.pairwise_cons] at hs
    have hle' : ∀ e ∈ r, ∀ v ∈ vs, less (key py v) (key py e.1) = false := fun e he v hv => hle e he v (by simp [hv])
    have skip : (∀ j, d.releases.lookup (versionFile v) ≠ some (.json j)) → loadReleases d (v :: vs) r = loadReleases d vs r := by
      intro h
      rw [loadReleases.eq_def]
      simp only
    cases hl : d.releases.lookup (versionFile v) with
    | none =>
      rw [skip (by rw [hl]; simp)]
      obtain ⟨h1, h2⟩ := ih r hr hs.2 hle'
      refine ⟨?_, ?_⟩
      · intro rs h
        obtain ⟨h3, h4⟩ := h1 rs h
        refine ⟨h3, fun u cs => ?_⟩
        rw [h4]
        constructor
        · rintro (h | ⟨h, h'⟩)
          · exact .inl h
          · exact .inr ⟨by simp [h], h'⟩
        · rintro (h | ⟨h, j, h', h''⟩)
          · exact .inl h
          · rcases List.mem_cons.1 h with rfl | h
            · rw [hl] at h'; cases h'
            · exact .inr ⟨h, j, h', h''⟩
      · rw [h2]
        constructor
        · rintro ⟨u, hu, h⟩
          exact ⟨u, by simp [hu], h⟩
        · rintro ⟨u, hu, j, h, h'⟩
          rcases List.mem_cons.1 hu with rfl | hu
          · rw [hl] at h; cases h
          · exact ⟨u, hu, j, h, h'⟩
    | some f =>
      cases f with
      | bad =>
        rw [skip (by rw [hl]; simp)]
        obtain ⟨h1, h2⟩ := ih r hr hs.2 hle'
        refine ⟨?_, ?_⟩
        · intro rs h
          obtain ⟨h3, h4⟩ := h1 rs h
          refine ⟨h3, fun u cs => ?_⟩
          rw [h4]
          constructor
          · rintro (h | ⟨h, h'⟩)
            · exact .inl h
            · exact .inr ⟨by simp [h], h'⟩
          · rintro (h | ⟨h, j, h', h''⟩)
            · exact .inl h
            · rcases List.mem_cons.1 h with rfl | h
              · rw [hl] at h'; cases h'
              · exact .inr ⟨h, j, h', h''⟩
        · rw [h2]
          constructor
          · rintro ⟨u, hu, h⟩
            exact ⟨u, by simp [hu], h⟩
          · rintro ⟨u, hu, j, h, h'⟩
            rcases List.mem_cons.1 hu with rfl | hu
            · rw [hl] at h; cases h
            · exact ⟨u, hu, j, h, h'⟩
      | json j =>
        rw [loadReleases.eq_def]
        simp only [hl]
        cases hc : changesOf j with
        | none =>
          simp only
          exact ⟨fun rs h => (by cases h), fun _ => ⟨v, by simp, j, hl, hc⟩, fun _ => trivial⟩
        | some cs =>
          simp only
          have next : Loaded py d (put r v cs) ∧ (∀ e ∈ put r v cs, ∀ u ∈ vs, less (key py u) (key py e.1) = false) ∧
              ∀ e, e ∈ put r v cs ↔ e ∈ r ∨ e = (v, cs) := by
            by_cases hv : r.lookup v = none
            · rw [put_fresh hv]
              refine ⟨⟨?_, ?_, ?_⟩, ?_, ?_⟩
              · rw [List.map_append, List.nodup_append]
                refine ⟨hr.nodup, by simp, ?_⟩
                intro a ha b hb hab
                simp only [List.map_cons, List.map_nil, List.mem_singleton] at hb
                exact lookup_none.1 hv (hb ▸ hab ▸ ha)
              · intro e he
                rcases List.mem_append.1 he with he | he
                · exact hr.disk e he
                · simp only [List.mem_singleton] at he
                  subst he
                  exact ⟨j, hl, hc⟩
              · rw [List.pairwise_append]
                refine ⟨hr.sorted, by simp, ?_⟩
                intro a ha b hb
                simp only [List.mem_singleton] at hb
                subst hb
                exact hle a ha v (by simp)
              · intro e he u hu
                rcases List.mem_append.1 he with he | he
                · exact hle' e he u hu
                · simp only [List.mem_singleton] at he
                  subst he
                  exact hs.1 u hu
              · intro e
                simp
            · obtain ⟨cs', hv'⟩ := Option.ne_none_iff_exists'.1 hv
              obtain ⟨j', h1, h2⟩ := hr.disk _ (mem_of_lookup hv')
              rw [hl] at h1
              simp only [Option.some.injEq, File.json.injEq] at h1
              subst h1
              rw [hc] at h2
              simp only [Option.some.injEq] at h2
              subst h2
              rw [put_self v cs r hv']
              refine ⟨hr, hle', fun e => ⟨.inl, ?_⟩⟩
              rintro (h | rfl)
              · exact h
              · exact mem_of_lookup hv'
          obtain ⟨n1, n2, n3⟩ := next
          obtain ⟨h1, h2⟩ := ih (put r v cs) n1 hs.2 n2
          refine ⟨?_, ?_⟩
          · intro rs h
            obtain ⟨h3, h4⟩ := h1 rs h
            refine ⟨h3, fun u cs' => ?_⟩
            rw [h4, n3]
            constructor
            · rintro ((h | h) | ⟨h, h'⟩)
              · exact .inl h
              · cases h
                exact .inr ⟨by simp, j, hl, hc⟩
              · exact .inr ⟨by simp [h], h'⟩
            · rintro (h | ⟨h, j', h', h''⟩)
              · exact .inl (.inl h)
              · rcases List.mem_cons.1 h with rfl | h
                · rw [hl] at h'
                  simp only [Option.some.injEq, File.json.injEq] at h'
                  subst h'
                  rw [hc] at h''
                  simp only [Option.some.injEq] at h''
                  subst h''
                  exact .inl (.inr rfl)
                · exact .inr ⟨h, j', h', h''⟩
          · rw [h2]
            constructor
            · rintro ⟨u, hu, h⟩
              exact ⟨u, by simp [hu], h⟩
            · rintro ⟨u, hu, j', h, h'⟩
              rcases List.mem_cons.1 hu with rfl | hu
              · rw [hl] at h
                simp only [Option.some.injEq, File.json.injEq] at h
                subst h
                rw [hc] at h'
                cases h'
              · exact ⟨u, hu, j', h, h'⟩

theorem mem_sortedVersions {py : Py} (ho : ∀ l, (py.order l).Perm l) (hdot : py.digit '.' = none) {d : Disk} {v : Text} :
    (v ∈ sortedVersions py d → IsVersion py v) ∧
    (∀ f, d.releases.lookup (versionFile v) = some f → (v ∈ sortedVersions py d ↔ IsVersion py v)) := by
  have hm : v ∈ sortedVersions py d ↔ ∃ name ∈ d.releases.map Prod.fst, versionOf py name = some v := by
    rw [sortedVersions, (sort_perm _ _).mem_iff, List.mem_filterMap]
    constructor
    · rintro ⟨n, h1, h2⟩
      exact ⟨n, (ho _).mem_iff.1 h1, h2⟩
    · rintro ⟨n, h1, h2⟩
      exact ⟨n, (ho _).mem_iff.2 h1, h2⟩
  refine ⟨?_, ?_⟩
  · intro h
    obtain ⟨n, -, h⟩ := hm.1 h
    exact ((versionOf_iff hdot n v).1 h).1
  · intro f hf
    refine ⟨?_, ?_⟩
    · intro h
      obtain ⟨n, -, h⟩ := hm.1 h
      exact ((versionOf_iff hdot n v).1 h).1
    · intro h
      exact hm.2 ⟨versionFile v, List.mem_map_of_mem (mem_of_lookup hf), (versionOf_iff hdot _ v).2 ⟨h, .inl rfl⟩⟩

/-! ## Lemmas: the template -/

theorem changeLoop_eq (py : Py) (type : Text) (first : Bool) (cs : List Change) :
    changeLoop py type first cs = match cs.filter fun c => isText c.type type with
      | [] => []
      | items => (if first then heading type else []) ++ items.flatMap fun c => "\n* ".toList ++ shown py c.description := by
  induction cs generalizing first with
  | nil => rfl
  | cons c cs ih =>
    rw [changeLoop]
    by_cases h : isText c.type type = true
    · rw [if_pos h, ih, List.filter_cons_of_pos (p := fun c : Change => isText c.type type) h]
      cases hf : cs.filter fun c => isText c.type type with
      | nil => simp
      | cons x xs => simp
    · rw [if_neg h, ih, List.filter_cons_of_neg (p := fun c : Change => isText c.type type) h]

theorem section_eq (py : Py) (cs : List Change) (type title : Text) (h : heading type = "\n\n### ".toList ++ title) :
    changeLoop py type true cs = section_ py cs type title := by
  rw [changeLoop_eq, section_]
  have h1 : (fun c : Change => isText c.type type) = fun c => match c.type with
      | .str s => s == type
      | _ => false := by
    funext c
    cases c.type <;> rfl
  have h2 : (fun c : Change => "\n* ".toList ++ shown py c.description) = fun c => "\n* ".toList ++ (match c.description with
      | .str t => t
      | j => py.show_ j) := by
    funext c
    cases c.description <;> rfl
  rw [h1, h2, h]
  simp only [if_true]

theorem heading_eq :
    heading "breaking".toList = "\n\n### ".toList ++ "Breaking Changes".toList ∧
    heading "feature".toList = "\n\n### ".toList ++ "Features".toList ∧
    heading "enhancement".toList = "\n\n### ".toList ++ "Enhancements".toList ∧
    heading "bugfix".toList = "\n\n### ".toList ++ "Bug fixes".toList ∧
    heading "dependency".toList = "\n\n### ".toList ++ "Dependencies".toList := by
  refine ⟨?_, ?_, ?_, ?_, ?_⟩ <;> decide +kernel

theorem flatMap_five (f : Text → Text) {t1 t2 t3 t4 t5 g1 g2 g3 g4 g5 : Text} (h1 : f t1 = g1) (h2 : f t2 = g2)
    (h3 : f t3 = g3) (h4 : f t4 = g4) (h5 : f t5 = g5) (a b : Text) :
    a ++ [t1, t2, t3, t4, t5].flatMap f ++ b = a ++ g1 ++ g2 ++ g3 ++ g4 ++ g5 ++ b := by
  subst h1 h2 h3 h4 h5
  simp

theorem releaseText_eq (py : Py) (r : Text × List Change) : releaseText py r = layout py r :=
  flatMap_five (fun t => changeLoop py t true r.2) (section_eq py r.2 _ _ heading_eq.1) (section_eq py r.2 _ _ heading_eq.2.1)
    (section_eq py r.2 _ _ heading_eq.2.2.1) (section_eq py r.2 _ _ heading_eq.2.2.2.1)
    (section_eq py r.2 _ _ heading_eq.2.2.2.2) _ _

/-! ## Theorems -/

theorem sortedVersions_sorted (py : Py) (d : Disk) :
    (sortedVersions py d).Pairwise fun x y => less (key py y) (key py x) = false :=
  sort_sorted (lt := fun x y => less (key py x) (key py y)) (fun _ _ _ h1 h2 => less_trans _ _ _ h1 h2)
    (fun _ _ h => less_asymm _ _ h) _

/-- C125: the changelog has exactly the releases that are on disk, each once, none before a newer one, with the changes of each
under the headings of their types and in their order. -/
theorem C125_render {py : Py} (ho : ∀ l, (py.order l).Perm l) (hdot : py.digit '.' = none) {d : Disk} {text : Text}
    (h : render py d = some text) :
    ∃ rs : List (Text × List Change), text = "# Changelog\n".toList ++ rs.flatMap (layout py) ∧ rs ≠ [] ∧
      (rs.map Prod.fst).Nodup ∧ (rs.Pairwise fun x y => ¬ Older py x.1 y.1) ∧ ∀ v cs, (v, cs) ∈ rs ↔ OnDisk py d v cs := by
  rw [render.eq_def] at h
  obtain ⟨h1, -⟩ := loadReleases_spec (py := py) (d := d) (sortedVersions py d) [] ⟨by simp, by simp, .nil⟩
    (sortedVersions_sorted py d) (by simp)
  cases hl : loadReleases d (sortedVersions py d) [] with
  | none => rw [hl] at h; cases h
  | some rs =>
    obtain ⟨h3, h4⟩ := h1 rs hl
    rw [hl] at h
    have hne : rs ≠ [] := by rintro rfl; cases h
    have ht : text = "# Changelog\n".toList ++ rs.reverse.flatMap (releaseText py) := by
      cases rs with
      | nil => exact absurd rfl hne
      | cons x xs => simp only [Option.some.injEq] at h; exact h.symm
    have mem : ∀ v cs, (v, cs) ∈ rs ↔ OnDisk py d v cs := by
      intro v cs
      rw [h4]
      simp only [List.not_mem_nil, false_or]
      constructor
      · rintro ⟨hv, j, hj⟩
        exact ⟨(mem_sortedVersions ho hdot).1 hv, j, hj⟩
      · rintro ⟨hv, j, hj, hc⟩
        exact ⟨((mem_sortedVersions ho hdot).2 _ hj).2 hv, j, hj, hc⟩
    refine ⟨rs.reverse, ?_, by simpa using hne, ?_, ?_, ?_⟩
    · rw [ht]
      congr 2
      funext r
      exact releaseText_eq py r
    · rw [List.map_reverse]
      exact List.nodup_reverse.2 h3.nodup
    · rw [List.pairwise_reverse]
      refine h3.sorted.imp_of_mem ?_
      intro x y hx hy hxy ho'
      have vx := ((mem x.1 x.2).1 hx).1
      have vy := ((mem y.1 y.2).1 hy).1
      rw [(less_iff hdot vy vx).2 ho'] at hxy
      cases hxy
    · intro v cs
      rw [List.mem_reverse, mem]

/-- C125: there is no changelog exactly if there are no releases that can be read, or one of them is not a list of changes. -/
theorem C125_none {py : Py} (ho : ∀ l, (py.order l).Perm l) (hdot : py.digit '.' = none) (d : Disk) :
    render py d = none ↔
      (∀ v j, IsVersion py v → d.releases.lookup (v ++ ".json".toList) ≠ some (.json j)) ∨
      ∃ v j, IsVersion py v ∧ d.releases.lookup (v ++ ".json".toList) = some (.json j) ∧ changesOf j = none := by
  rw [render.eq_def]
  obtain ⟨h1, h2⟩ := loadReleases_spec (py := py) (d := d) (sortedVersions py d) [] ⟨by simp, by simp, .nil⟩
    (sortedVersions_sorted py d) (by simp)
  have bad : loadReleases d (sortedVersions py d) [] = none ↔
      ∃ v j, IsVersion py v ∧ d.releases.lookup (v ++ ".json".toList) = some (.json j) ∧ changesOf j = none := by
    rw [h2]
    constructor
    · rintro ⟨v, hv, j, h⟩
      exact ⟨v, j, (mem_sortedVersions ho hdot).1 hv, h⟩
    · rintro ⟨v, j, hv, hj, hc⟩
      exact ⟨v, ((mem_sortedVersions ho hdot).2 _ hj).2 hv, j, hj, hc⟩
  cases hl : loadReleases d (sortedVersions py d) [] with
  | none => exact ⟨fun _ => .inr (bad.1 hl), fun _ => rfl⟩
  | some rs =>
    obtain ⟨h3, h4⟩ := h1 rs hl
    have notbad : ¬ ∃ v j, IsVersion py v ∧ d.releases.lookup (v ++ ".json".toList) = some (.json j) ∧ changesOf j = none := by
      rw [← bad, hl]
      simp
    cases rs with
    | nil =>
      refine ⟨fun _ => .inl ?_, fun _ => rfl⟩
      intro v j hv hj
      cases hc : changesOf j with
      | none => exact notbad ⟨v, j, hv, hj, hc⟩
      | some cs =>
        have := (h4 v cs).2 (.inr ⟨((mem_sortedVersions ho hdot).2 _ hj).2 hv, j, hj, hc⟩)
        simp at this
    | cons x xs =>
      refine ⟨fun h => (by simp at h), fun h => ?_⟩
      rcases h with h | h
      · obtain ⟨h5, j, h6, h7⟩ := ((h4 x.1 x.2).1 (by simp)).resolve_left (by simp)
        exact absurd h6 (h _ j ((mem_sortedVersions ho hdot).1 h5))
      · exact absurd h notbad

end Verif.Changelog
