import Verif.Changelog.Whole

/-!
# C124 and C125: what does not hold, and examples
-/

set_option autoImplicit false

namespace Verif.Changelog

open Verif.Text Verif.Dict
open Verif.Json (Json)

/-- A platform that lists files in the order they were made. -/
def plain : Py where
  order l := l
  stuck _ := false
  digit c := if '0' ≤ c ∧ c ≤ '9' then some (c.toNat - 48) else none
  zero t := t == "0".toList
  show_ _ := []

/-- The same where files cannot be removed. -/
def readOnly : Py := { plain with stuck := fun _ => true }

theorem plain_order (l : List Text) : (plain.order l).Perm l := .refl _
theorem plain_dot : plain.digit '.' = none := by decide
theorem plain_lf : plain.digit '\n' = none := by decide

def retry : Json := told "feature".toList "Retry".toList
def name1 : Text := entryName "core".toList "feature".toList "1".toList
def one : Disk := ⟨[(name1, .json retry)], []⟩

theorem one_history (py : Py) : History py one [retry] :=
  .entry (package := "core".toList) (type := "feature".toList) (description := "Retry".toList) (id := "1".toList) (c := 0)
    .start (by decide +kernel) rfl ⟨2, by with_unfolding_all rfl⟩

/-! ## What does not hold -/

/-- C124: of a release that is killed when its file is written, and before the changes are removed, the changes get into the
next release too. -/
theorem C124_crash_fails : ∃ d, Interrupted plain d [retry] ∧ released d = [retry, retry] := by
  have h1 : Interrupted plain one [retry] :=
    .entry (package := "core".toList) (type := "feature".toList) (description := "Retry".toList) (id := "1".toList) (c := 0)
      .start (by decide +kernel) rfl ⟨2, by with_unfolding_all rfl⟩
  have h2 := Interrupted.release (version := "1.0.0".toList) (dry := false) 6 h1
  have h3 := Interrupted.release (version := "1.0.1".toList) (dry := false) 20 h2
  exact ⟨_, h3, by with_unfolding_all rfl⟩

/-- C124: if files cannot be removed then releases end well, and a change gets into each of them. -/
theorem C124_stuck_fails : ∃ d d', History readOnly d [retry] ∧ Ends readOnly d (newRelease readOnly "1.0.1".toList false) d' 0 ∧
    released d' = [retry, retry] := by
  let d : Disk := ⟨[(name1, .json retry)], [("1.0.0.json".toList, .json (versionValue [retry]))]⟩
  refine ⟨d, ⟨[(name1, .json retry)], d.releases ++ [("1.0.1.json".toList, .json (versionValue [retry]))]⟩, ?_, ⟨20, ?_⟩, ?_⟩
  · exact .release (version := "1.0.0".toList) (dry := false) (c := 0) (one_history _) ⟨20, by with_unfolding_all rfl⟩
  · with_unfolding_all rfl
  · with_unfolding_all rfl

def second : Json := told "bugfix".toList "Fix".toList

/-- C124: a change that is written down while a release is being made, after the others were read, is removed with them and is
in no release, though both scripts end well. -/
theorem C124_concurrent_fails : ∃ schedule d,
    together plain schedule (one, [newRelease plain "1.0.0".toList false,
      newEntry "core".toList "bugfix".toList "Fix".toList "2".toList]) = (d, [.over 0, .over 0]) ∧
    waiting d = [] ∧ released d = [retry] := by
  refine ⟨[0, 0, 0, 1, 1, 0, 0, 0, 0, 0, 0, 0], ⟨[], [("1.0.0.json".toList, .json (versionValue [retry]))]⟩, ?_, rfl, ?_⟩
  · with_unfolding_all rfl
  · with_unfolding_all rfl

def nothing : Json := told "feature".toList []

/-- C124: a change without a description is taken, and from then on there is no release. -/
theorem C124_empty_fails : ∃ d, History plain d [nothing] ∧
    ∀ v dry d' c, Ends plain d (newRelease plain v dry) d' c → c ≠ 0 := by
  refine ⟨⟨[(name1, .json nothing)], []⟩, ?_, ?_⟩
  · exact .entry (package := "core".toList) (type := "feature".toList) (description := []) (id := "1".toList) (c := 0)
      .start (by decide +kernel) rfl ⟨2, by with_unfolding_all rfl⟩
  · intro v dry d' c h hc
    obtain ⟨h1, -, -⟩ := C124_release plain_order plain_dot plain_lf (by simp)
      (by
        intro f hf
        simp only [List.mem_singleton] at hf
        subst hf
        exact ⟨"core-feature-1".toList, by decide +kernel, by decide +kernel⟩) v dry c h
    obtain ⟨-, ⟨-, h2⟩, -⟩ := h1.1 hc
    obtain ⟨j, hj, es, t, x, rfl, -, -, hd, ht⟩ := h2 _ List.mem_cons_self
    cases hj
    rw [lookup_description] at hd
    cases hd
    cases ht

/-- C125: a version may be given with a line feed at its end; its release is never in the changelog. -/
theorem C125_newline_fails : ∃ d, History plain d [retry] ∧ waiting d = [] ∧ released d = [retry] ∧ render plain d = none := by
  refine ⟨⟨[], [("1.0.0\n.json".toList, .json (versionValue [retry]))]⟩, ?_, rfl, ?_, ?_⟩
  · exact .release (version := "1.0.0\n".toList) (dry := false) (c := 0) (one_history _) ⟨20, by with_unfolding_all rfl⟩
  · with_unfolding_all rfl
  · with_unfolding_all rfl

/-! ## Examples -/

/-- Two changes of two types in one release, and one that waits. -/
def two : Disk := ⟨[(entryName "core".toList "feature".toList "3".toList, .json retry)],
  [("1.10.0.json".toList, .json (versionValue [retry, second]))]⟩

theorem two_history : History plain two [second, retry, retry] :=
  .entry (package := "core".toList) (type := "feature".toList) (description := "Retry".toList) (id := "3".toList) (c := 0)
    (.release (version := "1.10.0".toList) (dry := false) (c := 0)
      (.entry (package := "core".toList) (type := "feature".toList) (description := "Retry".toList) (id := "2".toList) (c := 0)
        (.entry (package := "core".toList) (type := "bugfix".toList) (description := "Fix".toList) (id := "1".toList) (c := 0)
          .start (by decide +kernel) rfl ⟨2, by with_unfolding_all rfl⟩)
        (by decide +kernel) (by with_unfolding_all rfl) ⟨2, by with_unfolding_all rfl⟩)
      ⟨30, by with_unfolding_all rfl⟩)
    (by decide +kernel) (by with_unfolding_all rfl) ⟨2, by with_unfolding_all rfl⟩

/-- `C124_exactly_once` of it. -/
example : (waiting two ++ released two).Perm [second, retry, retry] :=
  C124_exactly_once plain_order (fun _ => rfl) two_history

/-- `C124_never_lost` of the files in `C124_crash_fails`. -/
example : ∃ d, Interrupted plain d [retry] ∧ [retry].Subperm (waiting d ++ released d) := by
  obtain ⟨d, h, -⟩ := C124_crash_fails
  exact ⟨d, h, C124_never_lost plain_order h⟩

/-- `C124_release`: the release of what waits ends well if its version is free, and not if it is there. -/
example : ∃ d', Ends plain two (newRelease plain "1.11.0".toList false) d' 0 :=
  ⟨_, 30, (by with_unfolding_all rfl : _ = (⟨[], two.releases ++ [("1.11.0.json".toList, .json (versionValue [retry]))]⟩, Proc.over 0))⟩

example : Ends plain two (newRelease plain "1.10.0".toList false) two 1 := ⟨30, by with_unfolding_all rfl⟩

/-- `C125_every_change_partial` of it. -/
example : ∃ rs : List (Text × List Change), render plain two = some ("# Changelog\n".toList ++ rs.flatMap (layout plain)) ∧
    (waiting two ++ (rs.flatMap Prod.snd).map asTold).Perm [second, retry, retry] := by
  obtain ⟨rs, h1, -, -, -, h2⟩ := C125_every_change_partial plain_order (fun _ => rfl) plain_dot plain_lf two_history
    (by
      intro f hf
      simp only [two, List.mem_singleton] at hf
      subst hf
      decide +kernel)
    (by simp [two])
  exact ⟨rs, h1, h2⟩

/-- The text. -/
example : render plain ⟨[], [("1.9.0.json".toList, .json (versionValue [retry])),
    ("1.10.0.json".toList, .json (versionValue [retry, second]))]⟩ =
    some ("# Changelog\n\n## v1.10.0\n\n### Features\n* Retry\n\n### Bug fixes\n* Fix\n" ++
      "\n## v1.9.0\n\n### Features\n* Retry\n").toList := by
  decide +kernel

/-- 1.9.0 is before 1.10.0. -/
example : Older plain "1.9.0".toList "1.10.0".toList := by
  have n (a : Text) (h : ∀ ch ∈ a, (plain.digit ch).isSome = true) := number_exists (py := plain) a h
  exact ⟨"1".toList, "9".toList, "0".toList, "1".toList, "10".toList, "0".toList, _, _, _, _, _, _, by decide +kernel,
    by decide +kernel, n _ (by decide +kernel), n _ (by decide +kernel), n _ (by decide +kernel), n _ (by decide +kernel),
    n _ (by decide +kernel), n _ (by decide +kernel), by decide +kernel⟩

/-- `C125_none`: no releases. -/
example : render plain one = none := (C125_none plain_order plain_dot one).2 (.inl fun _ _ _ h => by cases h)

end Verif.Changelog
