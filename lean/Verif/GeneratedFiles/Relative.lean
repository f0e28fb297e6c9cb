import Mathlib.Tactic.Common
import Verif.Common

/-!
# Imports within a generated package

Imports of other modules of the same package are written relative to the module they are in.
-/

set_option autoImplicit false

namespace Verif.GeneratedFiles.Relative

/-! ## Model -/

abbrev Text := List Char

/-- `split("\\.")`.  Simplified: Java drops empty parts at the end, which names of modules do not
have. -/
def parts : Text → List Text
  | [] => [[]]
  | c :: t =>
    if c = '.' then [] :: parts t
    else
      match parts t with
      | [] => [[c]]
      | p :: r => (c :: p) :: r

/-- Parts with dots between them. -/
def dotted : List Text → Text
  | [] => []
  | [p] => p
  | p :: q :: r => p ++ '.' :: dotted (q :: r)

/-- How many parts two names have in common (ImportDeclarations.java:66-71). -/
def common : List Text → List Text → Nat
  | a :: x, b :: y => if a = b then common x y + 1 else 0
  | _, _ => 0

/-- `relativize` (ImportDeclarations.java:60-79). -/
def relativize (home ns : Text) : Text :=
  if home.isPrefixOf ns then '.' :: ns.drop home.length
  else
    let c := common (parts home) (parts ns)
    if (parts ns).length ≤ c then ['.']
    else List.replicate ((parts home).length - c) '.' ++ dotted ((parts ns).drop c)

/-- What `addImport` writes for a module (ImportDeclarations.java:49-58).  `pkg` is the name of the
generated package. -/
def written (pkg home ns : Text) : Text :=
  if pkg.isPrefixOf ns then
    if "tests".toList.isPrefixOf home then ns else relativize home ns
  else ns

/-- The module that `from t import …` reaches in the module `home` (importlib/_bootstrap.py, Python
3.11: `_resolve_name` at 1035-1041, `_sanity_check` at 1101-1114, `_calc___package__` at 1244-1268).
Nothing if that is an error.  `home` is not a package itself: none of the generated `__init__.py` has
imports (InitGenerator.java:39-50). -/
def reached (home t : Text) : Option Text :=
  match t with
  | '.' :: r =>
    let more := r.takeWhile (· = '.')
    let name := r.dropWhile (· = '.')
    let package := (parts home).dropLast
    if package.length < more.length + 1 then none
    else
      let base := dotted (package.take (package.length - more.length))
      some (if name = [] then base else base ++ '.' :: name)
  | _ => some t

/-! ## Specification -/

/-- The parts of the name of a module. -/
def Good (ps : List Text) : Prop := ps ≠ [] ∧ ∀ p ∈ ps, p ≠ [] ∧ '.' ∉ p

/-! ## Lemmas -/

theorem parts_plain : ∀ {p : Text}, '.' ∉ p → parts p = [p]
  | [], _ => rfl
  | c :: t, h => by
    simp only [List.mem_cons, not_or] at h
    rw [parts, if_neg (Ne.symm h.1), parts_plain h.2]

theorem parts_append : ∀ {p : Text} (t : Text), '.' ∉ p → parts (p ++ '.' :: t) = p :: parts t
  | [], t, _ => by simp [parts]
  | c :: p, t, h => by
    simp only [List.mem_cons, not_or] at h
    rw [List.cons_append, parts, if_neg (Ne.symm h.1), parts_append t h.2]

theorem parts_dotted : ∀ {ps : List Text}, Good ps → parts (dotted ps) = ps
  | [], h => absurd rfl h.1
  | [p], h => parts_plain (h.2 p (by simp)).2
  | p :: q :: r, h => by
    rw [dotted, parts_append _ (h.2 p (by simp)).2, parts_dotted ⟨by simp, fun x hx => h.2 x (by simp [hx])⟩]

theorem dotted_inj {ps qs : List Text} (hp : Good ps) (hq : Good qs) (h : dotted ps = dotted qs) :
    ps = qs := by
  rw [← parts_dotted hp, ← parts_dotted hq, h]

theorem dotted_append : ∀ {ps qs : List Text}, ps ≠ [] → qs ≠ [] →
    dotted (ps ++ qs) = dotted ps ++ '.' :: dotted qs
  | [], _, h, _ => absurd rfl h
  | [p], [], _, h => absurd rfl h
  | [p], q :: r, _, _ => rfl
  | p :: p' :: r, qs, _, h => by
    have := dotted_append (ps := p' :: r) (qs := qs) (by simp) h
    rw [List.cons_append, List.cons_append, dotted, dotted, ← List.cons_append, this]
    simp

theorem dotted_length_take (ps : List Text) (k : Nat) :
    (dotted (ps.take k)).length ≤ (dotted ps).length := by
  by_cases h₁ : ps.take k = []
  · rw [h₁]; simp [dotted]
  · by_cases h₂ : ps.drop k = []
    · have : ps.take k = ps := by
        have := List.take_append_drop k ps
        rw [h₂, List.append_nil] at this
        exact this
      exact Nat.le_of_eq (by rw [this])
    · conv => rhs; rw [← List.take_append_drop k ps, dotted_append h₁ h₂]
      simp

theorem common_take : ∀ (x y : List Text), x.take (common x y) = y.take (common x y)
  | [], y => by simp [common]
  | a :: x, [] => by simp [common]
  | a :: x, b :: y => by
    by_cases h : a = b
    · rw [common, if_pos h, List.take_succ_cons, List.take_succ_cons, common_take x y, h]
    · rw [common, if_neg h]; simp

theorem common_le : ∀ (x y : List Text), common x y ≤ x.length ∧ common x y ≤ y.length
  | [], y => by simp [common]
  | a :: x, [] => by simp [common]
  | a :: x, b :: y => by
    have := common_le x y
    by_cases h : a = b
    · rw [common, if_pos h]
      simp only [List.length_cons]
      omega
    · rw [common, if_neg h]; simp

theorem common_pos {x y : List Text} (hx : x ≠ []) (hy : y ≠ []) :
    1 ≤ common x y ↔ x.head? = y.head? := by
  cases x with
  | nil => exact absurd rfl hx
  | cons a x =>
    cases y with
    | nil => exact absurd rfl hy
    | cons b y =>
      by_cases h : a = b <;> simp [common, h]

theorem prefix_dotted {L T : List Text} (hL : L ≠ []) (h : L <+: T) : dotted L <+: dotted T := by
  obtain ⟨r, rfl⟩ := h
  by_cases hr : r = []
  · subst hr; simp
  · rw [dotted_append hL hr]
    exact List.prefix_append _ _

theorem isPrefixOf_iff {a b : Text} : a.isPrefixOf b = true ↔ a <+: b := List.isPrefixOf_iff_prefix

theorem head_dotted {ps : List Text} (h : Good ps) : ∃ c r, dotted ps = c :: r ∧ c ≠ '.' := by
  obtain ⟨hne, hp⟩ := h
  match ps, hne, hp with
  | [[]], _, hp => exact absurd rfl (hp [] (by simp)).1
  | [c :: p], _, hp =>
    refine ⟨c, p, rfl, ?_⟩
    rintro rfl
    exact (hp ('.' :: p) (by simp)).2 (by simp)
  | [] :: q :: r, _, hp => exact absurd rfl (hp [] (by simp)).1
  | (c :: p) :: q :: r, _, hp =>
    refine ⟨c, p ++ '.' :: dotted (q :: r), rfl, ?_⟩
    rintro rfl
    exact (hp ('.' :: p) (by simp)).2 (by simp)

theorem good_take {ps : List Text} (h : Good ps) {k : Nat} (hk : 1 ≤ k) : Good (ps.take k) := by
  refine ⟨?_, fun p hp => h.2 p (List.mem_of_mem_take hp)⟩
  obtain ⟨hne, _⟩ := h
  cases ps with
  | nil => exact absurd rfl hne
  | cons a x =>
    obtain ⟨j, rfl⟩ : ∃ j, k = j + 1 := ⟨k - 1, by omega⟩
    simp

theorem good_drop {ps : List Text} (h : Good ps) {k : Nat} (hk : k < ps.length) :
    Good (ps.drop k) := by
  refine ⟨?_, fun p hp => h.2 p (List.mem_of_mem_drop hp)⟩
  intro he
  have := congrArg List.length he
  simp at this
  omega

theorem takeWhile_dots (k : Nat) (t : Text) (h : ∀ c r, t = c :: r → c ≠ '.') :
    (List.replicate k '.' ++ t).takeWhile (· = '.') = List.replicate k '.' ∧
    (List.replicate k '.' ++ t).dropWhile (· = '.') = t := by
  induction k with
  | zero =>
    cases t with
    | nil => simp
    | cons c r => simp [h c r rfl]
  | succ k ih =>
    rw [List.replicate_succ, List.cons_append]
    simp [ih]

/-- From a module in a package. -/
theorem reached_dots {home : List Text} (hg : Good home) (k : Nat) (t : Text)
    (h : ∀ c r, t = c :: r → c ≠ '.') :
    reached (dotted home) ('.' :: (List.replicate k '.' ++ t)) =
      if home.length - 1 < k + 1 then none
      else some (let base := dotted (home.take (home.length - 1 - k))
        if t = [] then base else base ++ '.' :: t) := by
  obtain ⟨h₁, h₂⟩ := takeWhile_dots k t h
  unfold reached
  simp only [h₁, h₂, parts_dotted hg, List.length_dropLast, List.length_replicate]
  have : home.dropLast.take (home.length - 1 - k) = home.take (home.length - 1 - k) := by
    rw [List.dropLast_eq_take, List.take_take]
    congr 1
    omega
  rw [this]

theorem dotted_dropLast {L : List Text} (hL : Good L) (h2 : 2 ≤ L.length) :
    (dotted L.dropLast).length + 2 ≤ (dotted L).length := by
  have hne : L.dropLast ≠ [] := by
    intro he
    have := congrArg List.length he
    simp at this
    omega
  have hs := List.dropLast_concat_getLast hL.1
  have hp := hL.2 (L.getLast hL.1) (List.getLast_mem hL.1)
  have : dotted L = dotted L.dropLast ++ '.' :: L.getLast hL.1 := by
    conv => lhs; rw [← hs, dotted_append hne (by simp)]
    rfl
  rw [this, List.length_append, List.length_cons]
  have : 1 ≤ (L.getLast hL.1).length := by
    rcases hl : L.getLast hL.1 with _ | ⟨c, t⟩
    · exact absurd hl hp.1
    · simp
  omega

/-! ## Theorems -/

/-- **C110.**  Which modules a relative import reaches: those that the text of the module's own name is
not the beginning of, that have the first part in common with it, and that are not packages around
it, except the one it is in. -/
theorem C110_relative_iff {L T : List Text} (hL : Good L) (hT : Good T) (h2 : 2 ≤ L.length) :
    reached (dotted L) (relativize (dotted L) (dotted T)) = some (dotted T) ↔
      ¬ dotted L <+: dotted T ∧ L.head? = T.head? ∧ (T <+: L → T = L.dropLast) := by
  by_cases hp : dotted L <+: dotted T
  · -- the text of the name is a prefix
    simp only [hp, not_true, false_and, iff_false]
    unfold relativize
    rw [if_pos (isPrefixOf_iff.mpr hp)]
    obtain ⟨r, hr⟩ := hp
    rw [← hr, List.drop_left]
    intro he
    have hsplit : r = List.replicate (r.takeWhile (· = '.')).length '.' ++ r.dropWhile (· = '.') := by
      conv => lhs; rw [← List.takeWhile_append_dropWhile (p := (· = '.')) (l := r)]
      congr 1
      rw [List.eq_replicate_iff]
      exact ⟨rfl, fun c hc => by simpa using List.all_eq_true.mp List.all_takeWhile c hc⟩
    have hd : ∀ c t, r.dropWhile (· = '.') = c :: t → c ≠ '.' := by
      intro c t ht hc
      have := List.head?_dropWhile_not (fun c => decide (c = '.')) r
      rw [ht] at this
      simp [hc] at this
    have hdl := dotted_dropLast hL h2
    have hlen := List.dropWhile_suffix (p := fun c => decide (c = '.')) (l := r) |>.length_le
    generalize hk : (r.takeWhile fun c => decide (c = '.')).length = k at hsplit
    generalize ht : (r.dropWhile fun c => decide (c = '.')) = t at hsplit hd hlen
    rw [hsplit, reached_dots hL k t hd] at he
    split at he
    · cases he
    · simp only [Option.some.injEq] at he
      have hb : (dotted (L.take (L.length - 1 - k))).length ≤ (dotted L.dropLast).length := by
        have : L.take (L.length - 1 - k) = L.dropLast.take (L.length - 1 - k) := by
          rw [List.dropLast_eq_take, List.take_take]
          congr 1
          omega
        rw [this]
        exact dotted_length_take _ _
      have := congrArg List.length he
      have hrl := congrArg List.length hsplit
      by_cases hz : t = []
      · rw [if_pos hz, List.length_append, ← hsplit] at this
        omega
      · rw [if_neg hz, List.length_append, List.length_append, List.length_cons, ← hsplit] at this
        omega
  · simp only [hp, not_false_eq_true, true_and]
    unfold relativize
    rw [if_neg (fun h => hp (isPrefixOf_iff.mp h))]
    simp only [parts_dotted hL, parts_dotted hT]
    have hcl := common_le L T
    have hct := common_take L T
    by_cases hc : T.length ≤ common L T
    · -- a package around the module
      rw [if_pos hc]
      have hpre : T <+: L := by
        have : T.take (common L T) = T := List.take_of_length_le hc
        rw [this] at hct
        rw [← hct]
        exact List.take_prefix _ _
      have hhead : L.head? = T.head? := by
        refine (common_pos hL.1 hT.1).mp ?_
        have : 1 ≤ T.length := List.length_pos_iff.mpr hT.1
        omega
      have hr := reached_dots hL 0 [] (fun _ _ h => by cases h)
      simp only [List.replicate_zero, List.nil_append, if_true, Nat.sub_zero] at hr
      rw [hr, if_neg (by omega), ← List.dropLast_eq_take]
      simp only [Option.some.injEq, hhead, hpre, true_imp_iff, true_and]
      have hgd : Good L.dropLast := by
        rw [List.dropLast_eq_take]
        exact good_take hL (by omega)
      constructor
      · intro h
        exact (dotted_inj hgd hT h).symm
      · intro h
        rw [h]
    · rw [if_neg hc]
      have hlt : common L T < L.length := by
        rcases Nat.lt_or_ge (common L T) L.length with h | h
        · exact h
        · refine absurd (prefix_dotted hL.1 ?_) hp
          rw [List.take_of_length_le h] at hct
          rw [hct]
          exact List.take_prefix _ _
      have hnp : ¬ T <+: L := by
        intro h
        obtain ⟨r, rfl⟩ := h
        have : ∀ (x r : List Text), common (x ++ r) x = x.length := by
          intro x r
          induction x with
          | nil => simp [common]
          | cons a x ih => simp [common, ih]
        rw [this] at hc
        omega
      simp only [hnp, false_imp_iff, and_true]
      have hgd := good_drop hT (Nat.lt_of_not_le hc)
      obtain ⟨c, r, hcr, hcd⟩ := head_dotted hgd
      have hr := reached_dots hL (L.length - common L T - 1) (dotted (T.drop (common L T)))
        (fun c' r' h => by rw [hcr] at h; cases h; exact hcd)
      have hrep : '.' :: (List.replicate (L.length - common L T - 1) '.' ++
          dotted (T.drop (common L T))) = List.replicate (L.length - common L T) '.' ++
            dotted (T.drop (common L T)) := by
        rw [← List.cons_append, ← List.replicate_succ]
        congr 2
        omega
      rw [hrep] at hr
      rw [hr, ← common_pos hL.1 hT.1]
      have hne : dotted (T.drop (common L T)) ≠ [] := by rw [hcr]; simp
      by_cases h1 : 1 ≤ common L T
      · rw [if_neg (by omega)]
        simp only [h1, iff_true, Option.some.injEq]
        rw [if_neg hne]
        have : L.length - 1 - (L.length - common L T - 1) = common L T := by omega
        rw [this, hct, ← dotted_append (good_take hT h1).1 hgd.1, List.take_append_drop]
      · rw [if_pos (by omega)]
        simp [h1]

/-- **C110.**  In a generated package, a module reaches every other module whose name does not begin
with its own. -/
theorem C110_package {pkg : Text} {L T : List Text} (hpkg : pkg ≠ [] ∧ '.' ∉ pkg) (hL : Good L)
    (hT : Good T) (htests : ¬ "tests".toList <+: dotted (pkg :: L))
    (h₁ : ¬ dotted (pkg :: L) <+: dotted (pkg :: T)) (h₂ : ¬ T <+: L) :
    reached (dotted (pkg :: L)) (written pkg (dotted (pkg :: L)) (dotted (pkg :: T))) =
      some (dotted (pkg :: T)) := by
  have good : ∀ {ps : List Text}, Good ps → Good (pkg :: ps) := by
    intro ps h
    refine ⟨by simp, fun p hp => ?_⟩
    rcases List.mem_cons.mp hp with rfl | hp
    · exact hpkg
    · exact h.2 p hp
  have hpre : pkg.isPrefixOf (dotted (pkg :: T)) = true := by
    rw [isPrefixOf_iff]
    obtain ⟨t, r, rfl⟩ : ∃ t r, T = t :: r := by
      obtain ⟨hne, _⟩ := hT
      cases T with
      | nil => exact absurd rfl hne
      | cons t r => exact ⟨t, r, rfl⟩
    exact List.prefix_append _ _
  have hl : 2 ≤ (pkg :: L).length := by
    have : 1 ≤ L.length := List.length_pos_iff.mpr hL.1
    simp only [List.length_cons]
    omega
  unfold written
  rw [if_pos hpre, if_neg (fun h => htests (isPrefixOf_iff.mp h)),
    C110_relative_iff (good hL) (good hT) hl]
  refine ⟨h₁, rfl, fun h => absurd ?_ h₂⟩
  exact (List.cons_prefix_cons.mp h).2

/-- **C110.**  Modules that are not of the package, and modules in tests, are imported by their full
names. -/
theorem C110_outside (pkg home ns : Text)
    (h : ¬ pkg <+: ns ∨ "tests".toList <+: home) (hn : ∀ c r, ns = c :: r → c ≠ '.') :
    reached home (written pkg home ns) = some ns := by
  have : written pkg home ns = ns := by
    unfold written
    by_cases h₁ : pkg.isPrefixOf ns = true
    · rw [if_pos h₁]
      rcases h with h | h
      · exact absurd (isPrefixOf_iff.mp h₁) h
      · rw [if_pos (isPrefixOf_iff.mpr h)]
    · rw [if_neg h₁]
  rw [this]
  unfold reached
  split
  · rename_i r
    exact absurd rfl (hn '.' r rfl)
  · rfl

/-! ## Examples, and imports that go wrong -/

def name (s : String) : List Text := parts s.toList

example : Good (name "weather._private.schemas") ∧ Good (name "weather.models") := by
  refine ⟨?_, ?_⟩ <;> (unfold Good; decide +kernel)

example : String.ofList (written "weather".toList "weather.models".toList
    "weather._private.schemas".toList) = "._private.schemas" := by decide +kernel

example : String.ofList (written "weather".toList "weather._private.schemas".toList
    "weather.models".toList) = "..models" := by decide +kernel

example : reached (dotted ("weather".toList :: name "_private.schemas"))
    (written "weather".toList (dotted ("weather".toList :: name "_private.schemas"))
      (dotted ("weather".toList :: name "models"))) =
    some (dotted ("weather".toList :: name "models")) :=
  C110_package (by decide +kernel) (by unfold Good; decide +kernel) (by unfold Good; decide +kernel)
    (by decide +kernel) (by decide +kernel) (by decide +kernel)

/-- C110, negative: a package whose name is the beginning of another's takes that for its own.  In a
client called `smithy`, what is imported from `smithy_core.schemas` is looked for outside of all
packages. -/
theorem C110_prefix_fails :
    written "smithy".toList "smithy.models".toList "smithy_core.schemas".toList =
      "..smithy_core.schemas".toList ∧
    reached "smithy.models".toList "..smithy_core.schemas".toList = none := by
  refine ⟨?_, ?_⟩ <;> decide +kernel

/-- C110, negative: nor can a module import from one whose name begins with its own. -/
theorem C110_beginning_fails :
    reached "weather.config".toList
      (written "weather".toList "weather.config".toList "weather.config_types".toList) =
        some "weather._types".toList ∧
    reached "weather.models".toList
      (written "weather".toList "weather.models".toList "weather.models.more".toList) = none := by
  refine ⟨?_, ?_⟩ <;> decide +kernel

/-- C110, negative: what is imported from the package itself is looked for in the package the module
is in. -/
theorem C110_root_fails :
    reached "weather._private.schemas".toList
      (written "weather".toList "weather._private.schemas".toList "weather".toList) =
        some "weather._private".toList := by decide +kernel

/-- The modules of a client whose own name begins with `tests` are imported by their full names. -/
example : written "tests_client".toList "tests_client.models".toList "tests_client.config".toList =
    "tests_client.config".toList := by decide +kernel

end Verif.GeneratedFiles.Relative
