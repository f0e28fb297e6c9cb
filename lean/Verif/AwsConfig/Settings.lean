import Verif.AwsConfig.Profiles

/-!
# The AWS configuration object (C49)

Models smithy_aws_core/config/aws_config.py:48-198, resolvers.py, validators.py and context.py:184-201.
Simplifications: the environment does not change while a configuration is resolved; what is in the two files
is given; warnings are left out; `int` of text is a parameter; values that are neither `None`, text, integers
nor booleans are one value `other`, which is equal to none of these.
-/

set_option autoImplicit false

namespace Verif.AwsConfig.Settings

open Verif.Dict Verif.Text

/-! ## Model -/

/-- The values a caller may give. -/
inductive PyVal where
  | null
  | str (t : Text)
  | int (n : Int)
  | bool (b : Bool)
  | other
  deriving DecidableEq, Repr

/-- `ConfigSource` (smithy_aws_core/config/types.py:22-28). -/
inductive Source where
  | env | profile | default | override
  deriving DecidableEq, Repr

/-- The keys of `_FIELDS` (aws_config.py:48-64). -/
inductive Field where
  | region | retryMode | maxAttempts
  deriving DecidableEq, Repr

/-- `ConfigValidationError`, `ProfileNotFoundError`, and what parsing the files raises. -/
inductive Error where
  | validation | profileNotFound | file (e : Err)
  deriving DecidableEq, Repr

/-- What is outside: the environment, what loading the files gives, and `int`. -/
structure World where
  env : Text → Option Text
  files : Except Err Std
  int : Text → Option Int

/-- `_REGION_PATTERN.match` (validators.py:12).  `$` matches at the end and before a line feed at the end. -/
def regionPattern (t : Text) : Bool :=
  let body := if t.getLast? = some '\n' then t.dropLast else t
  !(body.all fun c => c.isDigit) && (body.head? != some '-') &&
    decide (1 ≤ body.length ∧ body.length ≤ 63) && (body.all fun c => c.isAlphanum || c == '-') &&
    (body.getLast? != some '-')

/-- The validators (validators.py:15-81). -/
def validate : Field → PyVal → Bool
  | .region, .str t => regionPattern t
  | .region, _ => false
  | .retryMode, v => v = .str "standard".toList
  | .maxAttempts, .null => true
  | .maxAttempts, .int n => !decide (n < 1)
  | .maxAttempts, _ => false

/-- `_resolve_profile_name` (context.py:184-201): the name, and whether it was asked for. -/
def profileName (w : World) (explicit : Option Text) : Text × Bool :=
  match explicit with
  | some p => (p, true)
  | none =>
    match w.env "AWS_PROFILE".toList with
    | some p => (p, true)
    | none => ("default".toList, false)

/-- The first of some variables that is set and not empty (resolvers.py:29-32). -/
def firstEnv (w : World) : List Text → Option Text
  | [] => none
  | x :: xs =>
    match w.env x with
    | some (c :: t) => some (c :: t)
    | _ => firstEnv w xs

/-- The first of some keys that is in the profile and not empty (resolvers.py:37-40). -/
def firstKey (m : Std) (profile : Text) : List Text → Option Text
  | [] => none
  | x :: xs =>
    match m.get profile x with
    | some (c :: t) => some (c :: t)
    | _ => firstKey m profile xs

/-- `_resolve_str` (resolvers.py:13-42). -/
def resolveStr (w : World) (profile : Text) (vars keys : List Text) : Except Error (Option (Text × Source)) :=
  match firstEnv w vars with
  | some t => .ok (some (t, .env))
  | none =>
    if keys = [] then .ok none
    else
      match w.files with
      | .error e => .error (.file e)
      | .ok m =>
        match firstKey m profile keys with
        | some t => .ok (some (t, .profile))
        | none => .ok none

/-- `resolve_region` (resolvers.py:70-80). -/
def resolveRegion (w : World) (profile : Text) : Except Error (Option (PyVal × Source)) :=
  match resolveStr w profile ["AWS_REGION".toList, "AWS_DEFAULT_REGION".toList] ["region".toList] with
  | .error e => .error e
  | .ok none => .ok none
  | .ok (some (t, s)) => .ok (some (.str t, s))

/-- `resolve_retry_mode` (resolvers.py:83-109). -/
def resolveRetryMode (w : World) (profile : Text) : Except Error (Option (PyVal × Source)) :=
  match resolveStr w profile ["AWS_RETRY_MODE".toList] ["retry_mode".toList] with
  | .error e => .error e
  | .ok none => .ok none
  | .ok (some (t, s)) =>
    if t = "legacy".toList then .ok (some (.str "standard".toList, s))
    else if t = "adaptive".toList then .ok (some (.str "standard".toList, s))
    else .ok (some (.str t, s))

/-- `resolve_max_attempts`, with `_resolve_int` (resolvers.py:112-122, 45-67). -/
def resolveMaxAttempts (w : World) (profile : Text) : Except Error (Option (PyVal × Source)) :=
  match resolveStr w profile ["AWS_MAX_ATTEMPTS".toList] ["max_attempts".toList] with
  | .error e => .error e
  | .ok none => .ok none
  | .ok (some (t, s)) =>
    match w.int t with
    | some n => .ok (some (.int n, s))
    | none => .error .validation

/-- The resolvers of `_FIELDS` (aws_config.py:48-64). -/
def resolver (w : World) (profile : Text) : Field → Except Error (Option (PyVal × Source))
  | .region => resolveRegion w profile
  | .retryMode => resolveRetryMode w profile
  | .maxAttempts => resolveMaxAttempts w profile

/-- The defaults (aws_config.py:48-64; retries.py:20-23). -/
def dflt : Field → PyVal
  | .region => .null
  | .retryMode => .str "standard".toList
  | .maxAttempts => .null

/-- The name of a field as an attribute. -/
def Field.name : Field → Text
  | .region => "region".toList
  | .retryMode => "retry_mode".toList
  | .maxAttempts => "max_attempts".toList

/-- The attributes of an object, and `_sources`. -/
structure Config where
  values : List (Field × PyVal)
  sources : List (Field × Source)
  deriving DecidableEq, Repr

/-- `__setattr__` (aws_config.py:186-198): an exception leaves the object as it was. -/
def Config.assign (c : Config) (f : Field) (v : PyVal) : Except Error Config :=
  match c.sources.lookup f with
  | some _ =>
    if validate f v then .ok ⟨put c.values f v, put c.sources f .override⟩ else .error .validation
  | none => .ok { c with values := put c.values f v }

/-- The loop of `_resolve_fields` (aws_config.py:153-175). -/
def resolveFields (w : World) (profile : Text) (overrides : List (Text × PyVal)) :
    List Field → Config → Except Error Config
  | [], c => .ok c
  | f :: fs, c =>
    let chosen : Except Error (PyVal × Source) :=
      match overrides.lookup f.name with
      | some v => .ok (v, .override)
      | none =>
        match resolver w profile f with
        | .error e => .error e
        | .ok (some r) => .ok r
        | .ok none => .ok (dflt f, .default)
    match chosen with
    | .error e => .error e
    | .ok (v, s) =>
      match c.assign f v with
      | .error e => .error e
      | .ok c =>
        if validate f v then resolveFields w profile overrides fs { c with sources := put c.sources f s }
        else .error .validation

/-- No override is for a field there is not (aws_config.py:146-151). -/
def known (overrides : List (Text × PyVal)) : Bool :=
  overrides.all fun o => o.1 = "region".toList ∨ o.1 = "retry_mode".toList ∨ o.1 = "max_attempts".toList

/-- `AsyncAwsConfig.resolve` (aws_config.py:73-117), with the check for unknown fields (146-151). -/
def resolve (w : World) (profile : Option Text) (overrides : List (Text × PyVal)) : Except Error Config :=
  let p := profileName w profile
  let checked : Except Error Unit :=
    if p.2 then
      match w.files with
      | .error e => .error (.file e)
      | .ok m => if (m.profiles.lookup p.1).isSome then .ok () else .error .profileNotFound
    else .ok ()
  match checked with
  | .error e => .error e
  | .ok () =>
    if known overrides then
      resolveFields w p.1 overrides [.region, .retryMode, .maxAttempts] ⟨[], []⟩
    else .error .validation

/-! ## Specification -/

/-- The active profile. -/
inductive Active (w : World) : Option Text → Text → Prop
  | argument {p} : Active w (some p) p
  | environment {p} : w.env "AWS_PROFILE".toList = some p → Active w none p
  | standard : w.env "AWS_PROFILE".toList = none → Active w none "default".toList

/-- The variables of a field, the first that is set to something winning. -/
def envVars : Field → List Text
  | .region => ["AWS_REGION".toList, "AWS_DEFAULT_REGION".toList]
  | .retryMode => ["AWS_RETRY_MODE".toList]
  | .maxAttempts => ["AWS_MAX_ATTEMPTS".toList]

/-- The attribute, override and profile property of a field have the same name. -/
def property : Field → Text
  | .region => "region".toList
  | .retryMode => "retry_mode".toList
  | .maxAttempts => "max_attempts".toList

/-- The first of the variables that is neither unset nor empty has this value. -/
inductive FromEnv (w : World) : List Text → Text → Prop
  | here {x xs t} : w.env x = some t → t ≠ [] → FromEnv w (x :: xs) t
  | later {x xs t} : (w.env x = none ∨ w.env x = some []) → FromEnv w xs t → FromEnv w (x :: xs) t

def NotInEnv (w : World) (xs : List Text) : Prop := ∀ x ∈ xs, w.env x = none ∨ w.env x = some []

/-- What the text of a variable or property means.  Two retry modes that are not supported are taken as
`standard`. -/
inductive Means (w : World) : Field → Text → PyVal → Prop
  | region {t} : Means w .region t (.str t)
  | standard {t} : t = "legacy".toList ∨ t = "adaptive".toList → Means w .retryMode t (.str "standard".toList)
  | mode {t} : t ≠ "legacy".toList → t ≠ "adaptive".toList → Means w .retryMode t (.str t)
  | attempts {t n} : w.int t = some n → Means w .maxAttempts t (.int n)

/-- The value of a field and where it is from. -/
inductive Chosen (w : World) (profile : Text) (overrides : List (Text × PyVal)) (f : Field) : PyVal → Source → Prop
  | override {v} : overrides.lookup (property f) = some v → Chosen w profile overrides f v .override
  | env {t v} : overrides.lookup (property f) = none → FromEnv w (envVars f) t → Means w f t v →
      Chosen w profile overrides f v .env
  | profile {m t v} : overrides.lookup (property f) = none → NotInEnv w (envVars f) → w.files = .ok m →
      m.get profile (property f) = some t → t ≠ [] → Means w f t v → Chosen w profile overrides f v .profile
  | default {m} : overrides.lookup (property f) = none → NotInEnv w (envVars f) → w.files = .ok m →
      (m.get profile (property f) = none ∨ m.get profile (property f) = some []) →
      Chosen w profile overrides f (match f with
        | .region => .null
        | .retryMode => .str "standard".toList
        | .maxAttempts => .null) .default

/-- Regions: letters, digits and hyphens, at most 63 of them, no hyphen at the ends and not digits only.  The
line feed is one too many: see `C49_newline_fails`. -/
def ValidRegion (t : Text) : Prop :=
  ∃ body, (t = body ∨ t = body ++ ['\n']) ∧ (1 ≤ body.length ∧ body.length ≤ 63) ∧
    (∀ c ∈ body, c.isAlphanum = true ∨ c = '-') ∧ (∃ c ∈ body, c.isDigit = false) ∧
    body.head? ≠ some '-' ∧ body.getLast? ≠ some '-'

inductive Valid : Field → PyVal → Prop
  | region {t} : ValidRegion t → Valid .region (.str t)
  | retryMode : Valid .retryMode (.str "standard".toList)
  | unset : Valid .maxAttempts .null
  | maxAttempts {n} : 1 ≤ n → Valid .maxAttempts (.int n)

def Known (overrides : List (Text × PyVal)) : Prop := ∀ o ∈ overrides, ∃ f, o.1 = property f

/-- A profile that is asked for is in the files. -/
def ProfileOk (w : World) (profile : Option Text) : Prop :=
  (profile = none ∧ w.env "AWS_PROFILE".toList = none) ∨
  ∃ p m v, Active w profile p ∧ w.files = .ok m ∧ m.profiles.lookup p = some v

/-! ## Lemmas -/

theorem validRegion_iff (t : Text) : regionPattern t = true ↔ ValidRegion t := by
  have hn : Char.isAlphanum '\n' = false := by decide
  have key : ∀ body : Text, ((!(body.all fun c => c.isDigit) && (body.head? != some '-') &&
      decide (1 ≤ body.length ∧ body.length ≤ 63) && (body.all fun c => c.isAlphanum || c == '-') &&
      (body.getLast? != some '-')) = true) ↔ ((1 ≤ body.length ∧ body.length ≤ 63) ∧
      (∀ c ∈ body, c.isAlphanum = true ∨ c = '-') ∧ (∃ c ∈ body, c.isDigit = false) ∧
      body.head? ≠ some '-' ∧ body.getLast? ≠ some '-') := by
    intro body
    have h1 : (!(body.all fun c => c.isDigit)) = true ↔ ∃ c ∈ body, c.isDigit = false := by
      rw [Bool.not_eq_true', List.all_eq_false]
      simp
    have h2 : (body.all fun c => c.isAlphanum || c == '-') = true ↔ ∀ c ∈ body, c.isAlphanum = true ∨ c = '-' := by
      simp [List.all_eq_true]
    simp only [Bool.and_eq_true, h1, h2, decide_eq_true_eq, bne_iff_ne, ne_eq]
    tauto
  unfold regionPattern ValidRegion
  simp only
  rw [key]
  constructor
  · intro h
    by_cases hl : t.getLast? = some '\n'
    · rw [if_pos hl] at h
      refine ⟨t.dropLast, .inr ?_, h⟩
      have hne : t ≠ [] := by rintro rfl; simp at hl
      have hg : t.getLast hne = '\n' := by
        rw [List.getLast?_eq_some_getLast hne, Option.some.injEq] at hl
        exact hl
      conv_lhs => rw [← List.dropLast_append_getLast hne, hg]
    · rw [if_neg hl] at h
      exact ⟨t, .inl rfl, h⟩
  · rintro ⟨body, rfl | rfl, h⟩
    · rw [if_neg]
      · exact h
      · intro hl
        rcases h.2.1 '\n' (List.mem_of_mem_getLast? hl) with hc | hc
        · rw [hn] at hc; simp at hc
        · exact absurd hc (by decide)
    · rw [if_pos (by simp)]
      simpa using h

theorem valid_iff (f : Field) (v : PyVal) : validate f v = true ↔ Valid f v := by
  constructor
  · intro h
    cases f with
    | region =>
      cases v with
      | str t => exact .region ((validRegion_iff t).1 h)
      | null => simp [validate] at h
      | int n => simp [validate] at h
      | bool b => simp [validate] at h
      | other => simp [validate] at h
    | retryMode =>
      simp only [validate, decide_eq_true_eq] at h
      rw [h]
      exact .retryMode
    | maxAttempts =>
      cases v with
      | null => exact .unset
      | int n =>
        simp only [validate, Bool.not_eq_true', decide_eq_false_iff_not, Int.not_lt] at h
        exact .maxAttempts h
      | str t => simp [validate] at h
      | bool b => simp [validate] at h
      | other => simp [validate] at h
  · intro h
    cases h with
    | region h => exact (validRegion_iff _).2 h
    | retryMode => decide
    | unset => rfl
    | maxAttempts h => simp only [validate, Bool.not_eq_true', decide_eq_false_iff_not, Int.not_lt]; exact h

theorem firstEnv_some (w : World) (t : Text) : ∀ xs, firstEnv w xs = some t ↔ FromEnv w xs t
  | [] => by
    simp only [firstEnv, reduceCtorEq, false_iff]
    intro h; cases h
  | x :: xs => by
    have ih := firstEnv_some w t xs
    unfold firstEnv
    constructor
    · intro h
      split at h
      · rename_i c u he
        simp only [Option.some.injEq] at h
        rw [← h]
        exact .here he (by simp)
      · rename_i hn
        refine .later ?_ (ih.1 h)
        cases he : w.env x with
        | none => exact .inl rfl
        | some u =>
          cases u with
          | nil => exact .inr rfl
          | cons c u => exact absurd he (hn c u)
    · intro h
      cases h with
      | here h1 h2 =>
        obtain ⟨c, u, rfl⟩ := List.exists_cons_of_ne_nil h2
        rw [h1]
      | later h1 h2 =>
        rcases h1 with h1 | h1 <;> rw [h1] <;> exact ih.2 h2

theorem firstEnv_none (w : World) : ∀ xs, firstEnv w xs = none ↔ NotInEnv w xs
  | [] => by simp [firstEnv, NotInEnv]
  | x :: xs => by
    have ih := firstEnv_none w xs
    unfold NotInEnv at *
    rw [List.forall_mem_cons, ← ih, firstEnv]
    split
    · rename_i c t he
      simp [he]
    · rename_i hn
      have : w.env x = none ∨ w.env x = some [] := by
        cases he : w.env x with
        | none => exact .inl rfl
        | some u =>
          cases u with
          | nil => exact .inr rfl
          | cons c u => exact absurd he (hn c u)
      simp [this]

theorem firstKey_one (m : Std) (p k t : Text) :
    (firstKey m p [k] = some t ↔ m.get p k = some t ∧ t ≠ []) ∧
    (firstKey m p [k] = none ↔ m.get p k = none ∨ m.get p k = some []) := by
  unfold firstKey firstKey
  cases h : m.get p k with
  | none => simp
  | some u =>
    cases u with
    | nil =>
      simp only [reduceCtorEq, Option.some.injEq, false_iff, not_and, not_not, or_true, and_true]
      exact fun h => h.symm
    | cons c u =>
      simp only [Option.some.injEq, reduceCtorEq, or_self, and_true, iff_self_and]
      rintro rfl; simp

def mode (t : Text) : Text :=
  if t = "legacy".toList then "standard".toList else if t = "adaptive".toList then "standard".toList else t

theorem mode_eq (t : Text) (s : Source) :
    (if t = "legacy".toList then Except.ok (some (PyVal.str "standard".toList, s))
      else if t = "adaptive".toList then .ok (some (.str "standard".toList, s)) else .ok (some (.str t, s))) =
      (.ok (some (.str (mode t), s)) : Except Error (Option (PyVal × Source))) := by
  unfold mode
  split
  · rfl
  · split <;> rfl

theorem mode_same (t : Text) (h : t = "legacy".toList ∨ t = "adaptive".toList) : mode t = "standard".toList := by
  unfold mode
  rcases h with h | h
  · rw [if_pos h]
  · split <;> rfl

theorem mode_else (t : Text) (h1 : t ≠ "legacy".toList) (h2 : t ≠ "adaptive".toList) : mode t = t := by
  unfold mode
  rw [if_neg h1, if_neg h2]

/-- What `resolver` does, for all fields in the same way. -/
def convert (w : World) : Field → Text → Option PyVal
  | .region, t => some (.str t)
  | .retryMode, t => some (.str (mode t))
  | .maxAttempts, t => (w.int t).map .int

theorem convert_iff (w : World) (f : Field) (t : Text) (v : PyVal) : convert w f t = some v ↔ Means w f t v := by
  cases f with
  | region =>
    simp only [convert, Option.some.injEq]
    constructor
    · rintro rfl; exact .region
    · intro h; cases h; rfl
  | retryMode =>
    simp only [convert, Option.some.injEq]
    by_cases h : t = "legacy".toList ∨ t = "adaptive".toList
    · rw [mode_same t h]
      constructor
      · rintro rfl; exact .standard h
      · intro hm
        cases hm with
        | standard _ => rfl
        | mode h1 h2 => exact absurd h (by simp only [not_or]; exact ⟨h1, h2⟩)
    · simp only [not_or] at h
      rw [mode_else t h.1 h.2]
      constructor
      · rintro rfl; exact .mode h.1 h.2
      · intro hm
        cases hm with
        | standard h' => exact absurd h' (by simp only [not_or]; exact h)
        | mode _ _ => rfl
  | maxAttempts =>
    simp only [convert, Option.map_eq_some_iff]
    constructor
    · rintro ⟨n, h, rfl⟩; exact .attempts h
    · intro h
      cases h with
      | attempts h => exact ⟨_, h, rfl⟩

/-- The text that is found, converted. -/
def converted (w : World) (f : Field) (r : Except Error (Option (Text × Source))) :
    Except Error (Option (PyVal × Source)) :=
  match r with
  | .error e => .error e
  | .ok none => .ok none
  | .ok (some (t, s)) =>
    match convert w f t with
    | some v => .ok (some (v, s))
    | none => .error .validation

theorem resolveRegion_eq (w : World) (p : Text) : resolveRegion w p =
    converted w .region (resolveStr w p ["AWS_REGION".toList, "AWS_DEFAULT_REGION".toList] ["region".toList]) := by
  unfold resolveRegion converted
  generalize resolveStr w p _ _ = r
  cases r with
  | error e => rfl
  | ok r =>
    cases r with
    | none => rfl
    | some r => rfl

theorem resolveRetryMode_eq (w : World) (p : Text) : resolveRetryMode w p =
    converted w .retryMode (resolveStr w p ["AWS_RETRY_MODE".toList] ["retry_mode".toList]) := by
  unfold resolveRetryMode converted
  generalize resolveStr w p _ _ = r
  cases r with
  | error e => rfl
  | ok r =>
    cases r with
    | none => rfl
    | some r => exact mode_eq r.1 r.2

theorem resolveMaxAttempts_eq (w : World) (p : Text) : resolveMaxAttempts w p =
    converted w .maxAttempts (resolveStr w p ["AWS_MAX_ATTEMPTS".toList] ["max_attempts".toList]) := by
  unfold resolveMaxAttempts converted
  generalize resolveStr w p _ _ = r
  cases r with
  | error e => rfl
  | ok r =>
    cases r with
    | none => rfl
    | some r =>
      obtain ⟨t, s⟩ := r
      simp only [convert]
      cases w.int t <;> rfl

theorem resolver_eq (w : World) (p : Text) (f : Field) :
    resolver w p f = converted w f (resolveStr w p (envVars f) [property f]) := by
  cases f with
  | region => exact resolveRegion_eq w p
  | retryMode => exact resolveRetryMode_eq w p
  | maxAttempts => exact resolveMaxAttempts_eq w p

/-- What is chosen for a field. -/
def choose (w : World) (p : Text) (overrides : List (Text × PyVal)) (f : Field) : Except Error (PyVal × Source) :=
  match overrides.lookup f.name with
  | some v => .ok (v, .override)
  | none =>
    match resolver w p f with
    | .error e => .error e
    | .ok (some r) => .ok r
    | .ok none => .ok (dflt f, .default)

theorem choose_iff (w : World) (p : Text) (overrides : List (Text × PyVal)) (f : Field) (v : PyVal) (s : Source) :
    choose w p overrides f = .ok (v, s) ↔ Chosen w p overrides f v s := by
  have hname : f.name = property f := by cases f <;> rfl
  unfold choose
  rw [hname, resolver_eq]
  cases ho : overrides.lookup (property f) with
  | some x =>
    simp only [Except.ok.injEq, Prod.mk.injEq]
    constructor
    · rintro ⟨rfl, rfl⟩; exact .override ho
    · intro h
      cases h with
      | override h => rw [ho] at h; simp only [Option.some.injEq] at h; exact ⟨h, rfl⟩
      | env h => rw [ho] at h; simp at h
      | profile h => rw [ho] at h; simp at h
      | default h => rw [ho] at h; simp at h
  | none =>
    simp only
    unfold resolveStr converted
    cases he : firstEnv w (envVars f) with
    | some t =>
      simp only
      have hfe := (firstEnv_some w t (envVars f)).1 he
      cases hc : convert w f t with
      | some x =>
        simp only [Except.ok.injEq, Prod.mk.injEq]
        constructor
        · rintro ⟨rfl, rfl⟩; exact .env ho hfe ((convert_iff w f t x).1 hc)
        · intro h
          cases h with
          | override h => rw [ho] at h; simp at h
          | env _ h1 h2 =>
            have := (firstEnv_some w _ _).2 h1
            rw [he, Option.some.injEq] at this
            subst this
            have := (convert_iff w f t v).2 h2
            rw [hc, Option.some.injEq] at this
            exact ⟨this, rfl⟩
          | profile _ h1 => rw [← firstEnv_none, he] at h1; simp at h1
          | default _ h1 => rw [← firstEnv_none, he] at h1; simp at h1
      | none =>
        simp only [reduceCtorEq, false_iff]
        intro h
        cases h with
        | override h => rw [ho] at h; simp at h
        | env _ h1 h2 =>
          have := (firstEnv_some w _ _).2 h1
          rw [he, Option.some.injEq] at this
          subst this
          have := (convert_iff w f t v).2 h2
          rw [hc] at this
          simp at this
        | profile _ h1 => rw [← firstEnv_none, he] at h1; simp at h1
        | default _ h1 => rw [← firstEnv_none, he] at h1; simp at h1
    | none =>
      simp only [List.cons_ne_self, if_false]
      have hne := (firstEnv_none w (envVars f)).1 he
      cases hf : w.files with
      | error e =>
        simp only [reduceCtorEq, false_iff]
        intro h
        cases h with
        | override h => rw [ho] at h; simp at h
        | env _ h1 h2 => rw [← firstEnv_some, he] at h1; simp at h1
        | profile _ _ h1 => rw [hf] at h1; simp at h1
        | default _ _ h1 => rw [hf] at h1; simp at h1
      | ok m =>
        simp only
        cases hk : firstKey m p [property f] with
        | some t =>
          simp only
          have hkey := (firstKey_one m p (property f) t).1.1 hk
          cases hc : convert w f t with
          | some x =>
            simp only [Except.ok.injEq, Prod.mk.injEq]
            constructor
            · rintro ⟨rfl, rfl⟩; exact .profile ho hne hf hkey.1 hkey.2 ((convert_iff w f t x).1 hc)
            · intro h
              cases h with
              | override h => rw [ho] at h; simp at h
              | env _ h1 h2 => rw [← firstEnv_some, he] at h1; simp at h1
              | profile _ _ h1 h2 h3 h4 =>
                rw [hf, Except.ok.injEq] at h1
                subst h1
                rw [hkey.1, Option.some.injEq] at h2
                subst h2
                have := (convert_iff w f t v).2 h4
                rw [hc, Option.some.injEq] at this
                exact ⟨this, rfl⟩
              | default _ _ h1 h2 =>
                rw [hf, Except.ok.injEq] at h1
                subst h1
                rw [← (firstKey_one m p (property f) t).2, hk] at h2
                simp at h2
          | none =>
            simp only [reduceCtorEq, false_iff]
            intro h
            cases h with
            | override h => rw [ho] at h; simp at h
            | env _ h1 h2 => rw [← firstEnv_some, he] at h1; simp at h1
            | profile _ _ h1 h2 h3 h4 =>
              rw [hf, Except.ok.injEq] at h1
              subst h1
              rw [hkey.1, Option.some.injEq] at h2
              subst h2
              have := (convert_iff w f t v).2 h4
              rw [hc] at this
              simp at this
            | default _ _ h1 h2 =>
              rw [hf, Except.ok.injEq] at h1
              subst h1
              rw [← (firstKey_one m p (property f) t).2, hk] at h2
              simp at h2
        | none =>
          simp only [Except.ok.injEq, Prod.mk.injEq]
          have hkey := (firstKey_one m p (property f) []).2.1 hk
          constructor
          · rintro ⟨rfl, rfl⟩
            have := Chosen.default (f := f) ho hne hf hkey
            cases f <;> exact this
          · intro h
            cases h with
            | override h => rw [ho] at h; simp at h
            | env _ h1 h2 => rw [← firstEnv_some, he] at h1; simp at h1
            | profile _ _ h1 h2 h3 h4 =>
              rw [hf, Except.ok.injEq] at h1
              subst h1
              have := (firstKey_one m p (property f) _).1.2 ⟨h2, h3⟩
              rw [hk] at this
              simp at this
            | default _ _ h1 h2 => cases f <;> exact ⟨rfl, rfl⟩

theorem resolveFields_cons (w : World) (p : Text) (overrides : List (Text × PyVal)) (f : Field) (fs : List Field)
    (c : Config) (hn : c.sources.lookup f = none) : resolveFields w p overrides (f :: fs) c =
    match choose w p overrides f with
    | .error e => .error e
    | .ok (v, s) =>
      if validate f v then resolveFields w p overrides fs ⟨put c.values f v, put c.sources f s⟩
      else .error .validation := by
  simp only [resolveFields, Config.assign, hn]
  rfl

theorem resolveFields_ok (w : World) (p : Text) (overrides : List (Text × PyVal)) (c : Config) :
    resolveFields w p overrides [.region, .retryMode, .maxAttempts] ⟨[], []⟩ = .ok c ↔
    ∃ a sa b sb d sd, choose w p overrides .region = .ok (a, sa) ∧ validate .region a = true ∧
      choose w p overrides .retryMode = .ok (b, sb) ∧ validate .retryMode b = true ∧
      choose w p overrides .maxAttempts = .ok (d, sd) ∧ validate .maxAttempts d = true ∧
      c = ⟨[(.region, a), (.retryMode, b), (.maxAttempts, d)],
        [(.region, sa), (.retryMode, sb), (.maxAttempts, sd)]⟩ := by
  rw [resolveFields_cons _ _ _ _ _ _ rfl]
  cases h1 : choose w p overrides .region with
  | error e => simp
  | ok r =>
    obtain ⟨a, sa⟩ := r
    simp only
    cases v1 : validate .region a with
    | false => simp [v1]
    | true =>
      simp only [if_true]
      rw [resolveFields_cons _ _ _ _ _ _ (by rfl)]
      cases h2 : choose w p overrides .retryMode with
      | error e => simp
      | ok r =>
        obtain ⟨b, sb⟩ := r
        simp only
        cases v2 : validate .retryMode b with
        | false => simp [v2]
        | true =>
          simp only [if_true]
          rw [resolveFields_cons _ _ _ _ _ _ (by rfl)]
          cases h3 : choose w p overrides .maxAttempts with
          | error e => simp
          | ok r =>
            obtain ⟨d, sd⟩ := r
            simp only
            cases v3 : validate .maxAttempts d with
            | false => simp [v3]
            | true =>
              simp only [if_true, resolveFields, Except.ok.injEq, Prod.mk.injEq]
              constructor
              · rintro rfl
                exact ⟨a, sa, b, sb, d, sd, ⟨rfl, rfl⟩, v1, ⟨rfl, rfl⟩, v2, ⟨rfl, rfl⟩, v3, rfl⟩
              · rintro ⟨_, _, _, _, _, _, ⟨rfl, rfl⟩, _, ⟨rfl, rfl⟩, _, ⟨rfl, rfl⟩, _, rfl⟩
                rfl

theorem active_iff (w : World) (profile : Option Text) (p : Text) : Active w profile p ↔ (profileName w profile).1 = p := by
  unfold profileName
  cases profile with
  | some q =>
    simp only
    constructor
    · intro h; cases h; rfl
    · rintro rfl; exact .argument
  | none =>
    simp only
    cases he : w.env "AWS_PROFILE".toList with
    | some q =>
      simp only
      constructor
      · intro h
        cases h with
        | environment h => rw [he, Option.some.injEq] at h; exact h
        | standard h => rw [he] at h; simp at h
      · rintro rfl; exact .environment he
    | none =>
      simp only
      constructor
      · intro h
        cases h with
        | environment h => rw [he] at h; simp at h
        | standard h => rfl
      · rintro rfl; exact .standard he

theorem asked_iff (w : World) (profile : Option Text) :
    (profileName w profile).2 = false ↔ profile = none ∧ w.env "AWS_PROFILE".toList = none := by
  unfold profileName
  cases profile with
  | some q => simp
  | none => cases w.env "AWS_PROFILE".toList <;> simp

theorem known_iff (overrides : List (Text × PyVal)) :
    known overrides = true ↔ Known overrides := by
  unfold known
  rw [List.all_eq_true]
  unfold Known
  refine forall₂_congr fun o _ => ?_
  rw [decide_eq_true_eq]
  constructor
  · rintro (h | h | h)
    · exact ⟨.region, h⟩
    · exact ⟨.retryMode, h⟩
    · exact ⟨.maxAttempts, h⟩
  · rintro ⟨f, h⟩
    cases f with
    | region => exact .inl h
    | retryMode => exact .inr (.inl h)
    | maxAttempts => exact .inr (.inr h)

theorem resolve_ok (w : World) (profile : Option Text) (overrides : List (Text × PyVal)) (c : Config) :
    resolve w profile overrides = .ok c ↔ ProfileOk w profile ∧ Known overrides ∧
      resolveFields w (profileName w profile).1 overrides [.region, .retryMode, .maxAttempts] ⟨[], []⟩ = .ok c := by
  unfold resolve
  simp only
  rw [← known_iff]
  have hprofile : ProfileOk w profile ↔ ((profileName w profile).2 = false ∨ ∃ m v, w.files = .ok m ∧
      m.profiles.lookup (profileName w profile).1 = some v) := by
    unfold ProfileOk
    rw [← asked_iff]
    constructor
    · rintro (h | ⟨p, m, v, hp, h⟩)
      · exact .inl h
      · rw [active_iff] at hp
        rw [← hp] at h
        exact .inr ⟨m, v, h⟩
    · rintro (h | ⟨m, v, h⟩)
      · exact .inl h
      · exact .inr ⟨_, m, v, (active_iff w profile _).2 rfl, h⟩
  rw [hprofile]
  cases ha : (profileName w profile).2 with
  | false =>
    simp only [Bool.false_eq_true, if_false, true_or, true_and]
    split
    · rename_i h; simp [h]
    · rename_i h; simp [h]
  | true =>
    simp only [if_true, Bool.true_eq_false, false_or]
    cases hf : w.files with
    | error e => simp
    | ok m =>
      simp only
      cases hl : m.profiles.lookup (profileName w profile).1 with
      | none => simp [hl]
      | some v =>
        simp only [Option.isSome_some, if_true]
        have : ∃ m' v', (Except.ok m : Except Err Std) = .ok m' ∧ m'.profiles.lookup (profileName w profile).1 = some v' :=
          ⟨m, v, rfl, hl⟩
        simp only [this, true_and]
        split
        · rename_i h; simp [h]
        · rename_i h; simp [h]

/-! ## Theorems -/

/-- What a configuration that is resolved has: each setting has the value the sources give it in their order,
the source is the one that is reported, and all values are valid. -/
theorem C49_precedence (w : World) (profile : Option Text) (overrides : List (Text × PyVal)) (c : Config)
    (h : resolve w profile overrides = .ok c) :
    ∃ p, Active w profile p ∧ ∀ f, ∃ v s, c.values.lookup f = some v ∧ c.sources.lookup f = some s ∧
      Chosen w p overrides f v s ∧ Valid f v := by
  obtain ⟨_, _, h⟩ := (resolve_ok w profile overrides c).1 h
  obtain ⟨a, sa, b, sb, d, sd, h1, v1, h2, v2, h3, v3, rfl⟩ := (resolveFields_ok _ _ _ _).1 h
  refine ⟨_, (active_iff w profile _).2 rfl, fun f => ?_⟩
  cases f with
  | region => exact ⟨a, sa, rfl, rfl, (choose_iff _ _ _ _ _ _).1 h1, (valid_iff _ _).1 v1⟩
  | retryMode => exact ⟨b, sb, rfl, rfl, (choose_iff _ _ _ _ _ _).1 h2, (valid_iff _ _).1 v2⟩
  | maxAttempts => exact ⟨d, sd, rfl, rfl, (choose_iff _ _ _ _ _ _).1 h3, (valid_iff _ _).1 v3⟩

/-- A configuration is resolved exactly if the profile is there when it is asked for, all overrides are for
settings there are, and the sources give every setting a valid value. -/
theorem C49_accepts (w : World) (profile : Option Text) (overrides : List (Text × PyVal)) :
    (∃ c, resolve w profile overrides = .ok c) ↔ ProfileOk w profile ∧ Known overrides ∧
      ∃ p, Active w profile p ∧ ∀ f, ∃ v s, Chosen w p overrides f v s ∧ Valid f v := by
  constructor
  · rintro ⟨c, h⟩
    obtain ⟨hp, hk, _⟩ := (resolve_ok w profile overrides c).1 h
    obtain ⟨p, ha, hf⟩ := C49_precedence w profile overrides c h
    exact ⟨hp, hk, p, ha, fun f => by obtain ⟨v, s, _, _, h⟩ := hf f; exact ⟨v, s, h⟩⟩
  · rintro ⟨hp, hk, p, ha, hf⟩
    rw [active_iff] at ha
    obtain ⟨a, sa, h1, v1⟩ := hf .region
    obtain ⟨b, sb, h2, v2⟩ := hf .retryMode
    obtain ⟨d, sd, h3, v3⟩ := hf .maxAttempts
    refine ⟨⟨[(.region, a), (.retryMode, b), (.maxAttempts, d)],
      [(.region, sa), (.retryMode, sb), (.maxAttempts, sd)]⟩, (resolve_ok w profile overrides _).2 ⟨hp, hk, ?_⟩⟩
    rw [ha]
    exact (resolveFields_ok _ _ _ _).2 ⟨a, sa, b, sb, d, sd, (choose_iff _ _ _ _ _ _).2 h1, (valid_iff _ _).2 v1,
      (choose_iff _ _ _ _ _ _).2 h2, (valid_iff _ _).2 v2, (choose_iff _ _ _ _ _ _).2 h3, (valid_iff _ _).2 v3, rfl⟩

/-- There is one value at most that the sources give a setting. -/
theorem C49_one (w : World) (p : Text) (overrides : List (Text × PyVal)) (f : Field) (v v' : PyVal) (s s' : Source)
    (h : Chosen w p overrides f v s) (h' : Chosen w p overrides f v' s') : v = v' ∧ s = s' := by
  rw [← choose_iff] at h h'
  rw [h] at h'
  simpa using h'

/-- A setting whose value is invalid, whatever its source, makes resolving fail. -/
theorem C49_rejects (w : World) (profile : Option Text) (overrides : List (Text × PyVal)) (p : Text) (f : Field)
    (v : PyVal) (s : Source) (ha : Active w profile p) (hc : Chosen w p overrides f v s) (hv : ¬Valid f v) :
    ∃ e, resolve w profile overrides = .error e := by
  cases hr : resolve w profile overrides with
  | error e => exact ⟨e, rfl⟩
  | ok c =>
    obtain ⟨p', ha', hf⟩ := C49_precedence w profile overrides c hr
    rw [active_iff] at ha ha'
    have hpp : p' = p := ha'.symm.trans ha
    rw [hpp] at hf
    obtain ⟨v', s', _, _, hc', hv'⟩ := hf f
    rw [(C49_one w p overrides f v v' s s' hc hc').1] at hv
    exact absurd hv' hv

/-- A profile that is asked for and is not in the files is an error of its own. -/
theorem C49_profile (w : World) (profile : Option Text) (overrides : List (Text × PyVal)) (p : Text) (m : Std)
    (ha : Active w profile p) (hr : ¬(profile = none ∧ w.env "AWS_PROFILE".toList = none)) (hf : w.files = .ok m)
    (hn : m.profiles.lookup p = none) : resolve w profile overrides = .error .profileNotFound := by
  rw [active_iff] at ha
  rw [← asked_iff, Bool.not_eq_false] at hr
  unfold resolve
  simp only [hr, hf, ha, hn, if_true, Option.isSome_none, Bool.false_eq_true, if_false]

/-- One assignment to an attribute, and the object after it, whether it raises or not. -/
def after (c : Config) (e : Field × PyVal) : Config :=
  match c.assign e.1 e.2 with
  | .ok c' => c'
  | .error _ => c

/-- The last valid value assigned to the field. -/
def LastValid (history : List (Field × PyVal)) (f : Field) (v : PyVal) : Prop :=
  ∃ before later, history = before ++ (f, v) :: later ∧ Valid f v ∧ ∀ x, (f, x) ∈ later → ¬Valid f x

/-- An assignment of a valid value is made and reported as an override; any other is an error. -/
theorem C49_assign (w : World) (profile : Option Text) (overrides : List (Text × PyVal)) (c : Config)
    (h : resolve w profile overrides = .ok c) (history : List (Field × PyVal)) (f : Field) (v : PyVal) :
    (Valid f v ↔ ∃ c', (history.foldl after c).assign f v = .ok c') ∧
    (¬Valid f v → (history.foldl after c).assign f v = .error .validation) := by
  have key : ∀ (history : List (Field × PyVal)) (c : Config), (∀ f, (c.sources.lookup f).isSome = true) →
      ∀ f, ((history.foldl after c).sources.lookup f).isSome = true := by
    intro history
    induction history with
    | nil => intro c h; exact h
    | cons e history ih =>
      intro c h
      apply ih
      intro f
      unfold after Config.assign
      cases hl : c.sources.lookup e.1 with
      | none => exact absurd (h e.1) (by simp [hl])
      | some s =>
        simp only
        by_cases hv : validate e.1 e.2 = true
        · simp only [hv, if_true, lookup_put]
          split
          · rfl
          · exact h f
        · simp only [hv]
          exact h f
  obtain ⟨p, _, hf⟩ := C49_precedence w profile overrides c h
  have hs := key history c (fun f => by obtain ⟨v, s, _, hs, _⟩ := hf f; rw [hs]; rfl) f
  obtain ⟨s, hs⟩ := Option.isSome_iff_exists.1 hs
  unfold Config.assign
  rw [hs]
  simp only
  rw [← valid_iff]
  by_cases hv : validate f v = true
  · simp [hv]
  · simp [hv]

/-- After any assignments, some of which fail, a setting has the last valid value assigned to it, and is
reported as an override; or, if there is none, the value and source it was resolved with. -/
theorem C49_history (w : World) (profile : Option Text) (overrides : List (Text × PyVal)) (c : Config)
    (h : resolve w profile overrides = .ok c) (history : List (Field × PyVal)) (f : Field) :
    (∀ v, LastValid history f v →
      (history.foldl after c).values.lookup f = some v ∧ (history.foldl after c).sources.lookup f = some .override) ∧
    ((∀ v, (f, v) ∈ history → ¬Valid f v) →
      (history.foldl after c).values.lookup f = c.values.lookup f ∧
      (history.foldl after c).sources.lookup f = c.sources.lookup f) := by
  obtain ⟨p, _, hf⟩ := C49_precedence w profile overrides c h
  have hall : ∀ f, (c.sources.lookup f).isSome = true := by
    intro f
    obtain ⟨v, s, _, hs, _⟩ := hf f
    rw [hs]; rfl
  clear hf h
  have hstep : ∀ (c : Config) (e : Field × PyVal), (∀ f, (c.sources.lookup f).isSome = true) →
      after c e = if validate e.1 e.2 then ⟨put c.values e.1 e.2, put c.sources e.1 .override⟩ else c := by
    intro c e h
    unfold after Config.assign
    obtain ⟨s, hs⟩ := Option.isSome_iff_exists.1 (h e.1)
    rw [hs]
    by_cases hv : validate e.1 e.2 = true
    · simp [hv]
    · simp [hv]
  have hkeep : ∀ (c : Config) (e : Field × PyVal), (∀ f, (c.sources.lookup f).isSome = true) →
      ∀ f, ((after c e).sources.lookup f).isSome = true := by
    intro c e h f
    rw [hstep c e h]
    split
    · simp only [lookup_put]
      split
      · rfl
      · exact h f
    · exact h f
  have hsame : ∀ (history : List (Field × PyVal)) (c : Config), (∀ f, (c.sources.lookup f).isSome = true) →
      (∀ v, (f, v) ∈ history → ¬Valid f v) →
      (history.foldl after c).values.lookup f = c.values.lookup f ∧
      (history.foldl after c).sources.lookup f = c.sources.lookup f := by
    intro history
    induction history with
    | nil => intro c _ _; exact ⟨rfl, rfl⟩
    | cons e history ih =>
      intro c hall hn
      obtain ⟨g, x⟩ := e
      rw [List.foldl_cons]
      obtain ⟨h1, h2⟩ := ih (after c (g, x)) (hkeep c _ hall) (fun v hv => hn v (by simp [hv]))
      rw [h1, h2, hstep c _ hall]
      by_cases hv : validate g x = true
      · have hne : f ≠ g := by
          rintro rfl
          exact hn x (by simp) ((valid_iff f x).1 hv)
        simp only [hv, if_true, lookup_put, if_neg hne, and_self]
      · simp only [hv]
        exact ⟨rfl, rfl⟩
  refine ⟨?_, hsame history c hall⟩
  rintro v ⟨before, later, rfl, hv, hn⟩
  have hb : ∀ (before : List (Field × PyVal)) (c : Config), (∀ f, (c.sources.lookup f).isSome = true) →
      ∀ f, ((before.foldl after c).sources.lookup f).isSome = true := by
    intro before
    induction before with
    | nil => intro c h; exact h
    | cons e before ih => intro c h; exact ih _ (hkeep c e h)
  have hb' := hb before c hall
  rw [List.foldl_append, List.foldl_cons]
  obtain ⟨h1, h2⟩ := hsame later (after (before.foldl after c) (f, v)) (hkeep _ _ hb') hn
  rw [h1, h2, hstep _ _ hb']
  simp only [(valid_iff f v).2 hv, if_true, lookup_put, and_self]

/-- A region followed by a line feed is accepted. -/
theorem C49_newline_fails : validate .region (.str "us-east-1\n".toList) = true := by decide

/-! ## The hypotheses are met -/

def exampleWorld : World where
  env x := if x = "AWS_MAX_ATTEMPTS".toList then some "5".toList
    else if x = "AWS_REGION".toList then some [] else none
  files := load (some "[default]\nregion = eu-west-1\nretry_mode = adaptive\n".toList) none
  int t := if t = "5".toList then some 5 else none

example : resolve exampleWorld none [("max_attempts".toList, .int 3)] =
    .ok ⟨[(.region, .str "eu-west-1".toList), (.retryMode, .str "standard".toList), (.maxAttempts, .int 3)],
      [(.region, .profile), (.retryMode, .profile), (.maxAttempts, .override)]⟩ := by
  decide +kernel

example : resolve exampleWorld none [] =
    .ok ⟨[(.region, .str "eu-west-1".toList), (.retryMode, .str "standard".toList), (.maxAttempts, .int 5)],
      [(.region, .profile), (.retryMode, .profile), (.maxAttempts, .env)]⟩ := by
  decide +kernel

example : Chosen exampleWorld "default".toList [("region".toList, .str "-".toList)] .region (.str "-".toList) .override ∧
    ¬Valid .region (.str "-".toList) ∧ Active exampleWorld none "default".toList := by
  refine ⟨.override (by decide), ?_, .standard (by decide)⟩
  rw [← valid_iff]
  decide

example : resolve exampleWorld (some "dev".toList) [] = .error .profileNotFound := by decide +kernel

example : LastValid [(.region, .str "a".toList), (.region, .null), (.maxAttempts, .int 0)] .region (.str "a".toList) := by
  refine ⟨[], _, rfl, (valid_iff _ _).1 (by decide), ?_⟩
  intro x hx
  simp only [List.mem_cons, Prod.mk.injEq, reduceCtorEq, false_and, List.not_mem_nil, or_false, true_and] at hx
  subst hx
  rw [← valid_iff]
  decide

end Verif.AwsConfig.Settings
