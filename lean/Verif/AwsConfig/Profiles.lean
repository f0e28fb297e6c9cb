import Verif.AwsConfig.Props
import Verif.HeaderText.Accept

/-!
# Profiles of the shared configuration files (C48)

Models smithy_aws_core/config/file_parser.py:66-113, 281-357, merged_config.py and context.py:57-86.
Simplifications: messages of errors are left out; what the file system reads is given; `str.lower` of keys
that are looked up is that of ASCII letters.
-/

set_option autoImplicit false

namespace Verif.AwsConfig

open Verif.Dict Verif.Text

/-! ## Model -/

/-- `FileType` (file_parser.py:21-23). -/
inductive FileType where
  | config | credentials
  deriving DecidableEq, Repr

/-- `StandardizedOutput` (file_parser.py:36-42). -/
structure Std where
  profiles : Sections
  ssoSessions : Sections
  services : Sections
  deriving DecidableEq, Repr

/-- `_merge_properties` (file_parser.py:349-357). -/
def mergeProps (target : Sections) (name : Text) (props : List (Text × Value)) : Sections :=
  let target := match target.lookup name with
    | none => put target name []
    | some _ => target
  put target name (update ((target.lookup name).getD []) props)

/-- `_extract_prefixed_name` (file_parser.py:326-331). -/
def extractName (s word : Text) : Option Text :=
  match s.drop word.length with
  | [] => none
  | c :: r =>
    if c ≠ ' ' ∧ c ≠ '\t' then none
    else
      let name := strip (c :: r)
      if name = [] then none else some name

/-- `_is_profile_prefixed_default` (file_parser.py:338-346). -/
def isProfileDefault (s : Text) : Bool :=
  let stripped := strip s
  if "profile".toList.isPrefixOf stripped = false then false
  else
    match stripped.drop "profile".toList.length with
    | [] => false
    | c :: r => if c ≠ ' ' ∧ c ≠ '\t' then false else strip (c :: r) = "default".toList

/-- `_classify_config_section` (file_parser.py:281-312). -/
def classifyConfig (hasDefault : Bool) (std : Std) (e : Text × List (Text × Value)) : Std :=
  let s := strip e.1
  if "sso-session".toList.isPrefixOf s then
    match extractName s "sso-session".toList with
    | some n => if isIdent n then { std with ssoSessions := mergeProps std.ssoSessions n e.2 } else std
    | none => std
  else if "services".toList.isPrefixOf s then
    match extractName s "services".toList with
    | some n => if isIdent n then { std with services := mergeProps std.services n e.2 } else std
    | none => std
  else if s = "default".toList then
    if hasDefault then std else { std with profiles := mergeProps std.profiles "default".toList e.2 }
  else if "profile".toList.isPrefixOf s then
    match extractName s "profile".toList with
    | some n => if isIdent n then { std with profiles := mergeProps std.profiles n e.2 } else std
    | none => std
  else std

/-- `_classify_credentials_section` (file_parser.py:315-323). -/
def classifyCredentials (std : Std) (e : Text × List (Text × Value)) : Std :=
  let s := strip e.1
  if isIdent s then { std with profiles := mergeProps std.profiles s e.2 } else std

/-- `standardize` (file_parser.py:66-113). -/
def standardize (raw : Sections) : FileType → Std
  | .config => raw.foldl (classifyConfig (raw.any fun e => isProfileDefault e.1)) ⟨[], [], []⟩
  | .credentials => raw.foldl classifyCredentials ⟨[], [], []⟩

/-- `MergedConfig._merge_profiles` (merged_config.py:101-115). -/
def mergeProfiles (config credentials : Sections) : Sections :=
  let merged := config.foldl (fun m e => put m e.1 e.2) []
  credentials.foldl (fun m e =>
    match m.lookup e.1 with
    | some p => put m e.1 (update p e.2)
    | none => put m e.1 e.2) merged

/-- `MergedConfig.__init__` (merged_config.py:18-33). -/
def merged (config credentials : Std) : Std :=
  ⟨mergeProfiles config.profiles credentials.profiles, config.ssoSessions, config.services⟩

/-- `MergedConfig.get` (merged_config.py:35-46). -/
def Std.get (m : Std) (profile key : Text) : Option Text :=
  match m.profiles.lookup profile with
  | none => none
  | some p =>
    match p.lookup (lower key) with
    | some (.text t) => some t
    | _ => none

/-- `MergedConfig.get_sub_property` (merged_config.py:48-68). -/
def Std.getSub (m : Std) (profile key sub : Text) : Option Text :=
  match m.profiles.lookup profile with
  | none => none
  | some p =>
    match p.lookup (lower key) with
    | some (.subs d) => d.lookup (lower sub)
    | _ => none

/-- `load_config` (context.py:57-86), given what is in the files. -/
def load (config credentials : Option Text) : Except Err Std :=
  match parseFile config with
  | .error e => .error e
  | .ok c =>
    match parseFile credentials with
    | .error e => .error e
    | .ok k => .ok (merged (standardize c .config) (standardize k .credentials))

/-! ## Specification -/

def Spaces (t : Text) : Prop := ∀ c ∈ t, isSpace c = true

/-- The characters of names. -/
def nameChars : Text :=
  "ABCDEFGHIJKLMNOPQRSTUVWXYZabcdefghijklmnopqrstuvwxyz0123456789_-/.%@:+".toList

def Valid (name : Text) : Prop := name ≠ [] ∧ ∀ c ∈ name, c ∈ nameChars

/-- The section is `x`, apart from spaces around it. -/
def Trims (s x : Text) : Prop := ∃ a b, Spaces a ∧ Spaces b ∧ s = a ++ x ++ b

/-- The section is `word name`, with a space or tab after the word and any spaces around the name. -/
def Names (word s name : Text) : Prop :=
  Valid name ∧ ∃ c pad, (c = ' ' ∨ c = '\t') ∧ Spaces pad ∧ Trims s (word ++ c :: (pad ++ name))

/-- The sections of a config file that define a profile: `[profile name]`, and `[default]` for the profile
`default` unless there is a `[profile default]`. -/
def DefinesProfile (raw : Sections) (s name : Text) : Prop :=
  Names "profile".toList s name ∨
  (Trims s "default".toList ∧ name = "default".toList ∧
    ∀ e ∈ raw, ¬Names "profile".toList e.1 "default".toList)

/-- The sections of a credentials file that define a profile: `[name]`. -/
def DefinesCredentials (s name : Text) : Prop := Valid name ∧ Trims s name

/-- The value of a key in the last of the sections that has the key. -/
def LastOf (P : Text → Prop) (raw : Sections) (k : Text) (v : Value) : Prop :=
  ∃ before s ps after, raw = before ++ (s, ps) :: after ∧ P s ∧ ps.lookup k = some v ∧
    ∀ e ∈ after, P e.1 → e.2.lookup k = none

/-- The sections of `d` are those for which `P` holds of one of the sections of the file, with the
properties of all of these. -/
def Collects (P : Text → Text → Prop) (raw d : Sections) : Prop :=
  ∀ name, (d.lookup name = none ↔ ∀ e ∈ raw, ¬P e.1 name) ∧
    ∀ k v, getValue d name k = some v ↔ LastOf (fun s => P s name) raw k v

/-- Dictionaries have no key twice. -/
def Dicts (raw : Sections) : Prop := Keys raw ∧ ∀ e ∈ raw, Keys e.2

/-! ## Names -/

theorem name_chars : ∀ n < 128, identChar (Char.ofNat n) = true ↔ Char.ofNat n ∈ nameChars := by
  decide +kernel

theorem name_chars_bound : ∀ c ∈ nameChars, c.toNat < 128 := by decide +kernel

theorem identChar_iff (c : Char) : identChar c = true ↔ c ∈ nameChars := by
  by_cases hlt : c.toNat < 128
  · have := name_chars c.toNat hlt
    rwa [Char.ofNat_toNat] at this
  · constructor
    · intro h
      exfalso
      simp only [identChar, Bool.or_eq_true, Bool.and_eq_true, decide_eq_true_eq] at h
      rcases h with ((h | h) | h) | h
      · omega
      · omega
      · omega
      · simp only [List.contains_eq_mem, decide_eq_true_eq, List.mem_cons, List.not_mem_nil, or_false] at h
        rcases h with rfl | rfl | rfl | rfl | rfl | rfl | rfl | rfl <;> exact absurd hlt (by decide)
    · intro h; exact absurd (name_chars_bound c h) hlt

/-- Names of properties and profiles consist of letters, digits and `_ - / . % @ : +`. -/
theorem C47_names (t : Text) : isIdent t = true ↔ Valid t := by
  unfold isIdent Valid
  simp only [Bool.and_eq_true, Bool.not_eq_true', List.isEmpty_eq_false_iff, List.all_eq_true, identChar_iff]

theorem trims_strip {s x : Text} (h1 : ∀ c ∈ x.head?, isSpace c = false) (h2 : ∀ c ∈ x.getLast?, isSpace c = false) :
    Trims s x ↔ strip s = x := by
  constructor
  · rintro ⟨a, b, ha, hb, rfl⟩
    exact strip_pad a x b ha hb h1 h2
  · intro h
    obtain ⟨a, b, ha, hb, e⟩ := HeaderText.strip_decomp (isSpace := isSpace) s
    exact ⟨a, b, ha, hb, by rw [← h]; exact e⟩

theorem prefix_iff (w s : Text) : w.isPrefixOf s = true ↔ ∃ r, s = w ++ r := by
  rw [List.isPrefixOf_iff_prefix]
  constructor
  · rintro ⟨r, rfl⟩; exact ⟨r, rfl⟩
  · rintro ⟨r, rfl⟩; exact ⟨r, rfl⟩

theorem valid_ends {name : Text} (h : Valid name) :
    (∀ c ∈ name.head?, isSpace c = false) ∧ (∀ c ∈ name.getLast?, isSpace c = false) := by
  have := isIdent_plain ((C47_names name).2 h)
  exact ⟨this.1, this.2.1⟩

theorem names_iff (word s name : Text) (hw : word ≠ []) (hh : ∀ c ∈ word.head?, isSpace c = false) :
    Names word s name ↔
      word.isPrefixOf (strip s) = true ∧ extractName (strip s) word = some name ∧ isIdent name = true := by
  rw [prefix_iff, C47_names]
  constructor
  · rintro ⟨hv, c, pad, hc, hp, ht⟩
    have hs : strip s = word ++ c :: (pad ++ name) := by
      refine (trims_strip ?_ ?_).1 ht
      · cases word with
        | nil => exact absurd rfl hw
        | cons x w => simpa using hh
      · intro x hx
        rw [show word ++ c :: (pad ++ name) = (word ++ c :: pad) ++ name by simp, List.getLast?_append,
          Option.mem_def, Option.or_eq_some_iff] at hx
        rcases hx with hx | hx
        · exact (valid_ends hv).2 x hx
        · rw [List.getLast?_eq_none_iff] at hx
          exact absurd hx.1 hv.1
    refine ⟨⟨_, hs⟩, ?_, hv⟩
    rw [extractName, hs, List.drop_left]
    have hcs : isSpace c = true := by rcases hc with rfl | rfl <;> decide
    have hn : strip (c :: (pad ++ name)) = name := by
      have := strip_pad (c :: pad) name [] (by
        intro x hx
        rcases List.mem_cons.1 hx with rfl | hx
        · exact hcs
        · exact hp x hx) (by simp) (valid_ends hv).1 (valid_ends hv).2
      simpa using this
    simp only [hn, if_neg hv.1]
    rw [if_neg]
    rintro ⟨h1, h2⟩
    rcases hc with rfl | rfl
    · exact h1 rfl
    · exact h2 rfl
  · rintro ⟨⟨r, hr⟩, he, hv⟩
    rw [extractName, hr, List.drop_left] at he
    cases r with
    | nil => simp at he
    | cons c r =>
      simp only at he
      split at he
      · simp at he
      · rename_i hc
        have hc : c = ' ' ∨ c = '\t' := by
          by_contra hn
          simp only [not_or] at hn
          exact hc hn
        split at he
        · simp at he
        · simp only [Option.some.injEq] at he
          obtain ⟨a, b, ha, hb, e⟩ := HeaderText.strip_decomp (isSpace := isSpace) (c :: r)
          have e : c :: r = a ++ name ++ b := by rw [← he]; exact e
          obtain ⟨a', b', ha', hb', e'⟩ := HeaderText.strip_decomp (isSpace := isSpace) s
          have e' : s = a' ++ strip s ++ b' := e'
          have hcs : isSpace c = true := by rcases hc with rfl | rfl <;> decide
          cases a with
          | nil =>
            obtain ⟨x, n, rfl⟩ := List.exists_cons_of_ne_nil hv.1
            simp only [List.nil_append, List.cons_append, List.cons.injEq] at e
            have := (valid_ends hv).1 x (by simp)
            rw [← e.1, hcs] at this
            exact absurd this (by simp)
          | cons x pad =>
            simp only [List.cons_append, List.cons.injEq] at e
            refine ⟨hv, c, pad, hc, fun y hy => ha y (by simp [hy]), a', b ++ b', ha', ?_, ?_⟩
            · intro y hy
              rcases List.mem_append.1 hy with hy | hy
              · exact hb y hy
              · exact hb' y hy
            · rw [e', hr, e.2]
              simp

theorem isProfileDefault_iff (s : Text) :
    isProfileDefault s = true ↔ Names "profile".toList s "default".toList := by
  have hv : isIdent "default".toList = true := by decide
  rw [names_iff _ _ _ (by decide) (by decide), isProfileDefault]
  simp only [hv, and_true]
  cases hp : "profile".toList.isPrefixOf (strip s) with
  | false => simp
  | true =>
    simp only [Bool.true_eq_false, if_false, true_and, extractName]
    cases hd : (strip s).drop "profile".toList.length with
    | nil => simp
    | cons c r =>
      simp only
      split
      · simp
      · split
        · rename_i h; simp [h]
        · simp

/-! ## What sections are collected -/

/-- Section `name`, with more properties. -/
theorem mergeProps_eq (d : Sections) (n : Text) (ps : List (Text × Value)) :
    mergeProps d n ps = put d n (update ((d.lookup n).getD []) ps) := by
  unfold mergeProps
  cases h : d.lookup n with
  | none => simp [lookup_put, put_put]
  | some p => simp [h]

/-- The sections that `f` names. -/
def pick (f : Text → Option Text) (raw : Sections) : List (Text × List (Text × Value)) :=
  raw.filterMap fun e => (f e.1).map fun n => (n, e.2)

def addAll (d : Sections) (bs : List (Text × List (Text × Value))) : Sections :=
  bs.foldl (fun d b => put d b.1 (update ((d.lookup b.1).getD []) b.2)) d

theorem assemble_eq (bs : List (Text × List (Text × Value))) : assemble bs = addAll [] bs := rfl

def named (word : String) (s : Text) : Option Text :=
  if word.toList.isPrefixOf (strip s) then
    match extractName (strip s) word.toList with
    | some n => if isIdent n then some n else none
    | none => none
  else none

theorem named_iff (word : String) (s n : Text) (hw : word.toList ≠ [])
    (hh : ∀ c ∈ word.toList.head?, isSpace c = false) : named word s = some n ↔ Names word.toList s n := by
  rw [names_iff _ _ _ hw hh, named]
  split
  · rename_i h
    cases he : extractName (strip s) word.toList with
    | none => simp
    | some m =>
      simp only [h, true_and, Option.some.injEq]
      by_cases hi : isIdent m = true
      · simp only [hi, if_true, Option.some.injEq]
        constructor
        · rintro rfl; exact ⟨rfl, hi⟩
        · rintro ⟨rfl, _⟩; rfl
      · simp only [hi]
        simp only [Bool.false_eq_true, if_false, reduceCtorEq, false_iff, not_and]
        rintro rfl; exact hi
  · rename_i h; simp [h]

/-- The profile of a section of a config file. -/
def configProfile (hasDefault : Bool) (s : Text) : Option Text :=
  if strip s = "default".toList then (if hasDefault then none else some "default".toList) else named "profile" s

theorem apart {w w' t : Text} (h : w.isPrefixOf t = true) (h1 : w.isPrefixOf w' = false) (h2 : w'.isPrefixOf w = false) :
    w'.isPrefixOf t = false := by
  rw [Bool.eq_false_iff]
  intro h'
  rw [List.isPrefixOf_iff_prefix] at h h'
  rcases List.prefix_or_prefix_of_prefix h h' with hp | hp
  · rw [← List.isPrefixOf_iff_prefix, h1] at hp
    simp at hp
  · rw [← List.isPrefixOf_iff_prefix, h2] at hp
    simp at hp

theorem classify_eq (hd : Bool) (std : Std) (e : Text × List (Text × Value)) :
    classifyConfig hd std e =
      ⟨addAll std.profiles (pick (configProfile hd) [e]), addAll std.ssoSessions (pick (named "sso-session") [e]),
        addAll std.services (pick (named "services") [e])⟩ := by
  obtain ⟨s, ps⟩ := e
  have hself : ∀ f : Text → Option Text, pick f [(s, ps)] = ((f s).map fun n => (n, ps)).toList := by
    intro f
    unfold pick
    cases h : f s <;> simp [h]
  unfold classifyConfig
  simp only
  by_cases h1 : "sso-session".toList.isPrefixOf (strip s) = true
  · have h2 := apart (w' := "services".toList) h1 (by decide) (by decide)
    have h3 := apart (w' := "profile".toList) h1 (by decide) (by decide)
    have h4 : strip s ≠ "default".toList := by
      intro h; rw [h] at h1; exact absurd h1 (by decide)
    rw [if_pos h1]
    simp only [hself, configProfile, if_neg h4, named, h2, h3, h1, Bool.false_eq_true, if_false, if_true]
    cases hx : extractName (strip s) "sso-session".toList with
    | none => rfl
    | some n =>
      cases hi : isIdent n with
      | false => simp [addAll, hi]
      | true => simp [addAll, mergeProps_eq, hi]
  · rw [if_neg h1]
    by_cases h2 : "services".toList.isPrefixOf (strip s) = true
    · have h3 := apart (w' := "profile".toList) h2 (by decide) (by decide)
      have h4 : strip s ≠ "default".toList := by
        intro h; rw [h] at h2; exact absurd h2 (by decide)
      rw [if_pos h2]
      simp only [hself, configProfile, if_neg h4, named, h1, h3, h2, Bool.false_eq_true, if_false, if_true]
      cases hx : extractName (strip s) "services".toList with
      | none => rfl
      | some n =>
        cases hi : isIdent n with
        | false => simp [addAll, hi]
        | true => simp [addAll, mergeProps_eq, hi]
    · rw [if_neg h2]
      by_cases h4 : strip s = "default".toList
      · rw [if_pos h4]
        simp only [hself, configProfile, if_pos h4, named, h1, h2, Bool.false_eq_true, if_false]
        cases hd with
        | true => rfl
        | false => simp [addAll, mergeProps_eq]
      · rw [if_neg h4]
        by_cases h3 : "profile".toList.isPrefixOf (strip s) = true
        · rw [if_pos h3]
          simp only [hself, configProfile, if_neg h4, named, h1, h2, h3, Bool.false_eq_true, if_false, if_true]
          cases hx : extractName (strip s) "profile".toList with
          | none => rfl
          | some n =>
            cases hi : isIdent n with
            | false => simp [addAll, hi]
            | true => simp [addAll, mergeProps_eq, hi]
        · rw [if_neg h3]
          simp only [hself, configProfile, if_neg h4, named, h1, h2, h3, Bool.false_eq_true, if_false]
          rfl

theorem addAll_append (d : Sections) (a b : List (Text × List (Text × Value))) :
    addAll d (a ++ b) = addAll (addAll d a) b := by
  simp [addAll]

theorem pick_cons (f : Text → Option Text) (e : Text × List (Text × Value)) (raw : Sections) :
    pick f (e :: raw) = pick f [e] ++ pick f raw := by
  unfold pick
  rw [show e :: raw = [e] ++ raw from rfl, List.filterMap_append]

theorem fold_config (hd : Bool) (raw : Sections) : ∀ std : Std, raw.foldl (classifyConfig hd) std =
    ⟨addAll std.profiles (pick (configProfile hd) raw), addAll std.ssoSessions (pick (named "sso-session") raw),
      addAll std.services (pick (named "services") raw)⟩ := by
  induction raw with
  | nil => intro std; rfl
  | cons e raw ih =>
    intro std
    rw [List.foldl_cons, ih, classify_eq]
    simp only [pick_cons _ e raw, addAll_append]

def credentialsProfile (s : Text) : Option Text := if isIdent (strip s) then some (strip s) else none

theorem fold_credentials (raw : Sections) : ∀ std : Std, raw.foldl classifyCredentials std =
    ⟨addAll std.profiles (pick credentialsProfile raw), std.ssoSessions, std.services⟩ := by
  induction raw with
  | nil => intro std; rfl
  | cons e raw ih =>
    intro std
    have : classifyCredentials std e =
        ⟨addAll std.profiles (pick credentialsProfile [e]), std.ssoSessions, std.services⟩ := by
      unfold classifyCredentials pick credentialsProfile
      simp only [List.filterMap_cons, List.filterMap_nil]
      cases isIdent (strip e.1) with
      | false => rfl
      | true => simp [addAll, mergeProps_eq]
    rw [List.foldl_cons, ih, this]
    simp only [pick_cons _ e raw, addAll_append]

/-! ## The properties of what is collected -/

theorem lookup_append' {V : Type} (k : Text) : ∀ (a b : List (Text × V)), (a ++ b).lookup k = (a.lookup k).or (b.lookup k)
  | [], b => by simp
  | (x, y) :: a, b => by
    rw [List.cons_append, lookup_cons, lookup_cons, lookup_append' k a b]
    split <;> simp

theorem lastOf_cons (P : Text → Prop) (e : Text × List (Text × Value)) (raw : Sections) (k : Text) (v : Value) :
    LastOf P (e :: raw) k v ↔ LastOf P raw k v ∨
      (P e.1 ∧ e.2.lookup k = some v ∧ ∀ x ∈ raw, P x.1 → x.2.lookup k = none) := by
  constructor
  · rintro ⟨before, s, ps, after, he, h1, h2, h3⟩
    cases before with
    | nil =>
      simp only [List.nil_append, List.cons.injEq] at he
      obtain ⟨rfl, rfl⟩ := he
      exact .inr ⟨h1, h2, h3⟩
    | cons b before =>
      simp only [List.cons_append, List.cons.injEq] at he
      exact .inl ⟨before, s, ps, after, he.2, h1, h2, h3⟩
  · rintro (⟨before, s, ps, after, rfl, h⟩ | h)
    · exact ⟨e :: before, s, ps, after, rfl, h⟩
    · exact ⟨[], e.1, e.2, raw, rfl, h⟩

/-- The properties of all sections that `f` gives a name. -/
def flat (f : Text → Option Text) (name : Text) (raw : Sections) : List (Text × Value) :=
  ((pick f raw).filter fun b => b.1 = name).flatMap Prod.snd

theorem flat_cons (f : Text → Option Text) (name : Text) (e : Text × List (Text × Value)) (raw : Sections) :
    flat f name (e :: raw) = (if f e.1 = some name then e.2 else []) ++ flat f name raw := by
  unfold flat
  rw [pick_cons, List.filter_append, List.flatMap_append]
  congr 1
  unfold pick
  rw [List.filterMap_cons]
  cases h : f e.1 with
  | none => simp
  | some n =>
    by_cases hn : n = name
    · simp [hn]
    · simp [hn]

theorem flat_none (f : Text → Option Text) (name k : Text) : ∀ (raw : Sections), (∀ e ∈ raw, Keys e.2) →
    ((flat f name raw).reverse.lookup k = none ↔ ∀ e ∈ raw, f e.1 = some name → e.2.lookup k = none)
  | [], _ => by simp [flat, pick]
  | e :: raw, hk => by
    have ih := flat_none f name k raw (fun e he => hk e (by simp [he]))
    rw [flat_cons, List.reverse_append, lookup_append', Option.or_eq_none_iff, ih]
    simp only [List.forall_mem_cons]
    by_cases h : f e.1 = some name
    · rw [if_pos h, lookup_reverse k e.2 (hk e (by simp))]
      simp only [h, true_imp_iff]
      exact and_comm
    · simp [h]

theorem flat_lookup (f : Text → Option Text) (name k : Text) (v : Value) : ∀ (raw : Sections), (∀ e ∈ raw, Keys e.2) →
    ((flat f name raw).reverse.lookup k = some v ↔ LastOf (fun s => f s = some name) raw k v)
  | [], _ => by
    simp only [flat, pick, List.filterMap_nil, List.filter_nil, List.flatMap_nil, List.reverse_nil, List.lookup_nil,
      reduceCtorEq, false_iff]
    rintro ⟨before, s, ps, after, he, _⟩
    simp at he
  | e :: raw, hk => by
    have hk' : ∀ e ∈ raw, Keys e.2 := fun e he => hk e (by simp [he])
    have ih := flat_lookup f name k v raw hk'
    have hn := flat_none f name k raw hk'
    rw [flat_cons, List.reverse_append, lookup_append', Option.or_eq_some_iff, ih, lastOf_cons, hn]
    by_cases h : f e.1 = some name
    · rw [if_pos h, lookup_reverse k e.2 (hk e (by simp))]
      simp only [h, true_and]
      rw [and_comm (b := e.2.lookup k = some v)]
    · simp [h]

theorem collects_assemble (f : Text → Option Text) (raw : Sections) (hk : ∀ e ∈ raw, Keys e.2) :
    Collects (fun s n => f s = some n) raw (assemble (pick f raw)) := by
  intro name
  have hlook := assemble_lookup name (pick f raw) []
  have hex : (∃ b ∈ pick f raw, b.1 = name) ↔ ∃ e ∈ raw, f e.1 = some name := by
    unfold pick
    simp only [List.mem_filterMap, Option.map_eq_some_iff]
    constructor
    · rintro ⟨b, ⟨e, he, n, hn, rfl⟩, rfl⟩; exact ⟨e, he, hn⟩
    · rintro ⟨e, he, hn⟩; exact ⟨(name, e.2), ⟨e, he, name, hn, rfl⟩, rfl⟩
  constructor
  · rw [assemble, hlook]
    by_cases h : ∃ b ∈ pick f raw, b.1 = name
    · rw [if_pos h]
      rw [hex] at h
      simpa using h
    · rw [if_neg h]
      rw [hex] at h
      simp only [List.lookup_nil, true_iff]
      exact fun e he hn => h ⟨e, he, hn⟩
  · intro k v
    rw [← flat_lookup f name k v raw hk, getValue, assemble, hlook]
    by_cases h : ∃ b ∈ pick f raw, b.1 = name
    · rw [if_pos h]
      simp only [List.lookup_nil, Option.getD_none, Option.bind_some, lookup_update, Option.or_none]
      rfl
    · rw [if_neg h]
      have : ((pick f raw).filter fun b => b.1 = name) = [] := by
        rw [List.filter_eq_nil_iff]
        intro x hx
        simpa using fun he => h ⟨x, hx, he⟩
      simp [flat, this]

theorem collects_congr {P Q : Text → Text → Prop} {raw d : Sections} (h : ∀ s n, P s n ↔ Q s n)
    (hp : Collects P raw d) : Collects Q raw d := by
  have : P = Q := by
    funext s n
    exact propext (h s n)
  rwa [← this]

/-! ## Theorems -/

/-- The profiles of a config file. -/
theorem C48_profiles (raw : Sections) (hk : ∀ e ∈ raw, Keys e.2) :
    Collects (DefinesProfile raw) raw (standardize raw .config).profiles := by
  unfold standardize
  simp only
  rw [fold_config]
  simp only [← assemble_eq]
  refine collects_congr ?_ (collects_assemble _ raw hk)
  intro s n
  have hd : Trims s "default".toList ↔ strip s = "default".toList := trims_strip (by decide) (by decide)
  have hany : (raw.any fun e => isProfileDefault e.1) = true ↔
      ∃ e ∈ raw, Names "profile".toList e.1 "default".toList := by
    simp only [List.any_eq_true, isProfileDefault_iff]
  unfold configProfile DefinesProfile
  rw [hd, ← named_iff "profile" s n (by decide) (by decide)]
  by_cases h : strip s = "default".toList
  · have hno : named "profile" s = none := by
      unfold named
      rw [h]
      decide
    rw [if_pos h, hno]
    simp only [h, reduceCtorEq, false_or, true_and]
    by_cases ha : (raw.any fun e => isProfileDefault e.1) = true
    · simp only [ha, if_true, reduceCtorEq, false_iff, not_and]
      intro _ hall
      obtain ⟨e, he, hn⟩ := hany.1 ha
      exact hall e he hn
    · simp only [ha]
      simp only [Bool.false_eq_true, if_false, Option.some.injEq]
      constructor
      · intro hn
        exact ⟨hn.symm, fun e he hn => ha (hany.2 ⟨e, he, hn⟩)⟩
      · intro hn; exact hn.1.symm
  · simp only [h, if_false, false_and, or_false]

/-- The SSO sessions and services of a config file. -/
theorem C48_sso_services (raw : Sections) (hk : ∀ e ∈ raw, Keys e.2) :
    Collects (Names "sso-session".toList) raw (standardize raw .config).ssoSessions ∧
    Collects (Names "services".toList) raw (standardize raw .config).services := by
  unfold standardize
  simp only
  rw [fold_config]
  simp only [← assemble_eq]
  exact ⟨collects_congr (fun s n => named_iff "sso-session" s n (by decide) (by decide)) (collects_assemble _ raw hk),
    collects_congr (fun s n => named_iff "services" s n (by decide) (by decide)) (collects_assemble _ raw hk)⟩

/-- The profiles of a credentials file, in which there is nothing else. -/
theorem C48_credentials (raw : Sections) (hk : ∀ e ∈ raw, Keys e.2) :
    Collects DefinesCredentials raw (standardize raw .credentials).profiles ∧
    (standardize raw .credentials).ssoSessions = [] ∧ (standardize raw .credentials).services = [] := by
  unfold standardize
  simp only
  rw [fold_credentials]
  simp only [← assemble_eq]
  refine ⟨collects_congr ?_ (collects_assemble _ raw hk), trivial, trivial⟩
  intro s n
  unfold credentialsProfile DefinesCredentials
  rw [← C47_names]
  constructor
  · intro h
    split at h
    · rename_i hi
      simp only [Option.some.injEq] at h
      subst h
      have hv := valid_ends ((C47_names _).1 hi)
      exact ⟨hi, (trims_strip hv.1 hv.2).2 rfl⟩
    · simp at h
  · rintro ⟨hi, ht⟩
    have hv := valid_ends ((C47_names _).1 hi)
    rw [(trims_strip hv.1 hv.2).1 ht, if_pos hi]

/-- With a `[profile default]`, sections `[default]` are left out altogether. -/
theorem C48_default (raw : Sections) (h : ∃ e ∈ raw, Names "profile".toList e.1 "default".toList) :
    standardize raw .config = standardize (raw.filter fun e => strip e.1 ≠ "default".toList) .config := by
  obtain ⟨e, he, hn⟩ := h
  have h1 : (raw.any fun e => isProfileDefault e.1) = true :=
    List.any_eq_true.2 ⟨e, he, (isProfileDefault_iff e.1).2 hn⟩
  have hne : strip e.1 ≠ "default".toList := by
    intro hd
    have := (names_iff _ _ _ (by decide) (by decide)).1 hn
    rw [hd] at this
    exact absurd this.1 (by decide)
  have h2 : ((raw.filter fun e => strip e.1 ≠ "default".toList).any fun e => isProfileDefault e.1) = true :=
    List.any_eq_true.2 ⟨e, List.mem_filter.2 ⟨he, decide_eq_true hne⟩, (isProfileDefault_iff e.1).2 hn⟩
  unfold standardize
  simp only
  rw [h1, h2]
  have key : ∀ (l : Sections) (std : Std), l.foldl (classifyConfig true) std =
      (l.filter fun e => strip e.1 ≠ "default".toList).foldl (classifyConfig true) std := by
    intro l
    induction l with
    | nil => intro std; rfl
    | cons x l ih =>
      intro std
      by_cases hx : strip x.1 = "default".toList
      · have hstep : classifyConfig true std x = std := by
          unfold classifyConfig
          simp only
          rw [hx, if_neg (by decide), if_neg (by decide), if_pos rfl]
          exact if_pos trivial
        rw [List.foldl_cons, hstep, List.filter_cons_of_neg (p := fun (e : Text × List (Text × Value)) => decide (strip e.1 ≠ "default".toList))
          (fun h => of_decide_eq_true h hx), ih]
      · rw [List.foldl_cons, List.filter_cons_of_pos (p := fun (e : Text × List (Text × Value)) => decide (strip e.1 ≠ "default".toList))
          (decide_eq_true hx), List.foldl_cons, ih]
  exact key raw _

theorem isProfileDefault_word (s : Text) (h : isProfileDefault s = true) : "profile".toList.isPrefixOf (strip s) = true :=
  ((names_iff _ _ _ (by decide) (by decide)).1 ((isProfileDefault_iff s).1 h)).1

/-- Sections of another kind, or without a valid name, make no difference. -/
theorem C48_ignored (before after : Sections) (e : Text × List (Text × Value))
    (h1 : ∀ n, ¬Names "profile".toList e.1 n) (h2 : ∀ n, ¬Names "sso-session".toList e.1 n)
    (h3 : ∀ n, ¬Names "services".toList e.1 n) (h4 : ¬Trims e.1 "default".toList) :
    standardize (before ++ e :: after) .config = standardize (before ++ after) .config := by
  have hnone : ∀ w : String, w.toList ≠ [] → (∀ c ∈ w.toList.head?, isSpace c = false) →
      (∀ n, ¬Names w.toList e.1 n) → named w e.1 = none := by
    intro w hw hh hn
    cases hx : named w e.1 with
    | none => rfl
    | some n => exact absurd ((named_iff w e.1 n hw hh).1 hx) (hn n)
  have hp : isProfileDefault e.1 = false := by
    rw [Bool.eq_false_iff]
    exact fun h => h1 _ ((isProfileDefault_iff e.1).1 h)
  have hd : strip e.1 ≠ "default".toList := fun h => h4 ((trims_strip (by decide) (by decide)).2 h)
  have hpick : ∀ f : Text → Option Text, f e.1 = none → pick f (before ++ e :: after) = pick f (before ++ after) := by
    intro f hf
    unfold pick
    simp [List.filterMap_append, hf]
  have hany : ((before ++ e :: after).any fun e => isProfileDefault e.1) =
      ((before ++ after).any fun e => isProfileDefault e.1) := by
    simp [hp]
  unfold standardize
  simp only
  rw [hany, fold_config, fold_config, hpick, hpick, hpick]
  · exact hnone "services" (by decide) (by decide) h3
  · exact hnone "sso-session" (by decide) (by decide) h2
  · unfold configProfile
    rw [if_neg hd]
    exact hnone "profile" (by decide) (by decide) h1

/-! ## Merging -/

theorem mergeProfiles_lookup (config credentials : Sections) (h1 : Keys config) (h2 : Keys credentials) (n : Text) :
    (mergeProfiles config credentials).lookup n =
      match credentials.lookup n, config.lookup n with
      | none, c => c
      | some k, none => some k
      | some k, some c => some (update c k) := by
  have hc : ∀ (l m : Sections), Keys l → (l.foldl (fun m e => put m e.1 e.2) m).lookup n =
      (l.lookup n).or (m.lookup n) := by
    intro l
    induction l with
    | nil => intro m _; simp
    | cons e l ih =>
      intro m hk
      obtain ⟨a, b⟩ := e
      simp only [Keys, List.map_cons, List.nodup_cons] at hk
      rw [List.foldl_cons, ih _ hk.2, lookup_put, lookup_cons]
      by_cases h : n = a
      · subst h
        rw [if_pos rfl, if_pos rfl, (lookup_eq_none n l).2 hk.1]
        simp
      · rw [if_neg h, if_neg h]
  have hk : ∀ (l m : Sections), Keys l → (l.foldl (fun m e =>
      match m.lookup e.1 with
      | some p => put m e.1 (update p e.2)
      | none => put m e.1 e.2) m).lookup n = match l.lookup n, m.lookup n with
      | none, c => c
      | some k, none => some k
      | some k, some c => some (update c k) := by
    intro l
    induction l with
    | nil => intro m _; rfl
    | cons e l ih =>
      intro m hk
      obtain ⟨a, b⟩ := e
      simp only [Keys, List.map_cons, List.nodup_cons] at hk
      rw [List.foldl_cons, ih _ hk.2, lookup_cons]
      by_cases h : n = a
      · subst h
        rw [(lookup_eq_none n l).2 hk.1]
        cases hm : m.lookup n with
        | none => simp [lookup_put]
        | some p => simp [lookup_put]
      · rw [if_neg h]
        have : ((match m.lookup a with
            | some p => put m a (update p b)
            | none => put m a b).lookup n) = m.lookup n := by
          cases hm : m.lookup a with
          | none => simp [lookup_put, h]
          | some p => simp [lookup_put, h]
        rw [this]
  unfold mergeProfiles
  simp only
  rw [hk _ _ h2, hc _ _ h1]
  simp

/-- A profile is there if one of the files has it, and a property has the value in the credentials file or,
if it is not there, in the config file. -/
theorem C48_merge (config credentials : Std) (h1 : Keys config.profiles) (h2 : Keys credentials.profiles)
    (h3 : ∀ e ∈ credentials.profiles, Keys e.2) (n : Text) :
    ((merged config credentials).profiles.lookup n = none ↔
      config.profiles.lookup n = none ∧ credentials.profiles.lookup n = none) ∧
    (∀ k, getValue (merged config credentials).profiles n k =
      match getValue credentials.profiles n k with
      | some v => some v
      | none => getValue config.profiles n k) ∧
    (merged config credentials).ssoSessions = config.ssoSessions ∧
    (merged config credentials).services = config.services := by
  have hl := mergeProfiles_lookup config.profiles credentials.profiles h1 h2 n
  refine ⟨?_, fun k => ?_, rfl, rfl⟩
  · simp only [merged]
    rw [hl]
    cases config.profiles.lookup n <;> cases credentials.profiles.lookup n <;> simp
  · simp only [merged, getValue]
    rw [hl]
    cases hc : credentials.profiles.lookup n with
    | none => simp
    | some p =>
      have hkp : Keys p := by
        have : (n, p) ∈ credentials.profiles := by
          clear hl h3
          generalize credentials.profiles = d at hc
          induction d with
          | nil => simp at hc
          | cons e d ih =>
            obtain ⟨a, b⟩ := e
            rw [lookup_cons] at hc
            split at hc
            · rename_i hn
              simp only [Option.some.injEq] at hc
              rw [hn, hc]
              simp
            · exact List.mem_cons_of_mem _ (ih hc)
        exact h3 _ this
      cases config.profiles.lookup n with
      | none => simp only [Option.bind_some]; cases p.lookup k <;> rfl
      | some c =>
        simp only [Option.bind_some, lookup_update, lookup_reverse k p hkp]
        cases p.lookup k <;> rfl

/-! ## Both files -/

theorem mem_put (d : Sections) (k : Text) (p : List (Text × Value)) :
    ∀ e ∈ put d k p, e = (k, p) ∨ e ∈ d := by
  induction d with
  | nil => intro e he; simpa [put] using he
  | cons x d ih =>
    intro e he
    rw [put] at he
    split at he
    · rcases List.mem_cons.1 he with rfl | he
      · exact .inl rfl
      · exact .inr (by simp [he])
    · rcases List.mem_cons.1 he with rfl | he
      · exact .inr (by simp)
      · rcases ih e he with h | h
        · exact .inl h
        · exact .inr (by simp [h])

theorem dicts_put {d : Sections} (h : Dicts d) {k : Text} {p : List (Text × Value)} (hp : Keys p) :
    Dicts (put d k p) := by
  refine ⟨keys_put k p d h.1, fun e he => ?_⟩
  rcases mem_put d k p e he with rfl | he
  · exact hp
  · exact h.2 e he

theorem mem_of_lookup {V : Type} (n : Text) (p : V) : ∀ d : List (Text × V), d.lookup n = some p → (n, p) ∈ d
  | [], h => by simp at h
  | (a, b) :: d, h => by
    rw [lookup_cons] at h
    split at h
    · rename_i hn
      simp only [Option.some.injEq] at h
      rw [hn, h]
      simp
    · exact List.mem_cons_of_mem _ (mem_of_lookup n p d h)

theorem dicts_lookup {d : Sections} (h : Dicts d) {k : Text} : Keys ((d.lookup k).getD []) := by
  cases hl : d.lookup k with
  | none => simp [Keys]
  | some p => exact h.2 _ (mem_of_lookup k p d hl)

theorem keys_assemble (bs : List (Text × List (Text × Value))) : Dicts (assemble bs) := by
  have key : ∀ (bs : List (Text × List (Text × Value))) (d : Sections), Dicts d →
      Dicts (bs.foldl (fun d b => put d b.1 (update ((d.lookup b.1).getD []) b.2)) d) := by
    intro bs
    induction bs with
    | nil => intro d h; exact h
    | cons b bs ih =>
      intro d h
      exact ih _ (dicts_put h (keys_update _ _ (dicts_lookup h)))
  exact key bs [] ⟨by simp [Keys], by simp⟩

theorem setValue_dicts {d d' : Sections} {s k : Text} {v : Value} (h : Dicts d) (he : setValue d s k v = .ok d') :
    Dicts d' := by
  unfold setValue at he
  split at he
  · simp at he
  · rename_i p hp
    simp only [Except.ok.injEq] at he
    rw [← he]
    exact dicts_put h (keys_put k v p (h.2 _ (mem_of_lookup s p d hp)))

theorem step_dicts (st st' : St) (l : Text) (h : Dicts st.sections) (he : step st l = .ok st') : Dicts st'.sections := by
  unfold step at he
  split at he
  · simp only [Except.ok.injEq] at he; rw [← he]; exact h
  · split at he
    · unfold continuation at he
      split at he
      · simp at he
      · split at he
        · simp only [Except.ok.injEq] at he; rw [← he]; exact h
        · split at he
          · simp at he
          · split at he
            · simp at he
            · simp only at he
              split at he
              · simp at he
              · split at he
                · simp at he
                · rename_i hs
                  simp only [Except.ok.injEq] at he
                  rw [← he]
                  exact setValue_dicts h hs
    · split at he
      · simp only [Except.ok.injEq] at he; rw [← he]; exact h
      · split at he
        · split at he
          · simp at he
          · simp only [Except.ok.injEq] at he
            rw [← he]
            simp only
            split
            · exact h
            · exact dicts_put h (by simp [Keys])
        · unfold property at he
          split at he
          · simp at he
          · split at he
            · simp at he
            · split at he
              · simp at he
              · rename_i hs
                simp only [Except.ok.injEq] at he
                rw [← he]
                exact setValue_dicts h hs
            · simp only [Except.ok.injEq] at he; rw [← he]; exact h

/-- The sections of a file, and the properties of each, have distinct names. -/
theorem parse_dicts (content : Text) (d : Sections) (h : parse content = .ok d) : Dicts d := by
  have key : ∀ (ls : List Text) (st st' : St), Dicts st.sections → run st ls = .ok st' → Dicts st'.sections := by
    intro ls
    induction ls with
    | nil => intro st st' h he; simp only [run, Except.ok.injEq] at he; rw [← he]; exact h
    | cons l ls ih =>
      intro st st' h he
      simp only [run] at he
      cases hs : step st l with
      | error e => rw [hs] at he; simp at he
      | ok st1 =>
        rw [hs] at he
        exact ih st1 st' (step_dicts st st1 l h hs) he
  unfold parse at h
  cases hr : run ⟨[], none, none, false, false⟩ (splitLines content) with
  | error e => rw [hr] at h; simp [Except.map] at h
  | ok st =>
    rw [hr] at h
    simp only [Except.map, Except.ok.injEq] at h
    rw [← h]
    exact key _ _ _ ⟨by simp [Keys], by simp⟩ hr

theorem parseFile_dicts (content : Option Text) (d : Sections) (h : parseFile content = .ok d) : Dicts d := by
  cases content with
  | none =>
    simp only [parseFile, Except.ok.injEq] at h
    rw [← h]
    exact ⟨by simp [Keys], by simp⟩
  | some t => exact parse_dicts t d h

/-- Both files together: a property of a profile has the value of the last section of the credentials file
that defines the profile and has the property or, if there is none, of the last such section of the config
file.  Names of properties are looked up in lower case. -/
theorem C48_load (config credentials : Option Text) (m : Std) (h : load config credentials = .ok m) :
    ∃ c k, parseFile config = .ok c ∧ parseFile credentials = .ok k ∧
      (∀ name, m.profiles.lookup name = none ↔
        (∀ e ∈ c, ¬DefinesProfile c e.1 name) ∧ ∀ e ∈ k, ¬DefinesCredentials e.1 name) ∧
      (∀ name key v, getValue m.profiles name key = some v ↔
        LastOf (fun s => DefinesCredentials s name) k key v ∨
        ((∀ w, ¬LastOf (fun s => DefinesCredentials s name) k key w) ∧
          LastOf (fun s => DefinesProfile c s name) c key v)) ∧
      Collects (Names "sso-session".toList) c m.ssoSessions ∧ Collects (Names "services".toList) c m.services ∧
      (∀ name key t, m.get name key = some t ↔ getValue m.profiles name (lower key) = some (.text t)) ∧
      ∀ name key sub t, m.getSub name key sub = some t ↔
        ∃ d, getValue m.profiles name (lower key) = some (.subs d) ∧ d.lookup (lower sub) = some t := by
  unfold load at h
  cases hc : parseFile config with
  | error e => rw [hc] at h; simp at h
  | ok c =>
    rw [hc] at h
    simp only at h
    cases hk : parseFile credentials with
    | error e => rw [hk] at h; simp at h
    | ok k =>
      rw [hk] at h
      simp only [Except.ok.injEq] at h
      have dc := parseFile_dicts config c hc
      have dk := parseFile_dicts credentials k hk
      have p1 := C48_profiles c dc.2
      have p2 := (C48_credentials k dk.2).1
      have p3 := C48_sso_services c dc.2
      have k1 : Dicts (standardize c .config).profiles := by
        unfold standardize
        simp only
        rw [fold_config]
        exact keys_assemble _
      have k2 : Dicts (standardize k .credentials).profiles := by
        unfold standardize
        simp only
        rw [fold_credentials]
        exact keys_assemble _
      have hm := C48_merge (standardize c .config) (standardize k .credentials) k1.1 k2.1 k2.2
      rw [h] at hm
      refine ⟨c, k, rfl, rfl, ?_, ?_, ?_, ?_, ?_, ?_⟩
      · intro name
        rw [(hm name).1, (p1 name).1, (p2 name).1]
      · intro name key v
        rw [(hm name).2.1 key, ← (p2 name).2 key v, ← (p1 name).2 key v]
        simp only [← (p2 name).2 key]
        cases getValue (standardize k .credentials).profiles name key with
        | none => simp
        | some w => simp
      · rw [(hm []).2.2.1]; exact p3.1
      · rw [(hm []).2.2.2]; exact p3.2
      · intro name key t
        unfold Std.get getValue
        cases m.profiles.lookup name with
        | none => simp
        | some p =>
          simp only [Option.bind_some]
          cases p.lookup (lower key) with
          | none => simp
          | some v => cases v <;> simp
      · intro name key sub t
        unfold Std.getSub getValue
        cases m.profiles.lookup name with
        | none => simp
        | some p =>
          simp only [Option.bind_some]
          cases p.lookup (lower key) with
          | none => simp
          | some v => cases v <;> simp

/-- A file that cannot be parsed is an error, which comes from the config file first. -/
theorem C48_load_error (config credentials : Option Text) (e : Err) : load config credentials = .error e ↔
    parseFile config = .error e ∨ (∃ c, parseFile config = .ok c) ∧ parseFile credentials = .error e := by
  unfold load
  cases parseFile config with
  | error e' => simp
  | ok c =>
    simp only
    cases parseFile credentials <;> simp

/-- Sections for the same profile written with different spaces are merged in the order in which they first
appear, so the last assignment in the file need not win. -/
theorem C48_spacing_fails :
    (load (some "[profile a]\nx = 1\n[profile  a]\nx = 2\n[profile a]\nx = 3\n".toList) none).map
      (fun m => m.get "a".toList "x".toList) = .ok (some "2".toList) := by
  decide +kernel

/-! ## The hypotheses are met -/

example : Names "profile".toList "profile \t dev ".toList "dev".toList :=
  ⟨(C47_names _).1 (by decide), ' ', "\t ".toList, .inl rfl, by unfold Spaces; decide, [], [' '],
    by unfold Spaces; decide, by unfold Spaces; decide, by decide⟩

example : ∀ n, ¬Names "profile".toList "profile a b".toList n := by
  intro n h
  have := (names_iff _ _ _ (by decide) (by decide)).1 h
  have he : extractName (strip "profile a b".toList) "profile".toList = some "a b".toList := by decide +kernel
  rw [he] at this
  simp only [Option.some.injEq] at this
  rw [← this.2.1] at this
  exact absurd this.2.2 (by decide)

example : (load (some ("[default]\nregion = a\n[profile default]\noutput = json\n[profile dev]\nregion = b\n".toList ++
      "[unknown x]\nregion = c\n[sso-session s]\nurl = u\n".toList))
    (some "[dev]\nREGION = d\n[profile dev]\nregion = e\n".toList)).map
      (fun m => (m.get "default".toList "region".toList, m.get "default".toList "Output".toList,
        m.get "dev".toList "region".toList, getValue m.ssoSessions "s".toList "url".toList)) =
    .ok (none, some "json".toList, some "d".toList, some (.text "u".toList)) := by
  decide +kernel

end Verif.AwsConfig
