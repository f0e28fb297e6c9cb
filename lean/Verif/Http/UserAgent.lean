import Verif.Text
import Mathlib.Tactic.Common

/-!
# The user-agent header (C30)

Models smithy_http/user_agent.py, the builder and interceptor of smithy_http/interceptors/user_agent.py
and the interceptor of smithy_aws_core/interceptors/user_agent.py.
-/

set_option autoImplicit false

namespace Verif.Http.UserAgent

open Verif.Text

abbrev Text := List Char

/-! ## Model -/

/-- `_USERAGENT_ALLOWED_CHARACTERS` (user_agent.py:8). -/
def allowedCharacters : Text :=
  "abcdefghijklmnopqrstuvwxyzABCDEFGHIJKLMNOPQRSTUVWXYZ0123456789!$%&'*+-.^_`|~".toList

/-- `sanitize_user_agent_string_component` (user_agent.py:100-115). -/
def sanitize (allowHash : Bool) (raw : Text) : Text :=
  raw.map fun c => if allowedCharacters.contains c || (allowHash && c = '#') then c else '-'

/-- `UserAgentComponent` (user_agent.py:11-23). -/
structure Component where
  pre : Text
  name : Text
  value : Option Text := none
  deriving DecidableEq, Repr

/-- `UserAgentComponent.__str__` (user_agent.py:25-34). -/
def Component.str (c : Component) : Text :=
  let base := sanitize true c.pre ++ '/' :: sanitize false c.name
  match c.value with
  | none => base
  | some v => if v = [] then base else base ++ '#' :: sanitize true v

/-- `UserAgentComponent | RawStringUserAgentComponent` (user_agent.py:37-48, 80). -/
inductive Item where
  | component (c : Component)
  | raw (value : Text)
  deriving DecidableEq, Repr

def Item.str : Item → Text
  | .component c => c.str
  | .raw v => v

/-- `UserAgent` (user_agent.py:51-82). -/
structure Agent where
  sdk : List Component := []
  internal : List Component := []
  ua : List Component := []
  api : List Component := []
  os : List Component := []
  language : List Component := []
  env : List Component := []
  config : List Component := []
  feat : List Component := []
  additional : List Item := []

/-- The components in the order of `UserAgent.__str__` (user_agent.py:85-96). -/
def Agent.items (a : Agent) : List Item :=
  (a.sdk ++ a.internal ++ a.ua ++ a.api ++ a.os ++ a.language ++ a.env ++ a.config ++ a.feat).map
    Item.component ++ a.additional

/-- `UserAgent.__str__` (user_agent.py:84-97). -/
def Agent.str (a : Agent) : Text := join ' ' (a.items.map Item.str)

/-- `_USERAGENT_ALLOWED_OS_NAMES` (interceptors/user_agent.py:33-42). -/
def osNames : List Text :=
  ["windows".toList, "linux".toList, "macos".toList, "android".toList, "ios".toList,
    "watchos".toList, "tvos".toList, "other".toList]

/-- What `_UserAgentBuilder` is made from (interceptors/user_agent.py:47-74). -/
structure Platform where
  name : Option Text
  version : Option Text
  machine : Option Text
  python : Option Text
  implementation : Option Text
  sdk : Option Text

def truthy (t : Option Text) : Option Text :=
  match t with
  | none => none
  | some t => if t = [] then none else some t

/-- `_build_os_metadata` (interceptors/user_agent.py:93-124).  `lower` is `str.lower`. -/
def osMetadata (lower : Text → Text) (p : Platform) : List Component :=
  match truthy p.name with
  | none => [⟨"os".toList, "other".toList, none⟩]
  | some n =>
    if osNames.contains (lower n) then [⟨"os".toList, lower n, p.version⟩]
    else if lower n = "darwin".toList then [⟨"os".toList, "macos".toList, p.version⟩]
    else [⟨"os".toList, "other".toList, none⟩, ⟨"md".toList, n, p.version⟩]

/-- `_UserAgentBuilder.build` (interceptors/user_agent.py:76-91, 126-153). -/
def build (lower : Text → Text) (p : Platform) : Agent where
  sdk := match truthy p.sdk with
    | some v => [⟨"python".toList, v, none⟩]
    | none => []
  ua := [⟨"ua".toList, "2.1".toList, none⟩]
  os := osMetadata lower p ++ match truthy p.machine with
    | some m => [⟨"md".toList, "arch".toList, some (lower m)⟩]
    | none => []
  language := ⟨"lang".toList, "python".toList, p.python⟩ :: match truthy p.implementation with
    | some i => [⟨"md".toList, "pyimpl".toList, some i⟩]
    | none => []

/-- What the AWS interceptor is configured with (smithy_aws_core/interceptors/user_agent.py:19-39) and
the versions it reads. -/
structure Aws where
  suffix : Option Text
  appId : Option Text
  sdkVersion : Text
  serviceId : Text
  version : Text
  coreVersion : Text
  crtVersion : Option Text

/-- `read_after_serialization` of the AWS interceptor (smithy_aws_core/interceptors/user_agent.py:41-72). -/
def Agent.aws (w : Aws) (a : Agent) : Agent :=
  { a with
    sdk := [⟨"aws-sdk-python".toList, w.version, none⟩,
      ⟨"md".toList, "smithy-core".toList, some w.coreVersion⟩] ++
      (match w.crtVersion with
        | some v => [⟨"md".toList, "awscrt".toList, some v⟩]
        | none => [])
    api := a.api ++ [⟨"api".toList, w.serviceId, some w.sdkVersion⟩]
    additional := a.additional ++
      (match w.appId with
        | some i => [.component ⟨"app".toList, i, none⟩]
        | none => []) ++
      (match w.suffix with
        | some s => [.raw s]
        | none => []) }

/-! ## Specification -/

/-- The characters of a token as the user-agent specification defines it (RFC 9110 `tchar` without
`#`). -/
def Token (c : Char) : Prop :=
  ('a'.toNat ≤ c.toNat ∧ c.toNat ≤ 'z'.toNat) ∨ ('A'.toNat ≤ c.toNat ∧ c.toNat ≤ 'Z'.toNat) ∨
    ('0'.toNat ≤ c.toNat ∧ c.toNat ≤ '9'.toNat) ∨
    c ∈ ['!', '$', '%', '&', '\'', '*', '+', '-', '.', '^', '_', '`', '|', '~']

/-- `clean` is `raw` with every character that is not allowed replaced by a dash. -/
def Cleaned (allowed : Char → Prop) (raw clean : Text) : Prop :=
  List.Forall₂ (fun r c => (allowed r ∧ c = r) ∨ (¬ allowed r ∧ c = '-')) raw clean

/-- A component read back: prefix before the slash, name before the hash sign, value after it. -/
def readComponent (t : Text) : Text × Option (Text × Option Text) :=
  let r := cut '/' t
  (r.1, r.2.map (cut '#'))

/-! ## Theorems -/

theorem mem_allowed_sound : ∀ c ∈ allowedCharacters, Token c := by
  unfold Token allowedCharacters
  decide +kernel

theorem range_mem (a : Nat) (l : Text) (b : Nat)
    (h : ∀ n, n < b → a ≤ n → ∃ c ∈ l, c.toNat = n) (c : Char) (h1 : a ≤ c.toNat)
    (h2 : c.toNat < b) : c ∈ l := by
  obtain ⟨d, hd, he⟩ := h c.toNat h2 h1
  have : d = c := Char.ext (UInt32.toNat_inj.1 he)
  exact this ▸ hd

theorem mem_allowed_complete (c : Char) (h : Token c) : c ∈ allowedCharacters := by
  rcases h with ⟨h1, h2⟩ | ⟨h1, h2⟩ | ⟨h1, h2⟩ | h
  · exact range_mem 97 _ 123 (by unfold allowedCharacters; decide +kernel) c h1
      (Nat.lt_succ_of_le h2)
  · exact range_mem 65 _ 91 (by unfold allowedCharacters; decide +kernel) c h1
      (Nat.lt_succ_of_le h2)
  · exact range_mem 48 _ 58 (by unfold allowedCharacters; decide +kernel) c h1
      (Nat.lt_succ_of_le h2)
  · revert c
    unfold allowedCharacters
    decide +kernel

theorem contains_iff (c : Char) : allowedCharacters.contains c = true ↔ Token c := by
  rw [List.contains_iff_mem]
  exact ⟨mem_allowed_sound c, mem_allowed_complete c⟩

theorem keep_iff (hash : Bool) (c : Char) :
    (allowedCharacters.contains c || (hash && c = '#')) = true ↔
      Token c ∨ (hash = true ∧ c = '#') := by
  rw [Bool.or_eq_true, contains_iff, Bool.and_eq_true, decide_eq_true_iff]

/-- **C30**: sanitizing keeps every allowed character in its place and replaces every other one by a
dash; the result has allowed characters only. -/
theorem C30_sanitize (hash : Bool) (raw : Text) :
    Cleaned (fun c => Token c ∨ (hash = true ∧ c = '#')) raw (sanitize hash raw) ∧
      ∀ c ∈ sanitize hash raw, Token c ∨ (hash = true ∧ c = '#') := by
  constructor
  · induction raw with
    | nil => exact .nil
    | cons r raw ih =>
      refine .cons ?_ ih
      by_cases h : (allowedCharacters.contains r || (hash && r = '#')) = true
      · exact .inl ⟨(keep_iff _ _).1 h, if_pos h⟩
      · exact .inr ⟨fun h' => h ((keep_iff _ _).2 h'), if_neg h⟩
  · intro c hc
    obtain ⟨r, _, rfl⟩ := List.mem_map.1 hc
    by_cases h : (allowedCharacters.contains r || (hash && r = '#')) = true
    · rw [if_pos h]; exact (keep_iff _ _).1 h
    · rw [if_neg h]; exact .inl (by unfold Token; decide)

theorem sanitize_no (hash : Bool) (raw : Text) (c : Char) (h : ¬ Token c)
    (h2 : hash = true → c ≠ '#') : c ∉ sanitize hash raw := fun hc => by
  rcases (C30_sanitize hash raw).2 c hc with h' | ⟨h', h''⟩
  · exact h h'
  · exact h2 h' h''

/-- **C30**: a component is read back as its three sanitized parts: no part can contain the separator
that ends it. -/
theorem C30_component (c : Component) :
    readComponent c.str = (sanitize true c.pre, some (sanitize false c.name,
      (match c.value with | none => none | some v => if v = [] then none else some (sanitize true v)))) ∧
      ' ' ∉ c.str ∧ ∀ x ∈ c.str, Token x ∨ x = '/' ∨ x = '#' := by
  have h1 : '/' ∉ sanitize true c.pre := sanitize_no _ _ _ (by unfold Token; decide) (by decide)
  have h2 : '#' ∉ sanitize false c.name := sanitize_no _ _ _ (by unfold Token; decide) (by decide)
  have hch : ∀ x ∈ c.str, Token x ∨ x = '/' ∨ x = '#' := by
    have hs : ∀ (b : Bool) (t : Text), ∀ x ∈ sanitize b t, Token x ∨ x = '/' ∨ x = '#' := by
      intro b t x hx
      rcases (C30_sanitize b t).2 x hx with h | ⟨_, h⟩
      · exact .inl h
      · exact .inr (.inr h)
    have hb : ∀ x ∈ sanitize true c.pre ++ '/' :: sanitize false c.name,
        Token x ∨ x = '/' ∨ x = '#' := by
      intro x hx
      rcases List.mem_append.1 hx with hx | hx
      · exact hs _ _ x hx
      · rcases List.mem_cons.1 hx with rfl | hx
        · exact .inr (.inl rfl)
        · exact hs _ _ x hx
    intro x hx
    unfold Component.str at hx
    cases hv : c.value with
    | none => rw [hv] at hx; exact hb x hx
    | some v =>
      rw [hv] at hx
      simp only at hx
      split at hx
      · exact hb x hx
      · rcases List.mem_append.1 hx with hx | hx
        · exact hb x hx
        · rcases List.mem_cons.1 hx with rfl | hx
          · exact .inr (.inr rfl)
          · exact hs _ _ x hx
  refine ⟨?_, ?_, hch⟩
  · unfold Component.str readComponent
    cases hv : c.value with
    | none => simp only; rw [cut_append _ _ _ h1]; simp [cut_of_not_mem _ _ h2]
    | some v =>
      simp only
      by_cases hve : v = []
      · simp only [hve, if_true]; rw [cut_append _ _ _ h1]; simp [cut_of_not_mem _ _ h2]
      · simp only [hve, if_false]
        rw [List.append_assoc, List.cons_append, cut_append _ _ _ h1]
        simp [cut_append _ _ _ h2]
  · intro h
    have := hch ' ' h
    revert this
    unfold Token; decide

/-- **C30**: the text of a user agent without raw components has exactly its components, in order,
between the blanks: no name or value can introduce another one. -/
theorem C30_user_agent (a : Agent) (cs : List Component) (h : a.items = cs.map Item.component)
    (hne : cs ≠ []) :
    split ' ' a.str = cs.map Component.str := by
  unfold Agent.str
  rw [h, List.map_map]
  apply split_join
  · simpa using hne
  · intro p hp
    obtain ⟨c, _, rfl⟩ := List.mem_map.1 hp
    exact (C30_component c).2.1

/-- The components the client itself puts into the header. -/
def Agent.components (a : Agent) : List Component :=
  a.sdk ++ a.internal ++ a.ua ++ a.api ++ a.os ++ a.language ++ a.env ++ a.config ++ a.feat

/-- **C30** for the header actually built: unless a suffix is configured, whatever the platform names,
versions, service and application identifiers are, the header consists of the components built from
them and nothing else. -/
theorem C30_built_header (lower : Text → Text) (p : Platform) (w : Aws) (h : w.suffix = none) :
    ∃ cs : List Component, split ' ' ((build lower p).aws w).str = cs.map Component.str ∧
      cs = ((build lower p).aws w).components ++
        (match w.appId with | some i => [⟨"app".toList, i, none⟩] | none => []) := by
  refine ⟨_, C30_user_agent _ _ ?_ ?_, rfl⟩
  · have hadd : (build lower p).additional = [] := rfl
    simp only [Agent.items, Agent.components, Agent.aws, h, hadd]
    cases w.appId <;> simp
  · simp [Agent.components, Agent.aws]

/-- **C30**: the header names the operating system by exactly one of the standard names, first among
the platform components; any other platform name only appears as metadata. -/
theorem C30_os (lower : Text → Text) (p : Platform) :
    ∃ c rest, (build lower p).os = c :: rest ∧ c.pre = "os".toList ∧ c.name ∈ osNames ∧
      ∀ d ∈ rest, d.pre = "md".toList := by
  have hm : ∀ d ∈ (match truthy p.machine with
      | some m => [(⟨"md".toList, "arch".toList, some (lower m)⟩ : Component)]
      | none => []), d.pre = "md".toList := by
    intro d hd
    split at hd
    · rw [List.mem_singleton.1 hd]
    · cases hd
  simp only [build, osMetadata]
  split
  · exact ⟨_, _, rfl, rfl, by decide, hm⟩
  · split
    · next hc => exact ⟨_, _, rfl, rfl, List.contains_iff_mem.1 hc, hm⟩
    · split
      · exact ⟨_, _, rfl, rfl, (by decide : "macos".toList ∈ osNames), hm⟩
      · refine ⟨_, _, rfl, rfl, by decide, ?_⟩
        intro d hd
        change d ∈ _ :: _ at hd
        rcases List.mem_cons.1 hd with rfl | hd
        · rfl
        · exact hm d hd

/-- A configured suffix is not sanitized: it can add components (and line breaks). -/
theorem C30_raw_suffix_fails :
    let a : Agent := { additional := [.raw "x os/forged".toList] }
    (split ' ' a.str).length = 2 ∧ a.items.length = 1 := by decide +kernel

/-! ## The hypotheses are met -/

example : Component.str ⟨"md".toList, "a b#c".toList, some "1/2 #3".toList⟩ =
    "md/a-b-c#1-2-#3".toList := by decide +kernel

example : (Agent.aws ⟨none, some "my app".toList, "1.0".toList, "S3".toList, "0.1".toList,
    "0.2".toList, none⟩ (build id ⟨some "linux".toList, some "6.1 x".toList, none,
      some "3.12".toList, none, none⟩)).str =
    "aws-sdk-python/0.1 md/smithy-core#0.2 ua/2.1 api/S3#1.0 os/linux#6.1-x lang/python#3.12 app/my-app".toList := by
  decide +kernel

end Verif.Http.UserAgent
