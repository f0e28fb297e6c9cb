import Verif.Common
import Mathlib.Tactic.Common

/-!
# Names of AWS clients and the old names of those that were published (C135)

`AwsServiceIdIntegration` names the class of a client after the SDK ID of the service
(codegen/aws/core/src/main/java/software/amazon/smithy/python/aws/codegen/AwsServiceIdIntegration.java:30-66), and
`ClientGenerator` writes a function `__getattr__` into the module `client` that gives the class for its old name
(codegen/core/src/main/java/software/amazon/smithy/python/codegen/ClientGenerator.java:109-131).
-/

set_option autoImplicit false

namespace Verif.ClientNames

abbrev Text := List Char

/-! ## Model -/

/-- `Character.toTitleCase` for the characters of SDK IDs, which are ASCII. -/
def titleCase (c : Char) : Char := if 'a' ≤ c ∧ c ≤ 'z' then Char.ofNat (c.toNat - 32) else c

/-- `StringUtils.capitalize` of the Smithy library: the first character in title case, the others as they are. -/
def capitalize (t : Text) : Text :=
  match t with
  | [] => []
  | c :: r => titleCase c :: r

/-- `baseClientName` (AwsServiceIdIntegration.java:57). -/
def baseName (sdkId : Text) : Text := (capitalize (sdkId ++ "Client".toList)).filter fun c => c ≠ ' '

/-- The name of the symbol of the service (AwsServiceIdIntegration.java:58). -/
def className (sdkId : Text) : Text := "Async".toList ++ baseName sdkId

/-- `LEGACY_ALIAS_SDK_IDS` (AwsServiceIdIntegration.java:30-37). -/
def legacyIds : List Text :=
  ["Bedrock Runtime".toList, "ConnectHealth".toList, "Lex Runtime V2".toList, "Polly".toList, "QBusiness".toList,
   "SageMaker Runtime HTTP2".toList, "Transcribe Streaming".toList]

/-- The property `DEPRECATED_ALIAS` of the symbol (AwsServiceIdIntegration.java:61-63). -/
def alias? (sdkId : Text) : Option Text := if sdkId ∈ legacyIds then some (baseName sdkId) else none

/-- What a name of the module stands for: the class of the client, or something else. -/
inductive Value where
  | client
  | other (n : Nat)
  deriving DecidableEq, Repr

/-- A warning: its category and message. -/
structure Warning where
  category : Text
  message : Text
  deriving DecidableEq, Repr

/-- What getting an attribute of the module ends in. -/
inductive Result where
  | value (v : Value) (warnings : List Warning)
  | attributeError
  | nameError
  | raised (w : Warning)
  deriving DecidableEq, Repr

/-- The value of a name after the statements that bind `names` one after the other. -/
def lookup (names : List (Text × Value)) (n : Text) : Option Value :=
  (names.reverse.find? fun p => p.1 = n).map fun p => p.2

/-- The generated module `client`: the names it has, in the order in which they are bound, and the old and the new name in
its `__getattr__`, if it has one. -/
structure Module where
  names : List (Text × Value)
  old : Option (Text × Text)

/-- The module that is generated for a service: what is imported at its top, then the class, then the function
`__getattr__` (ClientGenerator.java:51-131).  The assignment of the old name (ClientGenerator.java:115-117) is for type
checkers only: `TYPE_CHECKING` is false when the module is run. -/
def generate (imports : List (Text × Value)) (sdkId : Text) : Module :=
  match alias? sdkId with
  | none => ⟨imports ++ [(className sdkId, .client)], none⟩
  | some a =>
    ⟨imports ++ [(className sdkId, .client), ("__getattr__".toList, .other 0)], some (a, className sdkId)⟩

/-- The warning of the generated function (ClientGenerator.java:122-127). -/
def warning (old new : Text) : Warning :=
  ⟨"DeprecationWarning".toList, old ++ " is deprecated, use ".toList ++ new ++
    " instead. This alias will be removed in a future version.".toList⟩

/-- `client.NAME` and `from client import NAME`: the name in the module, else what `__getattr__` of the module gives (PEP 562;
the function is ClientGenerator.java:120-129).  `strict`: warnings are made exceptions (`python -W error`). -/
def getattr (strict : Bool) (m : Module) (name : Text) : Result :=
  match lookup m.names name with
  | some v => .value v []
  | none =>
    match m.old with
    | none => .attributeError
    | some (old, new) =>
      if name = old then
        if strict then .raised (warning old new)
        else
          match lookup m.names new with
          | some v => .value v [warning old new]
          | none => .nameError
      else .attributeError

/-! ## Specification -/

/-- A letter of ASCII. -/
def Letter (c : Char) : Prop := ('a' ≤ c ∧ c ≤ 'z') ∨ ('A' ≤ c ∧ c ≤ 'Z')

/-- A letter or digit of ASCII. -/
def Alnum (c : Char) : Prop := Letter c ∨ ('0' ≤ c ∧ c ≤ '9')

/-- An SDK ID as the Smithy library accepts it, `^[a-zA-Z][a-zA-Z0-9]*( [a-zA-Z0-9]+)*$`: the letter, the rest of the first word,
and the other words. -/
structure SdkId where
  head : Char
  tail : Text
  words : List Text

/-- The rules for the parts. -/
def SdkId.Valid (s : SdkId) : Prop :=
  Letter s.head ∧ (∀ c ∈ s.tail, Alnum c) ∧ ∀ w ∈ s.words, w ≠ [] ∧ ∀ c ∈ w, Alnum c

/-- The text of an SDK ID: words with spaces between them. -/
def SdkId.text (s : SdkId) : Text := s.head :: s.tail ++ (s.words.map fun w => ' ' :: w).flatten

/-- A name that Python accepts, of ASCII characters. -/
def Identifier (t : Text) : Prop :=
  ∃ c r, t = c :: r ∧ (Letter c ∨ c = '_') ∧ ∀ d ∈ r, Alnum d ∨ d = '_'

/-- The clients that were published under old names: SDK ID, old name, new name. -/
def published : List (Text × Text × Text) :=
  [("Bedrock Runtime".toList, "BedrockRuntimeClient".toList, "AsyncBedrockRuntimeClient".toList),
   ("ConnectHealth".toList, "ConnectHealthClient".toList, "AsyncConnectHealthClient".toList),
   ("Lex Runtime V2".toList, "LexRuntimeV2Client".toList, "AsyncLexRuntimeV2Client".toList),
   ("Polly".toList, "PollyClient".toList, "AsyncPollyClient".toList),
   ("QBusiness".toList, "QBusinessClient".toList, "AsyncQBusinessClient".toList),
   ("SageMaker Runtime HTTP2".toList, "SageMakerRuntimeHTTP2Client".toList, "AsyncSageMakerRuntimeHTTP2Client".toList),
   ("Transcribe Streaming".toList, "TranscribeStreamingClient".toList, "AsyncTranscribeStreamingClient".toList)]

/-! ## Lemmas -/

instance (c : Char) : Decidable (Letter c) :=
  inferInstanceAs (Decidable (('a' ≤ c ∧ c ≤ 'z') ∨ ('A' ≤ c ∧ c ≤ 'Z')))

instance (c : Char) : Decidable (Alnum c) := inferInstanceAs (Decidable (Letter c ∨ ('0' ≤ c ∧ c ≤ '9')))

theorem all_alnum {t : Text} (h : (t.all fun c => Alnum c) = true) : ∀ c ∈ t, Alnum c := fun c hc =>
  of_decide_eq_true (List.all_eq_true.1 h c hc)

theorem letter_ne_space {c : Char} (h : Letter c) : c ≠ ' ' := by
  rintro rfl
  rcases h with ⟨h, _⟩ | ⟨h, _⟩ <;> revert h <;> decide

theorem alnum_ne_space {c : Char} (h : Alnum c) : c ≠ ' ' := by
  rcases h with h | ⟨h, _⟩
  · exact letter_ne_space h
  · rintro rfl
    revert h
    decide

theorem filter_alnum {t : Text} (h : ∀ c ∈ t, Alnum c) : (t.filter fun c => c ≠ ' ') = t := by
  rw [List.filter_eq_self]
  intro c hc
  simpa using alnum_ne_space (h c hc)

theorem filter_words {ws : List Text} (h : ∀ w ∈ ws, w ≠ [] ∧ ∀ c ∈ w, Alnum c) :
    ((ws.map fun w => ' ' :: w).flatten.filter fun c => c ≠ ' ') = ws.flatten := by
  induction ws with
  | nil => rfl
  | cons w ws ih =>
    have hw := filter_alnum (h w (by simp)).2
    have := ih fun x hx => h x (by simp [hx])
    simp only [List.map_cons, List.flatten_cons, List.filter_append, this]
    rw [List.filter_cons_of_neg (by simp), hw]

theorem char_toNat_ofNat {n : Nat} (h : n < 128) : (Char.ofNat n).toNat = n := by
  have hv : n.isValidChar := Or.inl (by omega)
  simp only [Char.ofNat, hv, dif_pos]
  rfl

theorem char_ext {a b : Char} (h : a.toNat = b.toNat) : a = b := Char.ext (UInt32.toNat_inj.1 h)

theorem lower_iff (c : Char) : ('a' ≤ c ∧ c ≤ 'z') ↔ 97 ≤ c.toNat ∧ c.toNat ≤ 122 := Iff.rfl

theorem upper_iff (c : Char) : ('A' ≤ c ∧ c ≤ 'Z') ↔ 65 ≤ c.toNat ∧ c.toNat ≤ 90 := Iff.rfl

theorem titleCase_toNat (c : Char) :
    (titleCase c).toNat = if 97 ≤ c.toNat ∧ c.toNat ≤ 122 then c.toNat - 32 else c.toNat := by
  unfold titleCase
  by_cases h : 97 ≤ c.toNat ∧ c.toNat ≤ 122
  · rw [if_pos ((lower_iff c).2 h), if_pos h, char_toNat_ofNat (by omega)]
  · rw [if_neg (fun hc => h ((lower_iff c).1 hc)), if_neg h]

theorem titleCase_upper {c : Char} (h : Letter c) : 'A' ≤ titleCase c ∧ titleCase c ≤ 'Z' := by
  rw [upper_iff, titleCase_toNat]
  rcases h with h | h
  · rw [lower_iff] at h
    rw [if_pos h]
    omega
  · rw [upper_iff] at h
    rw [if_neg (by omega)]
    exact h

theorem baseName_eq (s : SdkId) (h : s.Valid) :
    baseName s.text = titleCase s.head :: s.tail ++ s.words.flatten ++ "Client".toList := by
  obtain ⟨h1, h2, h3⟩ := h
  have hc : ("Client".toList.filter fun c => c ≠ ' ') = "Client".toList := by decide +kernel
  have ht : titleCase s.head ≠ ' ' := letter_ne_space (Or.inr (titleCase_upper h1))
  simp only [baseName, SdkId.text, capitalize, List.cons_append, List.append_assoc]
  rw [List.filter_cons_of_pos (by simpa using ht)]
  simp only [List.filter_append, filter_alnum h2, filter_words h3, hc]

theorem lookup_append_one (l : List (Text × Value)) (n : Text) (v : Value) : lookup (l ++ [(n, v)]) n = some v := by
  simp [lookup]

theorem lookup_append_ne (l : List (Text × Value)) (n m : Text) (v : Value) (h : n ≠ m) :
    lookup (l ++ [(n, v)]) m = lookup l m := by
  simp [lookup, h]

theorem lookup_none (l : List (Text × Value)) (n : Text) (h : ∀ p ∈ l, p.1 ≠ n) : lookup l n = none := by
  simp only [lookup, Option.map_eq_none_iff, List.find?_eq_none, List.mem_reverse]
  intro p hp
  simpa using h p hp

theorem published_facts : ∀ t ∈ published, alias? t.1 = some t.2.1 ∧ className t.1 = t.2.2 ∧ t.2.1 ≠ t.2.2 ∧
    t.2.2 ≠ "__getattr__".toList ∧ t.2.1 ≠ "__getattr__".toList := by
  have h : ∀ t ∈ published, (decide (alias? t.1 = some t.2.1 ∧ className t.1 = t.2.2 ∧ t.2.1 ≠ t.2.2 ∧
    t.2.2 ≠ "__getattr__".toList ∧ t.2.1 ≠ "__getattr__".toList)) = true := by decide +kernel
  intro t ht
  exact of_decide_eq_true (h t ht)

theorem legacy_iff (sdkId : Text) : sdkId ∈ legacyIds ↔ ∃ t ∈ published, t.1 = sdkId := by
  simp [legacyIds, published, eq_comm]

theorem getattr_published (imports : List (Text × Value)) (t : Text × Text × Text) (ht : t ∈ published) :
    generate imports t.1 =
      ⟨imports ++ [(t.2.2, .client), ("__getattr__".toList, .other 0)], some (t.2.1, t.2.2)⟩ := by
  obtain ⟨h1, h2, _⟩ := published_facts t ht
  unfold generate
  rw [h1, h2]

theorem getattr_old (m : Module) (old new : Text) (v : Value) (hm : m.old = some (old, new))
    (ho : lookup m.names old = none) (hn : lookup m.names new = some v) :
    getattr false m old = .value v [warning old new] := by
  unfold getattr
  rw [ho, hm]
  simp [hn]

/-! ## Theorems -/

/-- **C135**: the class of a client is `Async`, the words of the SDK ID with the first letter in capitals, and `Client`. -/
theorem C135_name (s : SdkId) (h : s.Valid) : ∃ c : Char, ('A' ≤ c ∧ c ≤ 'Z') ∧
    (s.head = c ∨ s.head.toNat = c.toNat + 32) ∧
    className s.text = "Async".toList ++ c :: s.tail ++ s.words.flatten ++ "Client".toList := by
  refine ⟨titleCase s.head, titleCase_upper h.1, ?_, ?_⟩
  · rw [titleCase_toNat]
    by_cases hl : 97 ≤ s.head.toNat ∧ s.head.toNat ≤ 122
    · right
      rw [if_pos hl]
      omega
    · left
      unfold titleCase
      rw [if_neg (fun hc => hl ((lower_iff _).1 hc))]
  · unfold className
    rw [baseName_eq s h]
    simp

/-- **C135**: Python accepts the name. -/
theorem C135_identifier (s : SdkId) (h : s.Valid) : Identifier (className s.text) := by
  refine ⟨'A', "sync".toList ++ baseName s.text, rfl, Or.inl (Or.inr ⟨by decide, by decide⟩), ?_⟩
  rw [baseName_eq s h]
  intro d hd
  left
  simp only [List.mem_append, List.mem_cons, List.mem_flatten] at hd
  rcases hd with hd | ((rfl | hd) | ⟨w, hw, hd⟩) | hd
  · exact all_alnum (by decide +kernel) d hd
  · exact Or.inl (Or.inr (titleCase_upper h.1))
  · exact h.2.1 d hd
  · exact (h.2.2 w hw).2 d hd
  · exact all_alnum (by decide +kernel) d hd

/-- **C135**: two SDK IDs have classes of the same name exactly if they are the same but for spaces and the case of the first
letter. -/
theorem C135_same_name (s t : SdkId) (hs : s.Valid) (ht : t.Valid) :
    className s.text = className t.text ↔
      (s.head = t.head ∨ s.head.toNat = t.head.toNat + 32 ∨ t.head.toNat = s.head.toNat + 32) ∧
        s.tail ++ s.words.flatten = t.tail ++ t.words.flatten := by
  have key : titleCase s.head = titleCase t.head ↔
      (s.head = t.head ∨ s.head.toNat = t.head.toNat + 32 ∨ t.head.toNat = s.head.toNat + 32) := by
    have e : titleCase s.head = titleCase t.head ↔ (titleCase s.head).toNat = (titleCase t.head).toNat :=
      ⟨fun h => by rw [h], char_ext⟩
    have e' : s.head = t.head ↔ s.head.toNat = t.head.toNat := ⟨fun h => by rw [h], char_ext⟩
    rw [e, e', titleCase_toNat, titleCase_toNat]
    have h1 : (97 ≤ s.head.toNat ∧ s.head.toNat ≤ 122) ∨ (65 ≤ s.head.toNat ∧ s.head.toNat ≤ 90) := hs.1
    have h2 : (97 ≤ t.head.toNat ∧ t.head.toNat ≤ 122) ∨ (65 ≤ t.head.toNat ∧ t.head.toNat ≤ 90) := ht.1
    split <;> split <;> omega
  unfold className
  rw [List.append_cancel_left_eq, baseName_eq s hs, baseName_eq t ht, List.append_cancel_right_eq, List.cons_append,
    List.cons_append, List.cons.injEq, key]

/-- **C135**: the client is there under the new name, without a warning, whatever else the module imports. -/
theorem C135_new_name (imports : List (Text × Value)) (sdkId : Text) (strict : Bool) :
    getattr strict (generate imports sdkId) (className sdkId) = .value .client [] := by
  have hne : "__getattr__".toList ≠ className sdkId := by
    intro e
    have := congrArg List.head? e
    revert this
    unfold className
    simp
  unfold generate
  cases alias? sdkId with
  | none => simp only [getattr, lookup_append_one]
  | some a =>
    have := lookup_append_ne (imports ++ [(className sdkId, .client)]) _ _ (.other 0) hne
    rw [List.append_assoc] at this
    simp only [getattr, List.singleton_append] at this ⊢
    rw [this, lookup_append_one]

/-- **C135**: who gets one of the published clients by its old name gets the same class and one `DeprecationWarning` that has both
names, if the module imports nothing of the old name. -/
theorem C135_old_name_partial (imports : List (Text × Value)) (sdkId old new : Text) (ht : (sdkId, old, new) ∈ published)
    (hi : ∀ p ∈ imports, p.1 ≠ old) :
    getattr false (generate imports sdkId) new = .value .client [] ∧
    getattr false (generate imports sdkId) old = .value .client
      [⟨"DeprecationWarning".toList, old ++ " is deprecated, use ".toList ++ new ++
        " instead. This alias will be removed in a future version.".toList⟩] := by
  obtain ⟨-, -, h3, h4, h5⟩ := published_facts _ ht
  simp only at h3 h4 h5
  have e := getattr_published imports _ ht
  simp only at e
  rw [e]
  have hn : lookup (imports ++ [(new, .client), ("__getattr__".toList, .other 0)]) new = some .client := by
    have := lookup_append_ne (imports ++ [(new, .client)]) _ _ (.other 0) h4.symm
    rw [List.append_assoc] at this
    rw [List.singleton_append] at this
    rw [this, lookup_append_one]
  have ho : lookup (imports ++ [(new, .client), ("__getattr__".toList, .other 0)]) old = none := by
    apply lookup_none
    intro p hp
    simp only [List.mem_append, List.mem_cons, List.not_mem_nil, or_false] at hp
    rcases hp with hp | rfl | rfl
    · exact hi p hp
    · exact h3.symm
    · exact h5.symm
  constructor
  · simp only [getattr, hn]
  · exact getattr_old _ old new .client rfl ho hn

/-- **C135**: every other name that the module does not have is an `AttributeError`; for clients that were not published before
that is so for the name without `Async`, too. -/
theorem C135_no_other_name (imports : List (Text × Value)) (sdkId name : Text) (strict : Bool)
    (hi : ∀ p ∈ imports, p.1 ≠ name) (hc : name ≠ className sdkId) (hg : name ≠ "__getattr__".toList)
    (ho : ∀ old new, (sdkId, old, new) ∈ published → name ≠ old) :
    getattr strict (generate imports sdkId) name = .attributeError := by
  by_cases hl : sdkId ∈ legacyIds
  · obtain ⟨⟨id, old, new⟩, ht, he⟩ := (legacy_iff sdkId).1 hl
    simp only at he
    subst he
    have e := getattr_published imports _ ht
    have h2 := (published_facts _ ht).2.1
    simp only at e h2
    rw [e]
    have hn : lookup (imports ++ [(new, .client), ("__getattr__".toList, .other 0)]) name = none := by
      apply lookup_none
      intro p hp
      simp only [List.mem_append, List.mem_cons, List.not_mem_nil, or_false] at hp
      rcases hp with hp | rfl | rfl
      · exact hi p hp
      · rw [← h2]
        exact hc.symm
      · exact hg.symm
    simp only [getattr, hn, if_neg (ho old new ht)]
  · have ha : alias? sdkId = none := by
      unfold alias?
      rw [if_neg hl]
    unfold generate
    rw [ha]
    have hn : lookup (imports ++ [(className sdkId, .client)]) name = none := by
      apply lookup_none
      intro p hp
      simp only [List.mem_append, List.mem_cons, List.not_mem_nil, or_false] at hp
      rcases hp with hp | rfl
      · exact hi p hp
      · exact hc.symm
    simp only [getattr, hn]

/-- **C135** is false where the module imports a class of the old name, as it does for an operation whose input is so called: the old
name then stands for that class, without a warning. -/
theorem C135_imported_name_fails : ∃ imports : List (Text × Value),
    getattr false (generate imports "Polly".toList) "PollyClient".toList = .value (.other 1) [] :=
  ⟨[("PollyClient".toList, .other 1)], by decide +kernel⟩

/-! ## Examples -/

/-- `lex runtime V2`, an SDK ID of three words. -/
def lex : SdkId := ⟨'l', "ex".toList, ["Runtime".toList, "V2".toList]⟩

theorem lex_valid : lex.Valid := by
  refine ⟨Or.inl ⟨by decide, by decide⟩, all_alnum (by decide +kernel), ?_⟩
  intro w hw
  simp only [lex, List.mem_cons, List.not_mem_nil, or_false] at hw
  rcases hw with rfl | rfl
  · exact ⟨by decide +kernel, all_alnum (by decide +kernel)⟩
  · exact ⟨by decide +kernel, all_alnum (by decide +kernel)⟩

example : lex.text = "lex Runtime V2".toList ∧ className lex.text = "AsyncLexRuntimeV2Client".toList := by
  refine ⟨?_, ?_⟩ <;> decide +kernel

example : Identifier (className lex.text) := C135_identifier lex lex_valid

example : getattr false (generate [("Any".toList, .other 1)] "Polly".toList) "PollyClient".toList = .value .client
    [⟨"DeprecationWarning".toList, "PollyClient is deprecated, use AsyncPollyClient instead. This alias will be removed in a future version.".toList⟩] := by
  decide +kernel

example : getattr false (generate [] "Weather".toList) "WeatherClient".toList = .attributeError := by decide +kernel

end Verif.ClientNames
