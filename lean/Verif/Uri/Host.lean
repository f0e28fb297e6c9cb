import Verif.Regex
import Verif.Text

/-!
# Which hosts a URI may have (C71)

Models the expressions of smithy_core/rfc3986.py and the check and classification of hosts in
smithy_core/__init__.py:58-63 and 97-110.
-/

set_option autoImplicit false

namespace Verif.Uri.Host

open Verif Verif.Regex Verif.Text

/-! ## Model -/

/-- `r{n}` -/
def times (r : Regex) : Nat → Regex
  | 0 => .empty
  | n + 1 => .seq r (times r n)

/-- `r{0,n}` -/
def upTo (r : Regex) : Nat → Regex
  | 0 => .empty
  | n + 1 => opt (.seq r (upTo r n))

/-- `r{1,n+1}` -/
def oneTo (r : Regex) (n : Nat) : Regex := .seq r (upTo r n)

def between (a b c : Char) : Bool := a.toNat ≤ c.toNat && c.toNat ≤ b.toNat

/-- `[0-9]` -/
def isDigit (c : Char) : Bool := between '0' '9' c

/-- `[0-9A-Fa-f]` -/
def isHex (c : Char) : Bool := isDigit c || between 'A' 'F' c || between 'a' 'f' c

/-- `[UNRESERVED_RE]` (rfc3986.py:29). -/
def isUnreserved (c : Char) : Bool :=
  between 'A' 'Z' c || between 'a' 'z' c || isDigit c || c = '.' || c = '_' || c = '~' || c = '-'

/-- `[SUB_DELIMITERS_RE]` (rfc3986.py:27). -/
def isSubDelimiter (c : Char) : Bool := "!$&'()*+,;=".toList.contains c

/-- `PCT_ENCODED` (rfc3986.py:32, 42). -/
def pct : Regex := .seq (lit '%') (times (.char isHex) 2)

/-- `REG_NAME` (rfc3986.py:41-43). -/
def regName : Regex := .star (.alt pct (.char fun c => isSubDelimiter c || isUnreserved c))

/-- `IPv4_RE` (rfc3986.py:45). -/
def ipv4 : Regex :=
  .seq (times (.seq (oneTo (.char isDigit) 2) (lit '.')) 3) (oneTo (.char isDigit) 2)

/-- `HEXDIG_RE` (rfc3986.py:47). -/
def hex : Regex := oneTo (.char isHex) 3

/-- `LS32_RE` (rfc3986.py:49). -/
def ls32 : Regex := .alt (.seq hex (.seq (lit ':') hex)) ipv4

/-- `%(hex)s:` -/
def hexColon : Regex := .seq hex (lit ':')

/-- `((%(hex)s:){0,n}%(hex)s)?::` -/
def elided (n : Nat) : Regex := .seq (opt (.seq (upTo hexColon n) hex)) (lits "::".toList)

/-- `IPv6_RE` (rfc3986.py:56-77). -/
def ipv6 : Regex :=
  .alt (.seq (times hexColon 6) ls32) <|
  .alt (.seq (lits "::".toList) (.seq (times hexColon 5) ls32)) <|
  .alt (.seq (.seq (opt hex) (lits "::".toList)) (.seq (times hexColon 4) ls32)) <|
  .alt (.seq (.seq (opt (.seq (opt hexColon) hex)) (lits "::".toList))
    (.seq (times hexColon 3) ls32)) <|
  .alt (.seq (elided 2) (.seq (times hexColon 2) ls32)) <|
  .alt (.seq (elided 3) (.seq hexColon ls32)) <|
  .alt (.seq (elided 4) ls32) <|
  .alt (.seq (elided 5) hex) <|
  elided 6

/-- `IPv_FUTURE_RE` (rfc3986.py:79). -/
def ipvFuture : Regex :=
  .seq (lit 'v') (.seq (plus (.char isHex)) (.seq (lit '.')
    (plus (.char fun c => isUnreserved c || isSubDelimiter c || c = ':'))))

/-- `ZONE_ID` (rfc3986.py:82). -/
def zoneId : Regex := plus (.alt (.char isUnreserved) pct)

/-- `IPv6_ADDRZ_RFC4007_RE` (rfc3986.py:84). -/
def ipv6Zone : Regex :=
  .seq ipv6 (opt (.seq (.alt (lits "%25".toList) (lit '%')) zoneId))

/-- `IP_LITERAL_RE` (rfc3986.py:87-90). -/
def ipLiteral : Regex := .seq (lit '[') (.seq (.alt ipv6Zone ipvFuture) (lit ']'))

/-- `HOST_RE` (rfc3986.py:93-97). -/
def host : Regex := .alt regName (.alt ipv4 ipLiteral)

/-- `re.compile("^" + r + "$").match(t)`: `$` matches at the end and before a final line break. -/
def lineMatch (r : Regex) (t : Text) : Bool :=
  r.fullmatch t || (t.getLast? = some '\n' && r.fullmatch t.dropLast)

/-- `HOST_MATCHER` (rfc3986.py:111). -/
def hostMatcher (t : Text) : Bool := lineMatch host t

/-- `IPv4_MATCHER` (rfc3986.py:112). -/
def ipv4Matcher (t : Text) : Bool := lineMatch ipv4 t

/-- `IPv6_MATCHER` (rfc3986.py:113). -/
def ipv6Matcher (t : Text) : Bool := lineMatch (.seq (lit '[') (.seq ipv6Zone (lit ']'))) t

/-- `URI.__post_init__` accepts the host (smithy_core/__init__.py:58-63). -/
def accepted (t : Text) : Bool := hostMatcher t || ipv6Matcher (['['] ++ t ++ [']'])

/-- `HostType` (smithy_core/__init__.py:14-27). -/
inductive HostType where
  | ipv6
  | ipv4
  | domain
  | unknown
  deriving DecidableEq, Repr

/-- `URI.host_type` (smithy_core/__init__.py:102-110). -/
def hostType (t : Text) : HostType :=
  if ipv6Matcher (['['] ++ t ++ [']']) then .ipv6
  else if ipv4Matcher t then .ipv4
  else if hostMatcher t then .domain
  else .unknown

/-! ## Specification

The host of RFC 3986 (section 3.2.2), with the zone identifiers of RFC 6874. -/

def Hex (c : Char) : Prop := isHex c = true

/-- A percent-encoded byte. -/
def Pct (t : Text) : Prop := ∃ a b, t = ['%', a, b] ∧ Hex a ∧ Hex b

/-- Characters of a class and percent-encoded bytes, one after the other. -/
def Encoded (p : Char → Bool) (t : Text) : Prop :=
  ∃ us : List Text, t = us.flatten ∧ ∀ u ∈ us, Pct u ∨ ∃ c, u = [c] ∧ p c = true

/-- A registered name. -/
def RegName (t : Text) : Prop := Encoded (fun c => isSubDelimiter c || isUnreserved c) t

/-- Between one and four hexadecimal digits. -/
def Group (t : Text) : Prop := t ≠ [] ∧ t.length ≤ 4 ∧ ∀ c ∈ t, Hex c

/-- Four numbers of up to three digits. -/
def Dotted (t : Text) : Prop :=
  ∃ ps : List Text, ps.length = 4 ∧ t = join '.' ps ∧
    ∀ p ∈ ps, p ≠ [] ∧ p.length ≤ 3 ∧ ∀ c ∈ p, isDigit c = true

/-- Groups separated by colons, the last two of which may be written as a dotted address. -/
structure Part where
  groups : List Text
  dotted : Option Text

def Part.text (p : Part) : Text := join ':' (p.groups ++ p.dotted.toList)

def Part.size (p : Part) : Nat := p.groups.length + (if p.dotted.isSome then 2 else 0)

def Part.Ok (p : Part) : Prop := (∀ g ∈ p.groups, Group g) ∧ ∀ d, p.dotted = some d → Dotted d

/-- An IPv6 address: eight groups, or at most seven with one `::` in place of the missing ones. -/
def IPv6 (t : Text) : Prop :=
  (∃ p : Part, p.Ok ∧ p.size = 8 ∧ t = p.text) ∨
  ∃ (l : List Text) (p : Part), (∀ g ∈ l, Group g) ∧ p.Ok ∧ l.length + p.size ≤ 7 ∧
    t = join ':' l ++ "::".toList ++ p.text

/-- An IPv6 address, possibly with a zone. -/
def IPv6Zone (t : Text) : Prop :=
  ∃ a z, t = a ++ z ∧ IPv6 a ∧
    (z = [] ∨ ∃ i, i ≠ [] ∧ Encoded isUnreserved i ∧ (z = "%25".toList ++ i ∨ z = '%' :: i))

/-- A future version of the address. -/
def Future (t : Text) : Prop :=
  ∃ v a : Text, t = 'v' :: v ++ '.' :: a ∧ v ≠ [] ∧ a ≠ [] ∧ (∀ c ∈ v, Hex c) ∧
    ∀ c ∈ a, (isUnreserved c || isSubDelimiter c || c = ':') = true

/-- A host. -/
def Valid (t : Text) : Prop :=
  RegName t ∨ Dotted t ∨ ∃ a, t = '[' :: a ++ [']'] ∧ (IPv6Zone a ∨ Future a)

/-! ## Theorems -/

theorem times_iff {r : Regex} {n : Nat} {t : Text} :
    Lang (times r n) t ↔ ∃ ss : List Text, ss.length = n ∧ (∀ s ∈ ss, Lang r s) ∧ t = ss.flatten := by
  induction n generalizing t with
  | zero =>
    rw [times, empty_iff]
    constructor
    · rintro rfl; exact ⟨[], rfl, by simp, rfl⟩
    · rintro ⟨ss, h, _, rfl⟩; rw [List.length_eq_zero_iff.1 h]; rfl
  | succ n ih =>
    rw [times, seq_iff]
    constructor
    · rintro ⟨s, u, hs, hu, rfl⟩
      obtain ⟨ss, h1, h2, rfl⟩ := ih.1 hu
      exact ⟨s :: ss, by simp [h1], by simpa using ⟨hs, h2⟩, by simp⟩
    · rintro ⟨ss, h1, h2, rfl⟩
      cases ss with
      | nil => simp at h1
      | cons s ss =>
        exact ⟨s, ss.flatten, h2 s (by simp), ih.2 ⟨ss, by simpa using h1,
          fun x hx => h2 x (by simp [hx]), rfl⟩, by simp⟩

theorem upTo_iff {r : Regex} {n : Nat} {t : Text} :
    Lang (upTo r n) t ↔ ∃ ss : List Text, ss.length ≤ n ∧ (∀ s ∈ ss, Lang r s) ∧ t = ss.flatten := by
  induction n generalizing t with
  | zero =>
    rw [upTo, empty_iff]
    constructor
    · rintro rfl; exact ⟨[], by simp, by simp, rfl⟩
    · rintro ⟨ss, h, _, rfl⟩; rw [List.length_eq_zero_iff.1 (Nat.le_zero.1 h)]; rfl
  | succ n ih =>
    rw [upTo, opt_iff, seq_iff]
    constructor
    · rintro (⟨s, u, hs, hu, rfl⟩ | rfl)
      · obtain ⟨ss, h1, h2, rfl⟩ := ih.1 hu
        exact ⟨s :: ss, by simpa using h1, by simpa using ⟨hs, h2⟩, by simp⟩
      · exact ⟨[], by simp, by simp, rfl⟩
    · rintro ⟨ss, h1, h2, rfl⟩
      cases ss with
      | nil => exact .inr rfl
      | cons s ss =>
        exact .inl ⟨s, ss.flatten, h2 s (by simp), ih.2 ⟨ss, by simpa using h1,
          fun x hx => h2 x (by simp [hx]), rfl⟩, by simp⟩

theorem flatten_single {p : Char → Bool} (ss : List Text) (h : ∀ s ∈ ss, Lang (.char p) s) :
    ss.flatten.length = ss.length ∧ ∀ c ∈ ss.flatten, p c = true := by
  induction ss with
  | nil => simp
  | cons s ss ih =>
    obtain ⟨h1, h2⟩ := ih fun x hx => h x (by simp [hx])
    obtain ⟨c, hc, rfl⟩ := char_iff.1 (h s (by simp))
    refine ⟨by simp [h1], ?_⟩
    intro d hd
    simp only [List.flatten_cons, List.singleton_append, List.mem_cons] at hd
    rcases hd with rfl | hd
    · exact hc
    · exact h2 d hd

theorem map_single_flatten (t : Text) : (t.map fun c => [c]).flatten = t := by
  induction t with
  | nil => rfl
  | cons c t ih => simp [ih]

theorem oneTo_char_iff {p : Char → Bool} {n : Nat} {t : Text} :
    Lang (oneTo (.char p) n) t ↔ t ≠ [] ∧ t.length ≤ n + 1 ∧ ∀ c ∈ t, p c = true := by
  rw [oneTo, seq_iff]
  constructor
  · rintro ⟨s, u, hs, hu, rfl⟩
    obtain ⟨c, hc, rfl⟩ := char_iff.1 hs
    obtain ⟨ss, h1, h2, rfl⟩ := upTo_iff.1 hu
    obtain ⟨h3, h4⟩ := flatten_single ss h2
    refine ⟨by simp, by simp only [List.length_append, List.length_singleton, h3]; omega, ?_⟩
    intro d hd
    rcases List.mem_cons.1 hd with rfl | hd
    · exact hc
    · exact h4 d hd
  · rintro ⟨hne, hl, h⟩
    obtain ⟨c, t, rfl⟩ := List.exists_cons_of_ne_nil hne
    refine ⟨[c], t, char_iff.2 ⟨c, h c (by simp), rfl⟩, upTo_iff.2 ⟨t.map fun c => [c], ?_, ?_,
      (map_single_flatten t).symm⟩, rfl⟩
    · simpa using hl
    · intro s hs
      obtain ⟨d, hd, rfl⟩ := List.mem_map.1 hs
      exact char_iff.2 ⟨d, h d (by simp [hd]), rfl⟩

theorem hex_iff {t : Text} : Lang hex t ↔ Group t := oneTo_char_iff

theorem star_iff {r : Regex} {t : Text} :
    Lang (.star r) t ↔ ∃ ss : List Text, (∀ s ∈ ss, Lang r s) ∧ t = ss.flatten := by
  constructor
  · intro h
    generalize hr : Regex.star r = q at h
    induction h with
    | starNil => exact ⟨[], by simp, rfl⟩
    | starCons a s u h1 _ _ ih =>
      cases hr
      obtain ⟨ss, h2, rfl⟩ := ih rfl
      exact ⟨s :: ss, by simpa using ⟨h1, h2⟩, by simp⟩
    | _ => cases hr
  · rintro ⟨ss, h, rfl⟩
    induction ss with
    | nil => exact .starNil _
    | cons s ss ih =>
      rw [List.flatten_cons]
      exact .starCons _ _ _ (h s (by simp)) (ih fun x hx => h x (by simp [hx]))

theorem pct_iff {t : Text} : Lang pct t ↔ Pct t := by
  rw [pct, seq_iff]
  constructor
  · rintro ⟨s, u, hs, hu, rfl⟩
    rw [lit_iff.1 hs]
    obtain ⟨ss, h1, h2, rfl⟩ := times_iff.1 hu
    match ss, h1 with
    | [x, y], _ =>
      obtain ⟨a, ha, rfl⟩ := char_iff.1 (h2 x (by simp))
      obtain ⟨b, hb, rfl⟩ := char_iff.1 (h2 y (by simp))
      exact ⟨a, b, rfl, ha, hb⟩
  · rintro ⟨a, b, rfl, ha, hb⟩
    refine ⟨['%'], [a, b], lit_iff.2 rfl, times_iff.2 ⟨[[a], [b]], rfl, ?_, rfl⟩, rfl⟩
    intro s hs
    rcases List.mem_cons.1 hs with rfl | hs
    · exact char_iff.2 ⟨a, ha, rfl⟩
    · rw [List.mem_singleton.1 hs]; exact char_iff.2 ⟨b, hb, rfl⟩

theorem regName_iff {t : Text} : Lang regName t ↔ RegName t := by
  rw [regName, star_iff]
  constructor
  · rintro ⟨ss, h, rfl⟩
    refine ⟨ss, rfl, fun u hu => ?_⟩
    rcases alt_iff.1 (h u hu) with h' | h'
    · exact .inl (pct_iff.1 h')
    · obtain ⟨c, hc, rfl⟩ := char_iff.1 h'
      exact .inr ⟨c, rfl, hc⟩
  · rintro ⟨us, rfl, h⟩
    refine ⟨us, fun u hu => ?_, rfl⟩
    rcases h u hu with h' | ⟨c, rfl, hc⟩
    · exact alt_iff.2 (.inl (pct_iff.2 h'))
    · exact alt_iff.2 (.inr (char_iff.2 ⟨c, hc, rfl⟩))

theorem zoneId_iff {t : Text} : Lang zoneId t ↔ t ≠ [] ∧ Encoded isUnreserved t := by
  have unit_iff : ∀ u : Text, Lang (.alt (.char isUnreserved) pct) u ↔
      (Pct u ∨ ∃ c, u = [c] ∧ isUnreserved c = true) := by
    intro u
    rw [alt_iff, pct_iff, char_iff]
    constructor
    · rintro (⟨c, hc, rfl⟩ | h)
      exacts [.inr ⟨c, rfl, hc⟩, .inl h]
    · rintro (h | ⟨c, rfl, hc⟩)
      exacts [.inr h, .inl ⟨c, hc, rfl⟩]
  have ne : ∀ u : Text, (Pct u ∨ ∃ c, u = [c] ∧ isUnreserved c = true) → u ≠ [] := by
    rintro u (⟨a, b, rfl, _⟩ | ⟨c, rfl, _⟩) <;> simp
  rw [zoneId, plus, seq_iff]
  constructor
  · rintro ⟨s, u, hs, hu, rfl⟩
    obtain ⟨ss, h, rfl⟩ := star_iff.1 hu
    have h1 := (unit_iff s).1 hs
    refine ⟨by simp [ne s h1], s :: ss, by simp, ?_⟩
    intro x hx
    rcases List.mem_cons.1 hx with rfl | hx
    · exact h1
    · exact (unit_iff x).1 (h x hx)
  · rintro ⟨hne, us, rfl, h⟩
    cases us with
    | nil => simp at hne
    | cons s ss =>
      exact ⟨s, ss.flatten, (unit_iff s).2 (h s (by simp)), star_iff.2 ⟨ss, fun x hx =>
        (unit_iff x).2 (h x (by simp [hx])), rfl⟩, by simp⟩

/-- Parts each followed by a separator, then one more part or more. -/
theorem flatten_join (sep : Char) (gs rest : List Text) (h : rest ≠ []) :
    (gs.map fun g => g ++ [sep]).flatten ++ join sep rest = join sep (gs ++ rest) := by
  induction gs with
  | nil => rfl
  | cons g gs ih =>
    rw [List.cons_append, Verif.Text.join_cons _ _ _ (by simp [h]), ← ih]
    simp

theorem sepList {r : Regex} {sep : Char} (P : Text → Prop) (hP : ∀ s, Lang r s ↔ P s)
    (ss : List Text) :
    (∀ s ∈ ss, Lang (.seq r (lit sep)) s) ↔
      ∃ gs : List Text, (∀ g ∈ gs, P g) ∧ ss = gs.map fun g => g ++ [sep] := by
  constructor
  · intro h
    induction ss with
    | nil => exact ⟨[], by simp, rfl⟩
    | cons s ss ih =>
      obtain ⟨gs, h1, rfl⟩ := ih fun x hx => h x (by simp [hx])
      obtain ⟨g, u, hg, hu, rfl⟩ := seq_iff.1 (h s (by simp))
      rw [lit_iff.1 hu]
      exact ⟨g :: gs, by simpa using ⟨(hP g).1 hg, h1⟩, by simp⟩
  · rintro ⟨gs, h, rfl⟩ s hs
    obtain ⟨g, hg, rfl⟩ := List.mem_map.1 hs
    exact seq_iff.2 ⟨g, [sep], (hP g).2 (h g hg), lit_iff.2 rfl, rfl⟩

theorem ipv4_iff {t : Text} : Lang ipv4 t ↔ Dotted t := by
  rw [ipv4, seq_iff]
  constructor
  · rintro ⟨s, u, hs, hu, rfl⟩
    obtain ⟨ss, h1, h2, rfl⟩ := times_iff.1 hs
    obtain ⟨gs, h3, rfl⟩ := (sepList _ (fun _ => oneTo_char_iff) ss).1 h2
    refine ⟨gs ++ [u], by simpa using h1, ?_, ?_⟩
    · rw [← flatten_join _ _ _ (by simp)]; rfl
    · intro p hp
      rcases List.mem_append.1 hp with hp | hp
      · exact h3 p hp
      · rw [List.mem_singleton.1 hp]; exact oneTo_char_iff.1 hu
  · rintro ⟨ps, hl, rfl, h⟩
    match ps, hl with
    | [a, b, c, d], _ =>
      refine ⟨(([a, b, c] : List Text).map fun g => g ++ ['.']).flatten, d, ?_, ?_, ?_⟩
      · exact times_iff.2 ⟨_, rfl, (sepList _ (fun _ => oneTo_char_iff) _).2 ⟨[a, b, c],
          fun g hg => h g (by simp at hg ⊢; tauto), rfl⟩, rfl⟩
      · exact oneTo_char_iff.2 (h d (by simp))
      · exact (flatten_join '.' [a, b, c] [d] (by simp)).symm

theorem ls32_iff {t : Text} : Lang ls32 t ↔ ∃ p : Part, p.Ok ∧ p.size = 2 ∧ t = p.text := by
  rw [ls32, alt_iff, ipv4_iff]
  constructor
  · rintro (h | h)
    · obtain ⟨a, u, ha, hu, rfl⟩ := seq_iff.1 h
      obtain ⟨c, b, hc, hb, rfl⟩ := seq_iff.1 hu
      rw [lit_iff.1 hc]
      refine ⟨⟨[a, b], none⟩, ⟨?_, by simp⟩, rfl, by simp [Part.text, join]⟩
      intro g hg
      simp only [List.mem_cons, List.not_mem_nil, or_false] at hg
      rcases hg with rfl | rfl
      exacts [hex_iff.1 ha, hex_iff.1 hb]
    · exact ⟨⟨[], some t⟩, ⟨by simp, by simpa using h⟩, rfl, by simp [Part.text, join]⟩
  · rintro ⟨⟨gs, d⟩, ⟨h1, h2⟩, hs, rfl⟩
    cases d with
    | some d =>
      simp only [Part.size, Option.isSome_some, if_true, Nat.add_eq_right,
        List.length_eq_zero_iff] at hs
      subst hs
      exact .inr (by simpa [Part.text, join] using h2 d rfl)
    | none =>
      simp only [Part.size, Option.isSome_none, Bool.false_eq_true, if_false, Nat.add_zero] at hs
      match gs, hs with
      | [a, b], _ =>
        refine .inl (seq_iff.2 ⟨a, ':' :: b, hex_iff.2 (h1 a (by simp)), seq_iff.2 ⟨[':'], b,
          lit_iff.2 rfl, hex_iff.2 (h1 b (by simp)), rfl⟩, ?_⟩)
        simp [Part.text, join]

/-- Groups with a colon each, then two more: a part of that size. -/
theorem tail_iff {n : Nat} {t : Text} :
    Lang (.seq (times hexColon n) ls32) t ↔ ∃ p : Part, p.Ok ∧ p.size = n + 2 ∧ t = p.text := by
  rw [seq_iff]
  constructor
  · rintro ⟨s, u, hs, hu, rfl⟩
    obtain ⟨ss, h1, h2, rfl⟩ := times_iff.1 hs
    obtain ⟨gs, h3, rfl⟩ := (sepList _ (fun _ => hex_iff) ss).1 h2
    obtain ⟨⟨ps, d⟩, ⟨p1, p2⟩, hsz, rfl⟩ := ls32_iff.1 hu
    refine ⟨⟨gs ++ ps, d⟩, ⟨?_, p2⟩, ?_, ?_⟩
    · intro g hg
      rcases List.mem_append.1 hg with hg | hg
      exacts [h3 g hg, p1 g hg]
    · simp only [Part.size, List.length_append] at hsz ⊢
      simp only [List.length_map] at h1
      omega
    · simp only [Part.text]
      rw [List.append_assoc, flatten_join]
      intro h
      obtain ⟨rfl, hd⟩ := List.append_eq_nil_iff.1 h
      cases d with
      | none => simp [Part.size] at hsz
      | some d => simp at hd
  · rintro ⟨⟨gs, d⟩, ⟨p1, p2⟩, hsz, rfl⟩
    have key : ∀ (as bs : List Text), gs = as ++ bs → as.length = n →
        (⟨bs, d⟩ : Part).size = 2 →
        ∃ s u, Lang (times hexColon n) s ∧ Lang ls32 u ∧ (⟨gs, d⟩ : Part).text = s ++ u := by
      rintro as bs rfl hl hb
      refine ⟨(as.map fun g => g ++ [':']).flatten, (⟨bs, d⟩ : Part).text, ?_, ?_, ?_⟩
      · exact times_iff.2 ⟨_, by simpa using hl, (sepList _ (fun _ => hex_iff) _).2 ⟨as,
          fun g hg => p1 g (by simp [hg]), rfl⟩, rfl⟩
      · exact ls32_iff.2 ⟨⟨bs, d⟩, ⟨fun g hg => p1 g (by simp at hg ⊢; exact .inr hg), p2⟩, hb, rfl⟩
      · simp only [Part.text]
        rw [flatten_join, List.append_assoc]
        intro h
        obtain ⟨rfl, hd⟩ := List.append_eq_nil_iff.1 h
        cases d with
        | none => simp [Part.size] at hb
        | some d => simp at hd
    refine key (gs.take n) (gs.drop n) (List.take_append_drop n gs).symm ?_ ?_
    · simp only [Part.size] at hsz
      rw [List.length_take]
      split at hsz <;> omega
    · simp only [Part.size] at hsz ⊢
      rw [List.length_drop]
      split at hsz <;> rename_i hd <;> simp only [hd, if_true, Bool.false_eq_true, if_false] <;> omega

/-- Up to `n + 1` groups and the two colons. -/
theorem elided_iff {n : Nat} {t : Text} :
    Lang (elided n) t ↔ ∃ l : List Text, (∀ g ∈ l, Group g) ∧ l.length ≤ n + 1 ∧
      t = join ':' l ++ "::".toList := by
  rw [elided, seq_iff]
  constructor
  · rintro ⟨s, u, hs, hu, rfl⟩
    rw [lits_iff.1 hu]
    rcases opt_iff.1 hs with hs | rfl
    · obtain ⟨a, b, ha, hb, rfl⟩ := seq_iff.1 hs
      obtain ⟨ss, h1, h2, rfl⟩ := upTo_iff.1 ha
      obtain ⟨gs, h3, rfl⟩ := (sepList _ (fun _ => hex_iff) ss).1 h2
      refine ⟨gs ++ [b], ?_, by simpa using h1, ?_⟩
      · intro g hg
        rcases List.mem_append.1 hg with hg | hg
        · exact h3 g hg
        · rw [List.mem_singleton.1 hg]; exact hex_iff.1 hb
      · rw [← flatten_join _ _ _ (by simp)]; rfl
    · exact ⟨[], by simp, by simp, rfl⟩
  · rintro ⟨l, h1, h2, rfl⟩
    refine ⟨join ':' l, _, ?_, lits_iff.2 rfl, rfl⟩
    rw [opt_iff]
    rcases List.eq_nil_or_concat l with rfl | ⟨gs, b, rfl⟩
    · exact .inr rfl
    · rw [List.concat_eq_append] at *
      refine .inl (seq_iff.2 ⟨_, b, upTo_iff.2 ⟨_, ?_, (sepList _ (fun _ => hex_iff) _).2 ⟨gs,
        fun g hg => h1 g (by simp [hg]), rfl⟩, rfl⟩, hex_iff.2 (h1 b (by simp)), ?_⟩)
      · simpa using h2
      · rw [← flatten_join _ _ _ (by simp)]; rfl

theorem elided_zero {t : Text} : Lang (.seq (opt hex) (lits "::".toList)) t ↔ Lang (elided 0) t := by
  rw [elided, seq_iff, seq_iff]
  have : ∀ s, Lang (opt hex) s ↔ Lang (opt (.seq (upTo hexColon 0) hex)) s := by
    intro s
    rw [opt_iff, opt_iff, seq_iff]
    simp only [upTo, empty_iff]
    constructor
    · rintro (h | h)
      exacts [.inl ⟨[], s, rfl, h, rfl⟩, .inr h]
    · rintro (⟨a, b, rfl, h, rfl⟩ | h)
      exacts [.inl h, .inr h]
  simp only [this]

theorem elided_one {t : Text} :
    Lang (.seq (opt (.seq (opt hexColon) hex)) (lits "::".toList)) t ↔ Lang (elided 1) t := by
  rw [elided, seq_iff, seq_iff]
  have h1 : ∀ s, Lang (opt hexColon) s ↔ Lang (upTo hexColon 1) s := by
    intro s
    rw [upTo, upTo, opt_iff, opt_iff, seq_iff]
    simp only [empty_iff]
    constructor
    · rintro (h | h)
      exacts [.inl ⟨s, [], h, rfl, by simp⟩, .inr h]
    · rintro (⟨a, b, h, rfl, rfl⟩ | h)
      exacts [.inl (by simpa using h), .inr h]
  have : ∀ s, Lang (opt (.seq (opt hexColon) hex)) s ↔
      Lang (opt (.seq (upTo hexColon 1) hex)) s := by
    intro s
    rw [opt_iff, opt_iff, seq_iff, seq_iff]
    simp only [h1]
  simp only [this]

theorem hexColon_one {t : Text} :
    Lang (.seq hexColon ls32) t ↔ Lang (.seq (times hexColon 1) ls32) t := by
  rw [seq_iff, seq_iff]
  have : ∀ s, Lang hexColon s ↔ Lang (times hexColon 1) s := by
    intro s
    rw [times, times, seq_iff]
    simp only [empty_iff]
    constructor
    · intro h; exact ⟨s, [], h, rfl, by simp⟩
    · rintro ⟨a, b, h, rfl, rfl⟩; simpa using h
  simp only [this]

theorem ls32_zero {t : Text} : Lang ls32 t ↔ Lang (.seq (times hexColon 0) ls32) t := by
  rw [seq_iff, times]
  simp only [empty_iff]
  constructor
  · intro h; exact ⟨[], t, rfl, h, rfl⟩
  · rintro ⟨a, b, rfl, h, rfl⟩; exact h

/-- An elision, then a part of a given size. -/
theorem elided_tail {r : Regex} {n m : Nat} {t : Text}
    (hr : ∀ s, Lang r s ↔ ∃ p : Part, p.Ok ∧ p.size = m ∧ s = p.text) :
    Lang (.seq (elided n) r) t ↔ ∃ (l : List Text) (p : Part), (∀ g ∈ l, Group g) ∧ p.Ok ∧
      l.length ≤ n + 1 ∧ p.size = m ∧ t = join ':' l ++ "::".toList ++ p.text := by
  rw [seq_iff]
  constructor
  · rintro ⟨s, u, hs, hu, rfl⟩
    obtain ⟨l, h1, h2, rfl⟩ := elided_iff.1 hs
    obtain ⟨p, p1, p2, rfl⟩ := (hr u).1 hu
    exact ⟨l, p, h1, p1, h2, p2, rfl⟩
  · rintro ⟨l, p, h1, p1, h2, p2, rfl⟩
    exact ⟨_, _, elided_iff.2 ⟨l, h1, h2, rfl⟩, (hr _).2 ⟨p, p1, p2, rfl⟩, rfl⟩

theorem hex_part {t : Text} : Lang hex t ↔ ∃ p : Part, p.Ok ∧ p.size = 1 ∧ t = p.text := by
  rw [hex_iff]
  constructor
  · intro h
    exact ⟨⟨[t], none⟩, ⟨by simpa using h, by simp⟩, rfl, by simp [Part.text, join]⟩
  · rintro ⟨⟨gs, d⟩, ⟨h1, h2⟩, hs, rfl⟩
    cases d with
    | some d => simp [Part.size] at hs
    | none =>
      simp only [Part.size, Option.isSome_none, Bool.false_eq_true, if_false, Nat.add_zero] at hs
      match gs, hs with
      | [a], _ => simpa [Part.text, join] using h1 a (by simp)

theorem empty_part {t : Text} : t = [] ↔ ∃ p : Part, p.Ok ∧ p.size = 0 ∧ t = p.text := by
  constructor
  · rintro rfl
    exact ⟨⟨[], none⟩, ⟨by simp, by simp⟩, rfl, rfl⟩
  · rintro ⟨⟨gs, d⟩, _, hs, rfl⟩
    cases d with
    | some d => simp [Part.size] at hs
    | none =>
      simp only [Part.size, Option.isSome_none, Bool.false_eq_true, if_false, Nat.add_zero] at hs
      rw [List.length_eq_zero_iff.1 hs]
      rfl

theorem elided_only {n : Nat} {t : Text} : Lang (elided n) t ↔ Lang (.seq (elided n) .empty) t := by
  rw [seq_iff]
  simp only [empty_iff]
  constructor
  · intro h; exact ⟨t, [], h, rfl, by simp⟩
  · rintro ⟨a, b, h, rfl, rfl⟩; simpa using h

/-- The nine expressions for addresses describe exactly the addresses of the specification. -/
theorem ipv6_iff {t : Text} : Lang ipv6 t ↔ IPv6 t := by
  have h1 : Lang (.seq (lits "::".toList) (.seq (times hexColon 5) ls32)) t ↔
      ∃ p : Part, p.Ok ∧ p.size = 7 ∧ t = "::".toList ++ p.text := by
    rw [seq_iff]
    constructor
    · rintro ⟨s, u, hs, hu, rfl⟩
      obtain ⟨p, p1, p2, rfl⟩ := tail_iff.1 hu
      exact ⟨p, p1, p2, by rw [lits_iff.1 hs]⟩
    · rintro ⟨p, p1, p2, rfl⟩
      exact ⟨_, _, lits_iff.2 rfl, tail_iff.2 ⟨p, p1, p2, rfl⟩, rfl⟩
  have hs : ∀ (a b r : Regex), (∀ s, Lang a s ↔ Lang b s) → ∀ s, Lang (.seq a r) s ↔ Lang (.seq b r) s := by
    intro a b r h s
    rw [seq_iff, seq_iff]
    simp only [h]
  unfold ipv6
  rw [alt_iff, alt_iff, alt_iff, alt_iff, alt_iff, alt_iff, alt_iff, alt_iff, tail_iff, h1,
    hs _ _ _ (fun _ => elided_zero), hs _ _ _ (fun _ => elided_one),
    elided_tail (fun _ => tail_iff), elided_tail (fun _ => tail_iff), elided_tail (fun _ => tail_iff),
    elided_tail (fun _ => hexColon_one.trans tail_iff), elided_tail (fun _ => ls32_zero.trans tail_iff),
    elided_tail (fun _ => hex_part), elided_only,
    elided_tail (r := .empty) (fun _ => empty_iff.trans empty_part)]
  constructor
  · rintro (h | ⟨p, p1, p2, rfl⟩ | h | h | h | h | h | h | h)
    · exact .inl h
    · exact .inr ⟨[], p, by simp, p1, by simp [p2], rfl⟩
    all_goals
      obtain ⟨l, p, h1, h2, h3, h4, h5⟩ := h
      exact .inr ⟨l, p, h1, h2, by omega, h5⟩
  · rintro (h | ⟨l, p, h1, h2, h3, h4⟩)
    · exact .inl h
    · right
      have hcase : p.size = 7 ∨ p.size = 6 ∨ p.size = 5 ∨ p.size = 4 ∨ p.size = 3 ∨ p.size = 2 ∨
          p.size = 1 ∨ p.size = 0 := by omega
      rcases hcase with h | h | h | h | h | h | h | h
      · left
        have : l = [] := List.length_eq_zero_iff.1 (by omega)
        subst this
        exact ⟨p, h2, h, h4⟩
      · exact .inr (.inl ⟨l, p, h1, h2, by omega, h, h4⟩)
      · exact .inr (.inr (.inl ⟨l, p, h1, h2, by omega, h, h4⟩))
      · exact .inr (.inr (.inr (.inl ⟨l, p, h1, h2, by omega, h, h4⟩)))
      · exact .inr (.inr (.inr (.inr (.inl ⟨l, p, h1, h2, by omega, h, h4⟩))))
      · exact .inr (.inr (.inr (.inr (.inr (.inl ⟨l, p, h1, h2, by omega, h, h4⟩)))))
      · exact .inr (.inr (.inr (.inr (.inr (.inr (.inl ⟨l, p, h1, h2, by omega, h, h4⟩))))))
      · exact .inr (.inr (.inr (.inr (.inr (.inr (.inr ⟨l, p, h1, h2, by omega, h, h4⟩))))))

theorem ipv6Zone_iff {t : Text} : Lang ipv6Zone t ↔ IPv6Zone t := by
  rw [ipv6Zone, seq_iff]
  constructor
  · rintro ⟨a, z, ha, hz, rfl⟩
    refine ⟨a, z, rfl, ipv6_iff.1 ha, ?_⟩
    rcases opt_iff.1 hz with hz | hz
    · obtain ⟨s, i, hs, hi, rfl⟩ := seq_iff.1 hz
      obtain ⟨i1, i2⟩ := zoneId_iff.1 hi
      refine .inr ⟨i, i1, i2, ?_⟩
      rcases alt_iff.1 hs with hs | hs
      · exact .inl (by rw [lits_iff.1 hs])
      · exact .inr (by rw [lit_iff.1 hs]; rfl)
    · exact .inl hz
  · rintro ⟨a, z, rfl, ha, hz⟩
    refine ⟨a, z, ipv6_iff.2 ha, opt_iff.2 ?_, rfl⟩
    rcases hz with rfl | ⟨i, i1, i2, rfl | rfl⟩
    · exact .inr rfl
    · exact .inl (seq_iff.2 ⟨_, i, alt_iff.2 (.inl (lits_iff.2 rfl)), zoneId_iff.2 ⟨i1, i2⟩, rfl⟩)
    · exact .inl (seq_iff.2 ⟨['%'], i, alt_iff.2 (.inr (lit_iff.2 rfl)), zoneId_iff.2 ⟨i1, i2⟩, rfl⟩)

theorem future_iff {t : Text} : Lang ipvFuture t ↔ Future t := by
  rw [ipvFuture, seq_iff]
  constructor
  · rintro ⟨s, u, hs, hu, rfl⟩
    obtain ⟨v, w, hv, hw, rfl⟩ := seq_iff.1 hu
    obtain ⟨d, a, hd, ha, rfl⟩ := seq_iff.1 hw
    rw [lit_iff.1 hs, lit_iff.1 hd]
    obtain ⟨v1, v2⟩ := plus_char_iff.1 hv
    obtain ⟨a1, a2⟩ := plus_char_iff.1 ha
    exact ⟨v, a, by simp, v1, a1, v2, a2⟩
  · rintro ⟨v, a, rfl, v1, a1, v2, a2⟩
    exact ⟨['v'], v ++ '.' :: a, lit_iff.2 rfl, seq_iff.2 ⟨v, '.' :: a, plus_char_iff.2 ⟨v1, v2⟩,
      seq_iff.2 ⟨['.'], a, lit_iff.2 rfl, plus_char_iff.2 ⟨a1, a2⟩, rfl⟩, rfl⟩, by simp⟩

theorem bracket_iff {r : Regex} {t : Text} :
    Lang (.seq (lit '[') (.seq r (lit ']'))) t ↔ ∃ a, t = '[' :: a ++ [']'] ∧ Lang r a := by
  rw [seq_iff]
  constructor
  · rintro ⟨s, u, hs, hu, rfl⟩
    obtain ⟨a, b, ha, hb, rfl⟩ := seq_iff.1 hu
    rw [lit_iff.1 hs, lit_iff.1 hb]
    exact ⟨a, by simp, ha⟩
  · rintro ⟨a, rfl, ha⟩
    exact ⟨['['], a ++ [']'], lit_iff.2 rfl, seq_iff.2 ⟨a, [']'], ha, lit_iff.2 rfl, rfl⟩, by simp⟩

theorem host_iff {t : Text} : Lang host t ↔ Valid t := by
  rw [host, alt_iff, alt_iff, regName_iff, ipv4_iff, ipLiteral, bracket_iff]
  simp only [alt_iff, ipv6Zone_iff, future_iff]
  exact Iff.rfl

theorem lineMatch_iff {r : Regex} {t : Text} :
    lineMatch r t = true ↔ Lang r t ∨ ∃ s, t = s ++ ['\n'] ∧ Lang r s := by
  unfold lineMatch
  rw [Bool.or_eq_true, Bool.and_eq_true, fullmatch_iff, fullmatch_iff, decide_eq_true_iff]
  refine or_congr Iff.rfl ?_
  constructor
  · rintro ⟨h1, h2⟩
    have hne : t ≠ [] := by rintro rfl; simp at h1
    refine ⟨t.dropLast, ?_, h2⟩
    have h3 := List.dropLast_concat_getLast hne
    rw [List.getLast?_eq_some_getLast hne] at h1
    rw [Option.some.inj h1] at h3
    exact h3.symm
  · rintro ⟨s, rfl, h⟩
    simpa using h

/-- **C71**: a URI is accepted exactly when its host is valid, is an IPv6 address without its brackets,
or is valid but for a line break at its end. -/
theorem C71_accepted_iff (t : Text) :
    accepted t = true ↔ Valid t ∨ IPv6Zone t ∨ ∃ s, t = s ++ ['\n'] ∧ Valid s := by
  unfold accepted hostMatcher ipv6Matcher
  rw [Bool.or_eq_true, lineMatch_iff, lineMatch_iff, host_iff, bracket_iff]
  simp only [bracket_iff, host_iff, ipv6Zone_iff]
  have h1 : (∃ a, ['['] ++ t ++ [']'] = '[' :: a ++ [']'] ∧ IPv6Zone a) ↔ IPv6Zone t := by
    constructor
    · rintro ⟨a, h, ha⟩
      have : t = a := by simpa using h
      exact this ▸ ha
    · intro h; exact ⟨t, rfl, h⟩
  have h2 : ¬ ∃ s, ['['] ++ t ++ [']'] = s ++ ['\n'] ∧ ∃ a, s = '[' :: a ++ [']'] ∧ IPv6Zone a := by
    rintro ⟨s, h, _⟩
    have := (List.append_inj' h rfl).2
    simp at this
  rw [h1]
  constructor
  · rintro ((h | h) | h | h)
    exacts [.inl h, .inr (.inr h), .inr (.inl h), absurd h h2]
  · rintro (h | h | h)
    exacts [.inl (.inl h), .inr (.inl h), .inl (.inr h)]

/-- **C71** is false: a line break at the end of the host is accepted. -/
theorem C71_line_break_fails :
    accepted "example.com\n".toList = true ∧ ¬ Valid "example.com\n".toList := by
  refine ⟨by decide +kernel, ?_⟩
  rw [← host_iff, ← fullmatch_iff]
  decide +kernel

/-- No host that is accepted has a character that ends the authority of a URI, separates the user
information, or is white space inside the host. -/
def Delimiter (c : Char) : Prop := c = '/' ∨ c = '?' ∨ c = '#' ∨ c = '@' ∨ c = ' ' ∨ c = '\r'

theorem class_delimiter (c : Char) (h : Delimiter c) :
    isHex c = false ∧ isUnreserved c = false ∧ isSubDelimiter c = false := by
  rcases h with rfl | rfl | rfl | rfl | rfl | rfl <;> decide

theorem encoded_delimiter (p : Char → Bool) (hp : ∀ c, Delimiter c → p c = false) (t : Text)
    (h : Encoded p t) (c : Char) (hc : c ∈ t) : ¬ Delimiter c := by
  obtain ⟨us, rfl, hu⟩ := h
  obtain ⟨u, hu1, hcu⟩ := List.mem_flatten.1 hc
  intro hd
  obtain ⟨d1, _, _⟩ := class_delimiter c hd
  rcases hu u hu1 with ⟨a, b, rfl, ha, hb⟩ | ⟨x, rfl, hx⟩
  · simp only [List.mem_cons, List.not_mem_nil, or_false] at hcu
    rcases hcu with rfl | rfl | rfl
    · revert hd; unfold Delimiter; decide
    · unfold Hex at ha; rw [d1] at ha; cases ha
    · unfold Hex at hb; rw [d1] at hb; cases hb
  · rw [List.mem_singleton.1 hcu] at hd
    rw [hp x hd] at hx; cases hx

theorem mem_join (sep c : Char) (ps : List Text) (h : c ∈ join sep ps) : c = sep ∨ ∃ p ∈ ps, c ∈ p := by
  induction ps with
  | nil => simp [join] at h
  | cons p ps ih =>
    cases ps with
    | nil => exact .inr ⟨p, by simp, by simpa [join] using h⟩
    | cons q ps =>
      rw [Verif.Text.join_cons _ _ _ (by simp)] at h
      simp only [List.mem_append, List.mem_cons] at h
      rcases h with h | rfl | h
      · exact .inr ⟨p, by simp, h⟩
      · exact .inl rfl
      · rcases ih h with h | ⟨x, hx, hc⟩
        · exact .inl h
        · exact .inr ⟨x, by simp at hx ⊢; tauto, hc⟩

theorem dotted_delimiter (t : Text) (h : Dotted t) (c : Char) (hc : c ∈ t) : ¬ Delimiter c := by
  obtain ⟨ps, _, rfl, hp⟩ := h
  intro hd
  rcases mem_join _ _ _ hc with rfl | ⟨p, hp1, hcp⟩
  · revert hd; unfold Delimiter; decide
  · have := (hp p hp1).2.2 c hcp
    have h1 := (class_delimiter c hd).1
    simp only [isHex, Bool.or_eq_false_iff] at h1
    rw [h1.1.1] at this; cases this

theorem part_delimiter (p : Part) (h : p.Ok) (c : Char) (hc : c ∈ p.text) : ¬ Delimiter c := by
  intro hd
  rcases mem_join _ _ _ hc with rfl | ⟨g, hg, hcg⟩
  · revert hd; unfold Delimiter; decide
  · rcases List.mem_append.1 hg with hg | hg
    · have := (h.1 g hg).2.2 c hcg
      unfold Hex at this
      rw [(class_delimiter c hd).1] at this; cases this
    · cases hdot : p.dotted with
      | none => rw [hdot] at hg; simp at hg
      | some d =>
        rw [hdot] at hg
        simp at hg
        subst hg
        exact dotted_delimiter g (h.2 g hdot) c hcg hd

theorem ipv6_delimiter (t : Text) (h : IPv6Zone t) (c : Char) (hc : c ∈ t) : ¬ Delimiter c := by
  obtain ⟨a, z, rfl, ha, hz⟩ := h
  intro hd
  rcases List.mem_append.1 hc with hc | hc
  · rcases ha with ⟨p, hp, _, rfl⟩ | ⟨l, p, hl, hp, _, rfl⟩
    · exact part_delimiter p hp c hc hd
    · simp only [List.mem_append] at hc
      rcases hc with (hc | hc) | hc
      · rcases mem_join _ _ _ hc with rfl | ⟨g, hg, hcg⟩
        · revert hd; unfold Delimiter; decide
        · have := (hl g hg).2.2 c hcg
          unfold Hex at this
          rw [(class_delimiter c hd).1] at this; cases this
      · have : c = ':' := by simpa using hc
        subst this
        revert hd; unfold Delimiter; decide
      · exact part_delimiter p hp c hc hd
  · rcases hz with rfl | ⟨i, _, hi, hz⟩
    · cases hc
    · have key : c ∈ i → False := fun h =>
        encoded_delimiter _ (fun c h => (class_delimiter c h).2.1) i hi c h hd
      rcases hz with rfl | rfl
      · simp only [List.mem_append] at hc
        rcases hc with hc | hc
        · have : c = '%' ∨ c = '2' ∨ c = '5' := by simpa using hc
          rcases this with rfl | rfl | rfl <;> · revert hd; unfold Delimiter; decide
        · exact key hc
      · rcases List.mem_cons.1 hc with rfl | hc
        · revert hd; unfold Delimiter; decide
        · exact key hc

theorem valid_delimiter (t : Text) (h : Valid t) (c : Char) (hc : c ∈ t) : ¬ Delimiter c := by
  rcases h with h | h | ⟨a, rfl, h⟩
  · exact encoded_delimiter _ (fun c h => by
      obtain ⟨_, h2, h3⟩ := class_delimiter c h; simp [h2, h3]) t h c hc
  · exact dotted_delimiter t h c hc
  · intro hd
    have hmem : c = '[' ∨ c ∈ a ∨ c = ']' := by
      simp only [List.cons_append, List.mem_cons, List.mem_append, List.not_mem_nil, or_false] at hc
      exact hc
    rcases hmem with rfl | hc | rfl
    · revert hd; unfold Delimiter; decide
    · rcases h with h | ⟨v, b, rfl, _, _, hv, hb⟩
      · exact ipv6_delimiter a h c hc hd
      · simp only [List.cons_append, List.mem_cons, List.mem_append] at hc
        obtain ⟨d1, d2, d3⟩ := class_delimiter c hd
        rcases hc with rfl | hc | rfl | hc
        · revert hd; unfold Delimiter; decide
        · have := hv c hc; unfold Hex at this; rw [d1] at this; cases this
        · revert hd; unfold Delimiter; decide
        · have := hb c hc
          rw [d2, d3] at this
          have hcol : c = ':' := by simpa using this
          subst hcol
          revert hd; unfold Delimiter; decide
    · revert hd; unfold Delimiter; decide

/-- **C71**: a host that is accepted cannot lead out of the host part of the URI: it has none of the
characters that start a path, query, fragment or the part after user information, nor blanks or
carriage returns. -/
theorem C71_no_delimiters (t : Text) (h : accepted t = true) (c : Char) (hc : c ∈ t) :
    ¬ Delimiter c := by
  rcases (C71_accepted_iff t).1 h with h | h | ⟨s, rfl, hs⟩
  · exact valid_delimiter t h c hc
  · exact ipv6_delimiter t h c hc
  · rcases List.mem_append.1 hc with hc | hc
    · exact valid_delimiter s hs c hc
    · rw [List.mem_singleton.1 hc]; unfold Delimiter; decide

/-- **C71**: the type reported for a host is IPv6 exactly for addresses of that kind without brackets,
IPv4 exactly for four numbers (a line break may follow), and no accepted host has an unknown type. -/
theorem C71_host_type (t : Text) :
    (hostType t = .ipv6 ↔ IPv6Zone t) ∧
      (hostType t = .ipv4 ↔ ¬ IPv6Zone t ∧ (Dotted t ∨ ∃ s, t = s ++ ['\n'] ∧ Dotted s)) ∧
      (accepted t = true ↔ hostType t ≠ .unknown) := by
  have h4' : ipv4Matcher t = true ↔ (Dotted t ∨ ∃ s, t = s ++ ['\n'] ∧ Dotted s) := by
    unfold ipv4Matcher
    rw [lineMatch_iff]
    simp only [ipv4_iff]
  have h6 : ipv6Matcher (['['] ++ t ++ [']']) = true ↔ IPv6Zone t := by
    unfold ipv6Matcher
    rw [lineMatch_iff, bracket_iff]
    simp only [bracket_iff, ipv6Zone_iff]
    constructor
    · rintro (⟨a, h, ha⟩ | ⟨s, h, _⟩)
      · have : t = a := by simpa using h
        exact this ▸ ha
      · have := (List.append_inj' h rfl).2
        simp at this
    · intro h; exact .inl ⟨t, rfl, h⟩
  have h4 : ipv4Matcher t = true → hostMatcher t = true := by
    unfold ipv4Matcher hostMatcher
    rw [lineMatch_iff, lineMatch_iff]
    rintro (h | ⟨s, rfl, h⟩)
    · exact .inl (alt_iff.2 (.inr (alt_iff.2 (.inl h))))
    · exact .inr ⟨s, rfl, alt_iff.2 (.inr (alt_iff.2 (.inl h)))⟩
  unfold hostType accepted
  rw [← h6, ← h4']
  cases ha : ipv6Matcher (['['] ++ t ++ [']']) <;> cases hb : ipv4Matcher t <;>
    cases hc : hostMatcher t <;> simp_all

theorem ascii_class (p : Char → Bool) (l : Text) (hp : ∀ c, p c = true → c.toNat < 128)
    (h : ∀ n, n < 128 → (p (Char.ofNat n) = true ↔ Char.ofNat n ∈ l)) (hl : ∀ c ∈ l, c.toNat < 128)
    (c : Char) : p c = true ↔ c ∈ l := by
  constructor
  · intro hc
    have := (h c.toNat (hp c hc)).1 (by rw [Char.ofNat_toNat]; exact hc)
    rwa [Char.ofNat_toNat] at this
  · intro hc
    have := (h c.toNat (hl c hc)).2 (by rw [Char.ofNat_toNat]; exact hc)
    rwa [Char.ofNat_toNat] at this

theorem between_ascii (a b c : Char) (hb : b.toNat < 128) (h : between a b c = true) :
    c.toNat < 128 := by
  simp only [between, Bool.and_eq_true, decide_eq_true_eq] at h
  omega

/-- **C71**: the character classes are those of RFC 3986, spelled out. -/
theorem C71_classes (c : Char) :
    (isDigit c = true ↔ c ∈ "0123456789".toList) ∧
    (isHex c = true ↔ c ∈ "0123456789ABCDEFabcdef".toList) ∧
    (isUnreserved c = true ↔ c ∈
      "ABCDEFGHIJKLMNOPQRSTUVWXYZabcdefghijklmnopqrstuvwxyz0123456789-._~".toList) ∧
    (isSubDelimiter c = true ↔ c ∈ "!$&'()*+,;=".toList) := by
  refine ⟨ascii_class _ _ ?_ (by decide +kernel) (by decide +kernel) c,
    ascii_class _ _ ?_ (by decide +kernel) (by decide +kernel) c,
    ascii_class _ _ ?_ (by decide +kernel) (by decide +kernel) c, ?_⟩
  · intro c h; exact between_ascii _ _ _ (by decide) h
  · intro c h
    simp only [isHex, isDigit, Bool.or_eq_true] at h
    rcases h with (h | h) | h <;> exact between_ascii _ _ _ (by decide) h
  · intro c h
    simp only [isUnreserved, isDigit, Bool.or_eq_true, decide_eq_true_eq] at h
    rcases h with (((((h | h) | h) | rfl) | rfl) | rfl) | rfl
    · exact between_ascii _ _ _ (by decide) h
    · exact between_ascii _ _ _ (by decide) h
    · exact between_ascii _ _ _ (by decide) h
    all_goals decide
  · unfold isSubDelimiter; exact List.contains_iff_mem

/-! ## The hypotheses are met -/

example : accepted "example.com".toList = true := by decide +kernel
example : accepted "fe80::1%25eth0".toList = true := by decide +kernel
example : accepted "[::ffff:1.2.3.4]".toList = true := by decide +kernel
example : accepted "a/b".toList = false := by decide +kernel
example : accepted "1:2".toList = false := by decide +kernel
example : hostType "2001:db8::1".toList = .ipv6 := by decide +kernel
example : hostType "127.0.0.1".toList = .ipv4 := by decide +kernel
example : hostType "[::1]".toList = .domain := by decide +kernel

end Verif.Uri.Host
