import Verif.Common
import Verif.Text
import Mathlib.Tactic.Common
import Mathlib.Tactic.IntervalCases
import Mathlib.Data.List.Forall2
import Mathlib.Data.List.Induction

/-!
# Loopback addresses (part of C53)

Models what `ipaddress.ip_address(text).is_loopback` of the Python standard library tells.  The lines
cited are those of ipaddress.py in Python 3.11.10; nothing modelled here changed in 3.12, the oldest
version the code supports.  Later versions also take IPv6 addresses that map an IPv4 loopback address for
loopback addresses.
-/

set_option autoImplicit false

namespace Verif.Identity.Ip

open Verif.Text

abbrev Text := List Char

/-! ## Model -/

def isDigit (c : Char) : Bool := '0'.toNat ≤ c.toNat && c.toNat ≤ '9'.toNat

/-- `_HEX_DIGITS` (ipaddress.py:1624). -/
def isHex (c : Char) : Bool :=
  isDigit c || ('A'.toNat ≤ c.toNat && c.toNat ≤ 'F'.toNat) || ('a'.toNat ≤ c.toNat && c.toNat ≤ 'f'.toNat)

/-- What a digit counts in Python's `int`. -/
def digitValue (c : Char) : Nat :=
  if c.toNat ≤ '9'.toNat then c.toNat - '0'.toNat
  else if c.toNat ≤ 'F'.toNat then c.toNat - 'A'.toNat + 10
  else c.toNat - 'a'.toNat + 10

/-- `int(text, base)` for digits of the base. -/
def intOf (base : Nat) (t : Text) : Nat := t.foldl (fun n c => n * base + digitValue c) 0

/-- `_parse_octet` (ipaddress.py:1214-1247). -/
def parseOctet (t : Text) : Option Nat :=
  if t = [] then none
  else if !t.all isDigit then none
  else if t.length > 3 then none
  else if t ≠ ['0'] ∧ t.head? = some '0' then none
  else if intOf 10 t > 255 then none
  else some (intOf 10 t)

/-- `_BaseV4._ip_int_from_string` (ipaddress.py:1188-1211): the four octets. -/
def octets (t : Text) : Option (List Nat) :=
  let os := split '.' t
  if os.length ≠ 4 then none else os.mapM parseOctet

/-- `IPv4Address(text)` (ipaddress.py:1316-1319). -/
def parse4 (t : Text) : Option (List Nat) := if '/' ∈ t then none else octets t

/-- `int.from_bytes(octets, 'big')`. -/
def number (base : Nat) (ns : List Nat) : Nat := ns.foldl (fun n d => n * base + d) 0

def hexDigit (n : Nat) : Char := if n < 10 then Char.ofNat (48 + n) else Char.ofNat (87 + n)

/-- `'%x' % n` for a number below 65536. -/
def hexText (n : Nat) : Text :=
  (if n < 4096 then [] else [hexDigit (n / 4096 % 16)]) ++
  (if n < 256 then [] else [hexDigit (n / 256 % 16)]) ++
  (if n < 16 then [] else [hexDigit (n / 16 % 16)]) ++ [hexDigit (n % 16)]

/-- `_parse_hextet` (ipaddress.py:1756-1779). -/
def parseHextet (t : Text) : Option Nat :=
  if !t.all isHex then none
  else if t.length > 4 then none
  else if t = [] then none
  else some (intOf 16 t)

/-- The suffix written like an IPv4 address (ipaddress.py:1677-1684). -/
def expand (parts : List Text) : Option (List Text) :=
  match parts.getLast? with
  | none => some parts
  | some last =>
    if '.' ∈ last then
      match parse4 last with
      | none => none
      | some ns =>
        let n := number 256 ns
        some (parts.dropLast ++ [hexText (n / 65536 % 65536), hexText (n % 65536)])
    else some parts

/-- The search for `::` (ipaddress.py:1695-1702). -/
def findSkip : List Text → Nat → Option Nat → Option (Option Nat)
  | [], _, k => some k
  | p :: ps, i, k =>
    if p = [] then
      match k with
      | some _ => none
      | none => findSkip ps (i + 1) (some i)
    else findSkip ps (i + 1) k

/-- The numbers of the parts above and below `::` (ipaddress.py:1706-1739): how many of them come from
the beginning, and how many from the end. -/
def layout (parts : List Text) (skip : Option Nat) : Option (Nat × Nat) :=
  match skip with
  | some i =>
    let hi := i
    let lo := parts.length - i - 1
    let hi' := if parts.head? = some [] then hi - 1 else hi
    let lo' := if parts.getLast? = some [] then lo - 1 else lo
    if parts.head? = some [] ∧ hi' ≠ 0 then none
    else if parts.getLast? = some [] ∧ lo' ≠ 0 then none
    else if 8 < hi' + lo' + 1 then none
    else some (hi', lo')
  | none =>
    if parts.length ≠ 8 then none
    else if parts.head? = some [] then none
    else if parts.getLast? = some [] then none
    else some (parts.length, 0)

/-- The number of the parts (ipaddress.py:1695-1751).  Shifting by 16 and adding bits below is multiplying
by 65536 and adding. -/
def fromParts (parts : List Text) : Option Nat :=
  match findSkip parts.tail.dropLast 1 none with
  | none => none
  | some skip =>
    match layout parts skip with
    | none => none
    | some (hi, lo) =>
      match (parts.take hi).mapM parseHextet, (parts.drop (parts.length - lo)).mapM parseHextet with
      | some hs, some ls =>
        let n := number 65536 hs
        let n := n * 65536 ^ (if skip.isSome then 8 - (hi + lo) else 0)
        some (ls.foldl (fun n d => n * 65536 + d) n)
      | _, _ => none

/-- `_BaseV6._ip_int_from_string` (ipaddress.py:1652-1753). -/
def parse6 (t : Text) : Option Nat :=
  if t = [] then none
  else if (split ':' t).length < 3 then none
  else
    match expand (split ':' t) with
    | none => none
    | some parts => if parts.length > 9 then none else fromParts parts

/-- `_split_scope_id` (ipaddress.py:1889-1906): the address without its zone. -/
def splitScope (t : Text) : Option Text :=
  match cut '%' t with
  | (addr, none) => some addr
  | (addr, some zone) => if zone = [] ∨ '%' ∈ zone then none else some addr

/-- `ip_address(text).is_loopback`, and `False` for `ValueError` (ipaddress.py:28-54, 1400-1407,
2098-2106; smithy_aws_core/identity/container.py:96-100). -/
def isLoopback (t : Text) : Bool :=
  match parse4 t with
  | some ns => ns.head? = some 127
  | none =>
    if '/' ∈ t then false
    else
      match splitScope t with
      | none => false
      | some addr => parse6 addr = some 1

/-! ## Specification -/

/-- The decimal text of a number. -/
def decimal (n : Nat) : Text := Nat.toDigits 10 n

/-- The text of an IPv4 address: four numbers below 256, in decimal, with dots between. -/
def V4 (t : Text) (a b c d : Nat) : Prop :=
  (a < 256 ∧ b < 256 ∧ c < 256 ∧ d < 256) ∧
    t = decimal a ++ '.' :: decimal b ++ '.' :: decimal c ++ '.' :: decimal d

/-- A hexadecimal digit and its value. -/
def HexDigit (c : Char) (n : Nat) : Prop :=
  "0123456789abcdef".toList[n]? = some c ∨ "0123456789ABCDEF".toList[n]? = some c

/-- The value of hexadecimal digits. -/
inductive HexValue : Text → Nat → Prop where
  | nil : HexValue [] 0
  | snoc (t : Text) (c : Char) (n d : Nat) (h : HexValue t n) (hd : HexDigit c d) :
      HexValue (t ++ [c]) (16 * n + d)

/-- One to four hexadecimal digits. -/
def Group (t : Text) (n : Nat) : Prop := 1 ≤ t.length ∧ t.length ≤ 4 ∧ HexValue t n

/-- Groups, of which the last two may be written like an IPv4 address. -/
def Groups (gs : List Text) (ns : List Nat) : Prop :=
  List.Forall₂ Group gs ns ∨
    ∃ gs' ns' v a b c d, gs = gs' ++ [v] ∧ ns = ns' ++ [256 * a + b, 256 * c + d] ∧ V4 v a b c d ∧
      List.Forall₂ Group gs' ns'

/-- The text of an IPv6 address and its eight numbers: all the groups, or `::` for at least one group of
zeros. -/
def V6 (t : Text) (ns : List Nat) : Prop :=
  (∃ gs, t = join ':' gs ∧ Groups gs ns ∧ ns.length = 8) ∨
  (∃ hi lo hs ls, t = join ':' hi ++ "::".toList ++ join ':' lo ∧ List.Forall₂ Group hi hs ∧
    Groups lo ls ∧ hs.length + ls.length ≤ 7 ∧
    ns = hs ++ List.replicate (8 - (hs.length + ls.length)) 0 ++ ls)

/-- The text of an address of the host itself: an IPv4 address that starts with 127, or the IPv6 address
1, which may have a zone. -/
def Loopback (t : Text) : Prop :=
  (∃ b c d, V4 t 127 b c d) ∨
  (∃ addr, V6 addr [0, 0, 0, 0, 0, 0, 0, 1] ∧
    (t = addr ∨ ∃ zone, t = addr ++ '%' :: zone ∧ zone ≠ [] ∧ '%' ∉ zone ∧ '/' ∉ zone))

/-! ## Theorems -/

theorem isDigit_iff (c : Char) : isDigit c = true ↔ ∃ d, d < 10 ∧ c = Char.ofNat (48 + d) := by
  constructor
  · intro h
    simp only [isDigit, Bool.and_eq_true, decide_eq_true_eq] at h
    have h1 : 48 ≤ c.toNat := h.1
    have h2 : c.toNat ≤ 57 := h.2
    refine ⟨c.toNat - 48, by omega, ?_⟩
    rw [show 48 + (c.toNat - 48) = c.toNat by omega, Char.ofNat_toNat]
  · rintro ⟨d, hd, rfl⟩
    revert d
    decide

/-- The octets that are accepted are the canonical texts of the numbers below 256. -/
theorem parseOctet_iff (t : Text) (n : Nat) : parseOctet t = some n ↔ n < 256 ∧ t = decimal n := by
  constructor
  · intro h
    have hall : t.all isDigit = true := by
      by_contra hc
      unfold parseOctet at h
      split at h
      · cases h
      · rw [if_pos (by simpa using hc)] at h; cases h
    have hlen : t.length ≤ 3 := by
      by_contra hc
      unfold parseOctet at h
      split at h
      · cases h
      · split at h
        · cases h
        · rw [if_pos (by omega)] at h; cases h
    rw [List.all_eq_true] at hall
    match t, hlen with
    | [], _ => simp [parseOctet] at h
    | [a], _ =>
      obtain ⟨x, hx, rfl⟩ := (isDigit_iff a).1 (hall a (by simp))
      have key : ∀ x < 10, ∀ n ∈ (parseOctet [Char.ofNat (48 + x)]).toList,
          n < 256 ∧ [Char.ofNat (48 + x)] = decimal n := by decide +kernel
      exact key x hx n (by rw [h]; simp)
    | [a, b], _ =>
      obtain ⟨x, hx, rfl⟩ := (isDigit_iff a).1 (hall a (by simp))
      obtain ⟨y, hy, rfl⟩ := (isDigit_iff b).1 (hall b (by simp))
      have key : ∀ x < 10, ∀ y < 10, ∀ n ∈ (parseOctet [Char.ofNat (48 + x), Char.ofNat (48 + y)]).toList,
          n < 256 ∧ [Char.ofNat (48 + x), Char.ofNat (48 + y)] = decimal n := by decide +kernel
      exact key x hx y hy n (by rw [h]; simp)
    | [a, b, c], _ =>
      obtain ⟨x, hx, rfl⟩ := (isDigit_iff a).1 (hall a (by simp))
      obtain ⟨y, hy, rfl⟩ := (isDigit_iff b).1 (hall b (by simp))
      obtain ⟨z, hz, rfl⟩ := (isDigit_iff c).1 (hall c (by simp))
      have key : ∀ x < 10, ∀ y < 10, ∀ z < 10,
          ∀ n ∈ (parseOctet [Char.ofNat (48 + x), Char.ofNat (48 + y), Char.ofNat (48 + z)]).toList,
          n < 256 ∧ [Char.ofNat (48 + x), Char.ofNat (48 + y), Char.ofNat (48 + z)] = decimal n := by
        decide +kernel
      exact key x hx y hy z hz n (by rw [h]; simp)
  · rintro ⟨hn, rfl⟩
    have key : ∀ n < 256, parseOctet (decimal n) = some n := by decide +kernel
    exact key n hn

theorem mapM_cons' {A B : Type} (f : A → Option B) (a : A) (l : List A) :
    (a :: l).mapM f = (f a).bind fun b => (l.mapM f).map (b :: ·) := by
  simp only [List.mapM_cons]
  cases f a with
  | none => rfl
  | some b => cases l.mapM f <;> simp

theorem mapM_iff {A B : Type} (f : A → Option B) (l : List A) (bs : List B) :
    l.mapM f = some bs ↔ List.Forall₂ (fun a b => f a = some b) l bs := by
  induction l generalizing bs with
  | nil => cases bs <;> simp
  | cons a l ih =>
    rw [mapM_cons']
    cases bs with
    | nil =>
      constructor
      · intro h
        cases ha : f a with
        | none => rw [ha] at h; cases h
        | some b =>
          rw [ha] at h
          cases hl : l.mapM f <;> rw [hl] at h <;> cases h
      · intro h; cases h
    | cons b bs =>
      rw [List.forall₂_cons, ← ih]
      cases ha : f a with
      | none => simp
      | some b' => cases hl : l.mapM f <;> simp

theorem decimal_no_dot (n : Nat) (h : n < 256) : '.' ∉ decimal n ∧ ':' ∉ decimal n ∧ '/' ∉ decimal n ∧
    '%' ∉ decimal n := by
  revert n; decide +kernel

theorem octets_iff (t : Text) (ns : List Nat) :
    octets t = some ns ↔ ∃ a b c d, ns = [a, b, c, d] ∧ V4 t a b c d := by
  unfold octets
  simp only
  constructor
  · intro h
    split at h
    · cases h
    · next hl =>
      have hl : (split '.' t).length = 4 := by omega
      rw [mapM_iff] at h
      have ht := join_split '.' t
      match hs : split '.' t, hl with
      | [p, q, r, u], _ =>
        rw [hs] at h ht
        match ns, h with
        | [a, b, c, d], h =>
          simp only [List.forall₂_cons, parseOctet_iff, List.Forall₂.nil, and_true] at h
          obtain ⟨⟨h1, rfl⟩, ⟨h2, rfl⟩, ⟨h3, rfl⟩, h4, rfl⟩ := h
          refine ⟨a, b, c, d, rfl, ⟨h1, h2, h3, h4⟩, ?_⟩
          rw [← ht]; simp [join]
  · rintro ⟨a, b, c, d, rfl, ⟨h1, h2, h3, h4⟩, rfl⟩
    have hs : split '.' (decimal a ++ '.' :: decimal b ++ '.' :: decimal c ++ '.' :: decimal d) =
        [decimal a, decimal b, decimal c, decimal d] := by
      rw [← split_join '.' [decimal a, decimal b, decimal c, decimal d] (by simp)]
      · simp [join]
      · intro p hp
        simp only [List.mem_cons, List.not_mem_nil, or_false] at hp
        rcases hp with rfl | rfl | rfl | rfl <;> exact (decimal_no_dot _ (by assumption)).1
    rw [hs, if_neg (by simp), mapM_iff]
    simp [parseOctet_iff, h1, h2, h3, h4]

theorem v4_no (t : Text) (a b c d : Nat) (h : V4 t a b c d) : ':' ∉ t ∧ '/' ∉ t ∧ '%' ∉ t ∧ '.' ∈ t := by
  obtain ⟨⟨h1, h2, h3, h4⟩, rfl⟩ := h
  have g1 := decimal_no_dot a h1
  have g2 := decimal_no_dot b h2
  have g3 := decimal_no_dot c h3
  have g4 := decimal_no_dot d h4
  refine ⟨?_, ?_, ?_, by simp⟩
  · simp [g1.2.1, g2.2.1, g3.2.1, g4.2.1]
  · simp [g1.2.2.1, g2.2.2.1, g3.2.2.1, g4.2.2.1]
  · simp [g1.2.2.2, g2.2.2.2, g3.2.2.2, g4.2.2.2]

theorem parse4_iff (t : Text) (ns : List Nat) :
    parse4 t = some ns ↔ ∃ a b c d, ns = [a, b, c, d] ∧ V4 t a b c d := by
  unfold parse4
  split
  · next h =>
    constructor
    · intro h'; cases h'
    · rintro ⟨a, b, c, d, -, hv⟩
      exact absurd h (v4_no t a b c d hv).2.1
  · exact octets_iff t ns

theorem hexDigit_iff (c : Char) (n : Nat) : HexDigit c n ↔ isHex c = true ∧ n = digitValue c := by
  constructor
  · intro h
    have hn : n < 16 := by
      rcases h with h | h <;>
      · obtain ⟨hl, -⟩ := List.getElem?_eq_some_iff.1 h
        exact hl
    unfold HexDigit at h
    interval_cases n <;> (rcases h with h | h <;> (injection h with h; subst h; decide))
  · rintro ⟨h, rfl⟩
    have hc : c.toNat < 128 := by
      simp only [isHex, isDigit, Bool.or_eq_true, Bool.and_eq_true, decide_eq_true_eq] at h
      have h1 : '9'.toNat = 57 := rfl
      have h2 : 'F'.toNat = 70 := rfl
      have h3 : 'f'.toNat = 102 := rfl
      omega
    have key : ∀ k < 128, isHex (Char.ofNat k) = true →
        "0123456789abcdef".toList[digitValue (Char.ofNat k)]? = some (Char.ofNat k) ∨
        "0123456789ABCDEF".toList[digitValue (Char.ofNat k)]? = some (Char.ofNat k) := by decide +kernel
    have := key c.toNat hc
    rw [Char.ofNat_toNat] at this
    exact this h

theorem intOf_snoc (base : Nat) (t : Text) (c : Char) :
    intOf base (t ++ [c]) = base * intOf base t + digitValue c := by
  simp [intOf, Nat.mul_comm]

theorem hexValue_iff (t : Text) (n : Nat) : HexValue t n ↔ t.all isHex = true ∧ n = intOf 16 t := by
  constructor
  · intro h
    induction h with
    | nil => exact ⟨rfl, rfl⟩
    | snoc t c n d _ hd ih =>
      obtain ⟨h1, h2⟩ := ih
      obtain ⟨h3, h4⟩ := (hexDigit_iff c d).1 hd
      refine ⟨by rw [List.all_append, h1]; simp [h3], ?_⟩
      rw [intOf_snoc, h2, h4]
  · rintro ⟨h, rfl⟩
    induction t using List.reverseRecOn with
    | nil => exact .nil
    | append_singleton t c ih =>
      rw [List.all_append, Bool.and_eq_true] at h
      rw [intOf_snoc]
      exact .snoc t c _ _ (ih h.1) ((hexDigit_iff c _).2 ⟨by simpa using h.2, rfl⟩)

theorem parseHextet_iff (t : Text) (n : Nat) : parseHextet t = some n ↔ Group t n := by
  unfold parseHextet Group
  rw [hexValue_iff]
  by_cases h1 : t.all isHex = true
  · rw [if_neg (by simp [h1])]
    by_cases h2 : t.length > 4
    · rw [if_pos h2]
      constructor
      · intro h; cases h
      · intro h; omega
    · rw [if_neg h2]
      cases t with
      | nil => simp
      | cons c t =>
        rw [if_neg (by simp)]
        simp only [List.length_cons, h1, true_and] at h2 ⊢
        constructor
        · intro h; injection h with h; exact ⟨by omega, by omega, h.symm⟩
        · rintro ⟨-, -, rfl⟩; rfl
  · rw [if_pos (by simpa using h1)]
    constructor
    · intro h; cases h
    · intro h; exact absurd h.2.2.1 h1

theorem group_no (t : Text) (n : Nat) (h : Group t n) (c : Char) (hc : isHex c = false) : c ∉ t := by
  intro hm
  have h1 := ((hexValue_iff t n).1 h.2.2).1
  rw [List.all_eq_true] at h1
  rw [h1 c hm] at hc
  cases hc

theorem group_ne_nil (t : Text) (n : Nat) (h : Group t n) : t ≠ [] := by
  rintro rfl
  have := h.1
  simp at this

theorem hexText_group (n : Nat) (h : n < 65536) : Group (hexText n) n := by
  have key : ∀ d < 16, HexDigit (hexDigit d) d := by
    intro d hd
    rw [hexDigit_iff]
    revert d; decide +kernel
  have k := fun d => key (d % 16) (Nat.mod_lt _ (by decide))
  unfold hexText Group
  split
  · split
    · split
      · refine ⟨by simp, by simp, ?_⟩
        have := HexValue.snoc [] _ 0 _ .nil (k n)
        rw [show 16 * 0 + n % 16 = n by omega] at this
        exact this
      · refine ⟨by simp, by simp, ?_⟩
        have := HexValue.snoc _ _ _ _ (HexValue.snoc [] _ 0 _ .nil (k (n / 16))) (k n)
        rw [show 16 * (16 * 0 + n / 16 % 16) + n % 16 = n by omega] at this
        exact this
    · next h1 h2 =>
      rw [if_neg (by omega)]
      refine ⟨by simp, by simp, ?_⟩
      have := HexValue.snoc _ _ _ _ (HexValue.snoc _ _ _ _ (HexValue.snoc [] _ 0 _ .nil (k (n / 256)))
        (k (n / 16))) (k n)
      rw [show 16 * (16 * (16 * 0 + n / 256 % 16) + n / 16 % 16) + n % 16 = n by omega] at this
      exact this
  · rw [if_neg (by omega), if_neg (by omega)]
    refine ⟨by simp, by simp, ?_⟩
    have := HexValue.snoc _ _ _ _ (HexValue.snoc _ _ _ _ (HexValue.snoc _ _ _ _
      (HexValue.snoc [] _ 0 _ .nil (k (n / 4096))) (k (n / 256))) (k (n / 16))) (k n)
    rw [show 16 * (16 * (16 * (16 * 0 + n / 4096 % 16) + n / 256 % 16) + n / 16 % 16) + n % 16 = n by
      omega] at this
    exact this

theorem group_lt (t : Text) (n : Nat) (h : Group t n) : n < 65536 := by
  have hb : ∀ t n, HexValue t n → n < 16 ^ t.length := by
    intro t n h
    induction h with
    | nil => simp
    | snoc t c n d _ hd ih =>
      have hd : d < 16 := by
        rcases hd with h | h <;>
        · obtain ⟨hl, -⟩ := List.getElem?_eq_some_iff.1 h
          exact hl
      rw [List.length_append, List.length_singleton, Nat.pow_succ]
      omega
  have h1 := hb t n h.2.2
  have h2 : 16 ^ t.length ≤ 16 ^ 4 := Nat.pow_le_pow_right (by decide) h.2.1
  have h3 : (16 : Nat) ^ 4 = 65536 := rfl
  omega

theorem forall₂_split {A B : Type} {R : A → B → Prop} {a b : List A} {c : List B}
    (h : List.Forall₂ R (a ++ b) c) :
    ∃ xs ys, List.Forall₂ R a xs ∧ List.Forall₂ R b ys ∧ c = xs ++ ys := by
  induction a generalizing c with
  | nil => exact ⟨[], c, .nil, h, rfl⟩
  | cons x a ih =>
    cases h with
    | cons h1 h2 =>
      obtain ⟨xs, ys, h3, h4, rfl⟩ := ih h2
      exact ⟨_ :: xs, ys, .cons h1 h3, h4, rfl⟩

/-- Writing the suffix as groups. -/
theorem groups_iff (gs : List Text) (ns : List Nat) :
    Groups gs ns ↔ ∃ ps, expand gs = some ps ∧ ps.mapM parseHextet = some ns := by
  have hmap : ∀ ps ns, ps.mapM parseHextet = some ns ↔ List.Forall₂ Group ps ns := by
    intro ps ns
    rw [mapM_iff]
    have : (fun a b => parseHextet a = some b) = Group := by
      funext a b; exact propext (parseHextet_iff a b)
    rw [this]
  constructor
  · rintro (h | ⟨gs', ns', v, a, b, c, d, rfl, rfl, hv, hg⟩)
    · refine ⟨gs, ?_, (hmap gs ns).2 h⟩
      unfold expand
      cases hl : gs.getLast? with
      | none => rfl
      | some last =>
        simp only
        rw [if_neg]
        have hm : last ∈ gs := List.mem_of_getLast? hl
        obtain ⟨i, hi, rfl⟩ := List.getElem_of_mem hm
        have hlen := h.length_eq
        have := List.Forall₂.get h hi (by omega)
        exact group_no _ _ this '.' (by decide)
    · refine ⟨gs' ++ [hexText (256 * a + b), hexText (256 * c + d)], ?_, ?_⟩
      · unfold expand
        rw [List.getLast?_concat]
        simp only
        rw [if_pos (v4_no v a b c d hv).2.2.2, (parse4_iff v [a, b, c, d]).2 ⟨a, b, c, d, rfl, hv⟩]
        obtain ⟨h1, h2, h3, h4⟩ := hv.1
        have e1 : number 256 [a, b, c, d] / 65536 % 65536 = 256 * a + b := by
          simp only [number, List.foldl_cons, List.foldl_nil]; omega
        have e2 : number 256 [a, b, c, d] % 65536 = 256 * c + d := by
          simp only [number, List.foldl_cons, List.foldl_nil]; omega
        simp only [e1, e2, List.dropLast_concat]
      · rw [hmap]
        obtain ⟨h1, h2, h3, h4⟩ := hv.1
        refine List.rel_append hg ?_
        exact .cons (hexText_group _ (by omega)) (.cons (hexText_group _ (by omega)) .nil)
  · rintro ⟨ps, he, hp⟩
    rw [hmap] at hp
    unfold expand at he
    split at he
    · cases he; exact .inl hp
    · next last hl =>
      split at he
      · split at he
        · cases he
        · next vs hv =>
          obtain ⟨a, b, c, d, rfl, hw⟩ := (parse4_iff _ _).1 hv
          obtain ⟨h1, h2, h3, h4⟩ := hw.1
          have e1 : number 256 [a, b, c, d] / 65536 % 65536 = 256 * a + b := by
            simp only [number, List.foldl_cons, List.foldl_nil]; omega
          have e2 : number 256 [a, b, c, d] % 65536 = 256 * c + d := by
            simp only [number, List.foldl_cons, List.foldl_nil]; omega
          simp only [e1, e2] at he
          cases he
          right
          have hgs : gs = gs.dropLast ++ [last] := by
            have hne : gs ≠ [] := by rintro rfl; cases hl
            rw [List.getLast?_eq_some_getLast hne] at hl
            cases hl
            exact (List.dropLast_concat_getLast hne).symm
          obtain ⟨xs, ys, h5, h6, rfl⟩ := forall₂_split hp
          match ys, h6 with
          | [x, y], .cons hx (.cons hy .nil) =>
            have ux : ∀ t n m, Group t n → Group t m → n = m := fun t n m h h' => by
              rw [((hexValue_iff t n).1 h.2.2).2, ((hexValue_iff t m).1 h'.2.2).2]
            rw [ux _ _ _ hx (hexText_group _ (by omega)), ux _ _ _ hy (hexText_group _ (by omega))]
            exact ⟨gs.dropLast, xs, last, a, b, c, d, hgs, rfl, hw, h5⟩
      · cases he; exact .inl hp

theorem findSkip_some (ps : List Text) (i k : Nat) :
    findSkip ps i (some k) = if [] ∈ ps then none else some (some k) := by
  induction ps generalizing i with
  | nil => simp [findSkip]
  | cons p ps ih =>
    by_cases hp : p = []
    · subst hp; simp [findSkip]
    · rw [findSkip, if_neg hp, ih]
      simp [Ne.symm hp]

/-- The place of the empty part, if there is just one. -/
theorem findSkip_iff (ps : List Text) (i : Nat) (r : Option Nat) :
    findSkip ps i none = some r ↔
      (r = none ∧ [] ∉ ps) ∨ ∃ a b, ps = a ++ [] :: b ∧ [] ∉ a ∧ [] ∉ b ∧ r = some (i + a.length) := by
  induction ps generalizing i with
  | nil => simp [findSkip, eq_comm]
  | cons p ps ih =>
    by_cases hp : p = []
    · subst hp
      have : findSkip ([] :: ps) i none = findSkip ps (i + 1) (some i) := by simp [findSkip]
      rw [this, findSkip_some]
      constructor
      · intro h
        split at h
        · cases h
        · next hn => cases h; exact .inr ⟨[], ps, rfl, by simp, hn, by simp⟩
      · rintro (⟨-, h⟩ | ⟨a, b, h1, h2, h3, rfl⟩)
        · simp at h
        · cases a with
          | nil => obtain ⟨-, rfl⟩ := List.cons.inj h1; rw [if_neg h3]; simp
          | cons x a => obtain ⟨rfl, -⟩ := List.cons.inj h1; simp at h2
    · rw [findSkip, if_neg hp, ih]
      constructor
      · rintro (⟨h1, h2⟩ | ⟨a, b, rfl, h2, h3, rfl⟩)
        · exact .inl ⟨h1, by simp [Ne.symm hp, h2]⟩
        · exact .inr ⟨p :: a, b, rfl, by simp [Ne.symm hp, h2], h3, by simp; omega⟩
      · rintro (⟨h1, h2⟩ | ⟨a, b, h1, h2, h3, rfl⟩)
        · exact .inl ⟨h1, fun h => h2 (by simp [h])⟩
        · cases a with
          | nil => exact absurd (List.cons.inj h1).1 hp
          | cons x a =>
            obtain ⟨rfl, rfl⟩ := List.cons.inj h1
            exact .inr ⟨a, b, rfl, fun h => h2 (by simp [h]), h3, by simp; omega⟩

/-- The parts between the first and the last. -/
theorem middle (p0 pl : Text) (m : List Text) : (p0 :: (m ++ [pl])).tail.dropLast = m := by simp

theorem three (ps : List Text) (h : 3 ≤ ps.length) : ∃ p0 m pl, ps = p0 :: (m ++ [pl]) := by
  match ps with
  | [] => simp at h
  | p0 :: t =>
    have : t ≠ [] := by rintro rfl; simp at h
    exact ⟨p0, t.dropLast, t.getLast this, by rw [List.dropLast_concat_getLast this]⟩

theorem number_append (base : Nat) (xs ys : List Nat) :
    number base (xs ++ ys) = ys.foldl (fun n d => n * base + d) (number base xs) := by
  simp [number]

theorem number_zeros (base k n : Nat) :
    (List.replicate k 0).foldl (fun n d => n * base + d) n = n * base ^ k := by
  induction k generalizing n with
  | zero => simp
  | succ k ih => rw [List.replicate_succ, List.foldl_cons, ih, Nat.pow_succ]; simp [Nat.mul_comm, Nat.mul_left_comm, Nat.mul_assoc]

theorem mapM_groups (ps : List Text) (ns : List Nat) :
    ps.mapM parseHextet = some ns ↔ List.Forall₂ Group ps ns := by
  rw [mapM_iff]
  have : (fun a b => parseHextet a = some b) = Group := by
    funext a b; exact propext (parseHextet_iff a b)
  rw [this]

theorem forall₂_mem {A B : Type} {R : A → B → Prop} {l : List A} {m : List B}
    (h : List.Forall₂ R l m) (a : A) (ha : a ∈ l) : ∃ b ∈ m, R a b := by
  induction h with
  | nil => simp at ha
  | cons h1 h2 ih =>
    rcases List.mem_cons.1 ha with rfl | ha
    · exact ⟨_, by simp, h1⟩
    · obtain ⟨b, hb, h3⟩ := ih ha
      exact ⟨b, by simp [hb], h3⟩

theorem groups_ne {ps : List Text} {ns : List Nat} (h : List.Forall₂ Group ps ns) : [] ∉ ps := by
  intro hm
  obtain ⟨b, -, hb⟩ := forall₂_mem h [] hm
  exact group_ne_nil [] b hb rfl

/-- Expanding the suffix leaves everything before it. -/
theorem expand_append (a b c : List Text) (hb : b ≠ []) (h : expand b = some c) :
    expand (a ++ b) = some (a ++ c) := by
  unfold expand at h ⊢
  rw [List.getLast?_append_of_ne_nil _ hb]
  cases hl : b.getLast? with
  | none => rw [hl] at h; simp only at h ⊢; cases h; rfl
  | some last =>
    rw [hl] at h
    simp only at h ⊢
    split at h
    · next hd =>
      rw [if_pos hd]
      split at h
      · cases h
      · next ns hn =>
        cases h
        rw [List.dropLast_append_of_ne_nil hb]
        simp
    · next hd => rw [if_neg hd]; cases h; rfl

theorem expand_split (ps qs a b : List Text) (h : expand ps = some qs) (hq : qs = a ++ [] :: b) (hb : b ≠ []) :
    ∃ c, ps = a ++ [] :: c ∧ expand c = some b ∧ c ≠ [] := by
  unfold expand at h
  split at h
  · cases h
    next hl => simp at hl; rw [hl] at hq; simp at hq
  · next last hl =>
    have hps : ps = ps.dropLast ++ [last] := by
      have hne : ps ≠ [] := by rintro rfl; cases hl
      rw [List.getLast?_eq_some_getLast hne] at hl
      cases hl
      exact (List.dropLast_concat_getLast hne).symm
    split at h
    · next hd =>
      split at h
      · cases h
      · next ns hn =>
        injection h with h
        obtain ⟨w, x, y, z, rfl, hv⟩ := (parse4_iff _ _).1 hn
        have hlt : number 256 [w, x, y, z] < 65536 * 65536 := by
          obtain ⟨h1, h2, h3, h4⟩ := hv.1
          simp only [number, List.foldl_cons, List.foldl_nil]; omega
        have g1 : hexText (number 256 [w, x, y, z] / 65536 % 65536) ≠ [] :=
          group_ne_nil _ _ (hexText_group _ (Nat.mod_lt _ (by decide)))
        have g2 : hexText (number 256 [w, x, y, z] % 65536) ≠ [] :=
          group_ne_nil _ _ (hexText_group _ (Nat.mod_lt _ (by decide)))
        rw [hq] at h
        generalize hx1 : hexText (number 256 [w, x, y, z] / 65536 % 65536) = x1 at h g1
        generalize hx2 : hexText (number 256 [w, x, y, z] % 65536) = x2 at h g2
        rcases List.append_eq_append_iff.1 h.symm with ⟨c, hc1, hc2⟩ | ⟨c, hc1, hc2⟩
        · cases c with
          | nil => exact absurd (List.cons.inj hc2).1.symm g1
          | cons u c =>
            obtain ⟨rfl, rfl⟩ := List.cons.inj hc2
            refine ⟨c ++ [last], ?_, ?_, by simp⟩
            · rw [hps, hc1]; simp
            · unfold expand
              rw [List.getLast?_concat]
              simp only
              rw [if_pos hd, hn]
              simp [hx1, hx2]
        · exfalso
          cases c with
          | nil => exact g1 (List.cons.inj hc2).1
          | cons u c =>
            obtain ⟨rfl, hc3⟩ := List.cons.inj hc2
            cases c with
            | nil => exact g2 (List.cons.inj hc3).1
            | cons v c =>
              obtain ⟨rfl, hc4⟩ := List.cons.inj hc3
              simp at hc4
    · next hd =>
      cases h
      refine ⟨b, hq, ?_, hb⟩
      unfold expand
      have hlb : b.getLast? = some last := by
        rw [hq, List.getLast?_append_of_ne_nil _ (by simp), List.getLast?_cons] at hl
        cases hbl : b.getLast? with
        | none => simp at hbl; exact absurd hbl hb
        | some y => rw [hbl] at hl; simpa using hl
      rw [hlb]
      simp only
      rw [if_neg hd]

/-- The parts on a side of `::`; at an end of the text there is an empty one. -/
def strip (a : List Text) : List Text := if a = [[]] then [] else a

theorem join_strip (a : List Text) : join ':' (strip a) = join ':' a := by
  unfold strip
  split
  · next h => rw [h]; rfl
  · rfl

theorem layout_some (a b : List Text) (ha : a ≠ []) (hb : b ≠ []) (ha' : [] ∉ a.tail) (hb' : [] ∉ b.dropLast) :
    layout (a ++ [] :: b) (some a.length) =
      if (a = [[]] ∨ [] ∉ a) ∧ (b = [[]] ∨ [] ∉ b) ∧ (strip a).length + (strip b).length ≤ 7 then
        some ((strip a).length, (strip b).length) else none := by
  obtain ⟨p0, x, rfl⟩ := List.exists_cons_of_ne_nil ha
  obtain ⟨y, pl, rfl⟩ : ∃ y pl, b = y ++ [pl] := ⟨b.dropLast, b.getLast hb, (List.dropLast_concat_getLast hb).symm⟩
  simp only [List.tail_cons] at ha'
  simp only [List.dropLast_concat] at hb'
  have hhead : (p0 :: x ++ [] :: (y ++ [pl])).head? = some p0 := rfl
  have hlast : (p0 :: x ++ [] :: (y ++ [pl])).getLast? = some pl := by
    rw [show p0 :: x ++ [] :: (y ++ [pl]) = (p0 :: x ++ [] :: y) ++ [pl] by simp, List.getLast?_concat]
  have hlo : (p0 :: x ++ [] :: (y ++ [pl])).length - (p0 :: x).length - 1 = y.length + 1 := by
    simp
  have sa : strip (p0 :: x) = if p0 = [] ∧ x = [] then [] else p0 :: x := by
    unfold strip; simp
  have sb : strip (y ++ [pl]) = if pl = [] ∧ y = [] then [] else y ++ [pl] := by
    unfold strip
    cases y with
    | nil => simp
    | cons q y => simp
  have la : (p0 :: x = [[]] ∨ [] ∉ p0 :: x) ↔ (p0 = [] → x = []) := by
    simp only [List.cons.injEq, List.mem_cons, not_or]
    constructor
    · rintro (h | h) hp
      · exact h.2
      · exact absurd hp.symm h.1
    · intro h
      by_cases hp : p0 = []
      · exact .inl ⟨hp, h hp⟩
      · exact .inr ⟨Ne.symm hp, ha'⟩
  have lb : (y ++ [pl] = [[]] ∨ [] ∉ y ++ [pl]) ↔ (pl = [] → y = []) := by
    constructor
    · rintro (h | h) hp
      · cases y with
        | nil => rfl
        | cons q y => simp at h
      · rw [hp] at h; simp at h
    · intro h
      by_cases hp : pl = []
      · rw [hp, h hp]; simp
      · right; simp [hb', Ne.symm hp]
  simp only [la, lb]
  simp only [layout, hhead, hlast, hlo, sa, sb, Option.some.injEq]
  by_cases hp : p0 = []
  · by_cases hx : x = []
    · subst hp hx
      by_cases hq : pl = []
      · by_cases hy : y = []
        · subst hq hy; simp
        · have : y.length ≠ 0 := by simpa using hy
          simp [hq, hy]
      · simp only [hq, false_and, if_false, ne_eq, not_true_eq_false, and_false, and_self, if_true,
          List.length_nil, List.length_append, List.length_cons, Nat.sub_self,
          Nat.zero_add, implies_true, false_implies, true_and, Nat.zero_add]
        by_cases h8 : y.length + 1 ≤ 7
        · rw [if_neg (by omega), if_pos h8]
        · rw [if_pos (by omega), if_neg h8]
    · have : x.length ≠ 0 := by simpa using hx
      simp [hp, hx]
  · simp only [hp, false_and, if_false, false_implies, true_and]
    by_cases hq : pl = []
    · by_cases hy : y = []
      · subst hq hy
        simp only [and_self, if_true, List.length_nil, Nat.zero_add, Nat.sub_self, ne_eq,
          not_true_eq_false, and_false, if_false, List.length_cons, implies_true, true_and, Nat.add_zero]
        by_cases h8 : x.length + 1 ≤ 7
        · rw [if_neg (by omega), if_pos h8]
        · rw [if_pos (by omega), if_neg h8]
      · have : y.length ≠ 0 := by simpa using hy
        simp [hq, hy]
    · simp only [hq, false_and, if_false, List.length_append, List.length_cons, List.length_nil, Nat.zero_add,
        false_implies, true_and]
      by_cases h8 : x.length + 1 + (y.length + 1) ≤ 7
      · rw [if_neg (by omega), if_pos h8]
      · rw [if_pos (by omega), if_neg h8]

theorem take_strip (a b : List Text) : (a ++ [] :: b).take (strip a).length = strip a := by
  unfold strip
  split <;> simp

theorem drop_strip (a b : List Text) :
    (a ++ [] :: b).drop ((a ++ [] :: b).length - (strip b).length) = strip b := by
  unfold strip
  split
  · simp
  · have : (a ++ [] :: b).length - b.length = (a ++ [[]]).length := by simp; omega
    rw [this, show a ++ [] :: b = (a ++ [[]]) ++ b by simp]
    simp

/-- What the number of expanded parts is. -/
theorem fromParts_iff (qs : List Text) (h3 : 3 ≤ qs.length) (n : Nat) :
    fromParts qs = some n ↔
      (∃ ns, List.Forall₂ Group qs ns ∧ ns.length = 8 ∧ n = number 65536 ns) ∨
      (∃ a b hs ls, qs = a ++ [] :: b ∧ a ≠ [] ∧ b ≠ [] ∧ List.Forall₂ Group (strip a) hs ∧
        List.Forall₂ Group (strip b) ls ∧ hs.length + ls.length ≤ 7 ∧
        n = number 65536 (hs ++ List.replicate (8 - (hs.length + ls.length)) 0 ++ ls)) := by
  have hnum : ∀ hs ls : List Nat, number 65536 (hs ++ List.replicate (8 - (hs.length + ls.length)) 0 ++ ls) =
      ls.foldl (fun n d => n * 65536 + d) (number 65536 hs * 65536 ^ (8 - (hs.length + ls.length))) := by
    intro hs ls
    rw [number_append, number_append, number_zeros]
  constructor
  · intro h
    unfold fromParts at h
    split at h
    · cases h
    · next skip hf =>
      split at h
      · cases h
      · next hi lo hl =>
        split at h
        · next hs ls h1 h2 =>
          rw [findSkip_iff] at hf
          rcases hf with ⟨rfl, hm⟩ | ⟨x, y, hxy, hx, hy, rfl⟩
          · left
            simp only [layout] at hl
            split at hl
            · cases hl
            · next hlen =>
              split at hl
              · cases hl
              · split at hl
                · cases hl
                · cases hl
                  rw [List.take_length] at h1
                  rw [Nat.sub_zero, List.drop_length] at h2
                  cases h2
                  rw [mapM_groups] at h1
                  refine ⟨hs, h1, by rw [← h1.length_eq]; omega, ?_⟩
                  cases h
                  simp
          · right
            obtain ⟨p0, m, pl, rfl⟩ := three qs h3
            rw [middle] at hxy
            subst hxy
            have hqs : p0 :: (x ++ [] :: y ++ [pl]) = (p0 :: x) ++ [] :: (y ++ [pl]) := by simp
            rw [hqs] at hl h1 h2 ⊢
            rw [show 1 + x.length = (p0 :: x).length by simp; omega,
              layout_some _ _ (by simp) (by simp) (by simpa using hx) (by simpa using hy)] at hl
            split at hl
            · next hcond =>
              cases hl
              rw [take_strip, mapM_groups] at h1
              rw [drop_strip, mapM_groups] at h2
              refine ⟨p0 :: x, y ++ [pl], hs, ls, rfl, by simp, by simp, h1, h2, ?_, ?_⟩
              · rw [← h1.length_eq, ← h2.length_eq]; exact hcond.2.2
              · rw [hnum, ← h1.length_eq, ← h2.length_eq]
                cases h; rfl
            · cases hl
        · cases h
  · rintro (⟨ns, h1, h2, rfl⟩ | ⟨a, b, hs, ls, rfl, ha, hb, h1, h2, h4, rfl⟩)
    · have hne := groups_ne h1
      have hlen : qs.length = 8 := by rw [h1.length_eq, h2]
      have hsub : [] ∉ qs.tail.dropLast := fun hm =>
        hne (List.mem_of_mem_tail (List.dropLast_subset _ hm))
      have hf : findSkip qs.tail.dropLast 1 none = some none := (findSkip_iff _ _ _).2 (.inl ⟨rfl, hsub⟩)
      have hl : layout qs none = some (qs.length, 0) := by
        simp only [layout]
        rw [if_neg (by omega), if_neg, if_neg]
        · intro h; exact hne (List.mem_of_getLast? h)
        · intro h; exact hne (List.mem_of_head? h)
      unfold fromParts
      rw [hf]
      simp only
      rw [hl]
      simp only [List.take_length, Nat.sub_zero, List.drop_length, (mapM_groups _ _).2 h1]
      simp
    · have pa : a = [[]] ∨ [] ∉ a := by
        by_cases h : a = [[]]
        · exact .inl h
        · right; have := groups_ne h1; rwa [strip, if_neg h] at this
      have pb : b = [[]] ∨ [] ∉ b := by
        by_cases h : b = [[]]
        · exact .inl h
        · right; have := groups_ne h2; rwa [strip, if_neg h] at this
      obtain ⟨p0, x, rfl⟩ := List.exists_cons_of_ne_nil ha
      obtain ⟨y, pl, rfl⟩ : ∃ y pl, b = y ++ [pl] := ⟨b.dropLast, b.getLast hb, (List.dropLast_concat_getLast hb).symm⟩
      have hx : [] ∉ x := by
        rcases pa with h | h
        · cases h; simp
        · exact fun hm => h (by simp [hm])
      have hy : [] ∉ y := by
        rcases pb with h | h
        · cases y with
          | nil => simp
          | cons q y => simp at h
        · exact fun hm => h (by simp [hm])
      have hqs : (p0 :: x) ++ [] :: (y ++ [pl]) = p0 :: ((x ++ [] :: y) ++ [pl]) := by simp
      have hf : findSkip ((p0 :: x) ++ [] :: (y ++ [pl])).tail.dropLast 1 none = some (some (p0 :: x).length) := by
        rw [hqs, middle]
        exact (findSkip_iff _ _ _).2 (.inr ⟨x, y, rfl, hx, hy, by simp; omega⟩)
      have hl := layout_some (p0 :: x) (y ++ [pl]) (by simp) (by simp) (by simpa using hx) (by simpa using hy)
      rw [if_pos ⟨pa, pb, by rw [h1.length_eq, h2.length_eq]; exact h4⟩] at hl
      unfold fromParts
      rw [hf]
      simp only
      rw [hl]
      simp only [take_strip, drop_strip, (mapM_groups _ _).2 h1, (mapM_groups _ _).2 h2]
      rw [hnum, h1.length_eq, h2.length_eq]
      rfl

theorem expand_cases (ps qs : List Text) (h : expand ps = some qs) :
    qs = ps ∨ ∃ a x y z, ps = a ++ [x] ∧ qs = a ++ [y, z] ∧ x ≠ [] ∧ y ≠ [] := by
  unfold expand at h
  split at h
  · cases h; exact .inl rfl
  · next last hl =>
    split at h
    · next hd =>
      split at h
      · cases h
      · next ns hn =>
        injection h with h
        right
        have hps : ps = ps.dropLast ++ [last] := by
          have hne : ps ≠ [] := by rintro rfl; cases hl
          rw [List.getLast?_eq_some_getLast hne] at hl
          cases hl
          exact (List.dropLast_concat_getLast hne).symm
        refine ⟨_, _, _, _, hps, h.symm, ?_, group_ne_nil _ _ (hexText_group _ (Nat.mod_lt _ (by decide)))⟩
        rintro rfl
        simp at hd
    · cases h; exact .inl rfl

theorem expand_length (ps qs : List Text) (h : expand ps = some qs) :
    ps.length ≤ qs.length ∧ qs.length ≤ ps.length + 1 := by
  rcases expand_cases ps qs h with rfl | ⟨a, x, y, z, rfl, rfl, -, -⟩
  · simp
  · simp

theorem strip_expand (c b : List Text) (h : expand c = some b) : expand (strip c) = some (strip b) := by
  have h0 : ∀ b, expand [[]] = some b → b = [[]] := by
    intro b hb
    have : expand [[]] = some [[]] := by decide
    rw [this] at hb; cases hb; rfl
  by_cases hc : c = [[]]
  · subst hc
    rw [h0 b h]; rfl
  · have hb : b ≠ [[]] := by
      rintro rfl
      rcases expand_cases _ _ h with h' | ⟨a, x, y, z, -, h', -, -⟩
      · exact hc h'.symm
      · have := congrArg List.length h'
        simp at this
    rw [strip, strip, if_neg hc, if_neg hb, h]

theorem groups_no (gs : List Text) (ns : List Nat) (h : Groups gs ns) (c : Char) (h1 : isHex c = false)
    (h2 : c ∈ [':', '/', '%']) : ∀ p ∈ gs, c ∉ p := by
  rcases h with h | ⟨gs', ns', v, x, y, z, w, rfl, rfl, hv, h⟩
  · intro p hp
    obtain ⟨n, -, hn⟩ := forall₂_mem h p hp
    exact group_no p n hn c h1
  · intro p hp
    rw [List.mem_append, List.mem_singleton] at hp
    rcases hp with hp | rfl
    · obtain ⟨n, -, hn⟩ := forall₂_mem h p hp
      exact group_no p n hn c h1
    · obtain ⟨n1, n2, n3, -⟩ := v4_no _ _ _ _ _ hv
      simp only [List.mem_cons, List.not_mem_nil, or_false] at h2
      rcases h2 with rfl | rfl | rfl <;> assumption

theorem groups_lt (gs : List Text) (ns : List Nat) (h : Groups gs ns) : ∀ n ∈ ns, n < 65536 := by
  have key : ∀ gs ns, List.Forall₂ Group gs ns → ∀ n ∈ ns, n < 65536 := by
    intro gs ns h
    induction h with
    | nil => simp
    | cons h1 h2 ih =>
      intro n hn
      rcases List.mem_cons.1 hn with rfl | hn
      · exact group_lt _ _ h1
      · exact ih n hn
  rcases h with h | ⟨gs', ns', v, x, y, z, w, rfl, rfl, hv, h⟩
  · exact key _ _ h
  · intro n hn
    obtain ⟨h1, h2, h3, h4⟩ := hv.1
    rw [List.mem_append] at hn
    rcases hn with hn | hn
    · exact key _ _ h n hn
    · simp only [List.mem_cons, List.not_mem_nil, or_false] at hn
      omega

theorem v6_lt (t : Text) (ns : List Nat) (h : V6 t ns) : ns.length = 8 ∧ ∀ n ∈ ns, n < 65536 := by
  rcases h with ⟨gs, -, hg, hl⟩ | ⟨hi, lo, hs, ls, -, hh, hlo, hlen, rfl⟩
  · exact ⟨hl, groups_lt _ _ hg⟩
  · refine ⟨by simp; omega, ?_⟩
    intro n hn
    simp only [List.mem_append, List.mem_replicate] at hn
    rcases hn with (hn | hn) | hn
    · exact groups_lt hi hs (.inl hh) n hn
    · omega
    · exact groups_lt _ _ hlo n hn

theorem not_mem_join (c : Char) (hc : c ≠ ':') (ps : List Text) (h : ∀ p ∈ ps, c ∉ p) : c ∉ join ':' ps := by
  induction ps with
  | nil => simp [join]
  | cons p ps ih =>
    by_cases hps : ps = []
    · subst hps; simpa [join] using h
    · rw [Verif.Text.join_cons _ _ _ hps]
      simp only [List.mem_append, List.mem_cons, not_or]
      exact ⟨h p (by simp), hc, ih (fun q hq => h q (by simp [hq]))⟩

theorem v6_no (t : Text) (ns : List Nat) (h : V6 t ns) : '/' ∉ t ∧ '%' ∉ t := by
  rcases h with ⟨gs, rfl, hg, -⟩ | ⟨hi, lo, hs, ls, rfl, hh, hlo, -, -⟩
  · exact ⟨not_mem_join _ (by decide) _ (groups_no _ _ hg _ (by decide) (by simp)),
      not_mem_join _ (by decide) _ (groups_no _ _ hg _ (by decide) (by simp))⟩
  · have hh' : Groups hi hs := .inl hh
    have a1 := not_mem_join '/' (by decide) _ (groups_no _ _ hh' _ (by decide) (by simp))
    have a2 := not_mem_join '%' (by decide) _ (groups_no _ _ hh' _ (by decide) (by simp))
    have b1 := not_mem_join '/' (by decide) _ (groups_no _ _ hlo _ (by decide) (by simp))
    have b2 := not_mem_join '%' (by decide) _ (groups_no _ _ hlo _ (by decide) (by simp))
    simp only [List.mem_append, not_or]
    exact ⟨⟨⟨a1, by decide⟩, b1⟩, ⟨⟨a2, by decide⟩, b2⟩⟩

/-- **An IPv6 address is read as what it says.** -/
theorem parse6_iff (t : Text) (n : Nat) : parse6 t = some n ↔ ∃ ns, V6 t ns ∧ n = number 65536 ns := by
  constructor
  · intro h
    unfold parse6 at h
    split at h
    · cases h
    · split at h
      · cases h
      · next hlen =>
        split at h
        · cases h
        · next qs hq =>
          split at h
          · cases h
          · next h9 =>
            have hl := expand_length _ _ hq
            rcases (fromParts_iff qs (by omega) n).1 h with ⟨ns, h1, h2, h3⟩ | ⟨a, b, hs, ls, h1, ha, hb, h2, h3, h4, h5⟩
            · exact ⟨ns, .inl ⟨split ':' t, (join_split _ _).symm,
                (groups_iff _ _).2 ⟨qs, hq, (mapM_groups _ _).2 h1⟩, h2⟩, h3⟩
            · obtain ⟨c, c1, c2, c3⟩ := expand_split _ _ a b hq h1 hb
              refine ⟨_, .inr ⟨strip a, strip c, hs, ls, ?_, h2,
                (groups_iff _ _).2 ⟨strip b, strip_expand c b c2, (mapM_groups _ _).2 h3⟩, h4, rfl⟩, h5⟩
              have : t = join ':' (a ++ [] :: c) := by rw [← c1]; exact (join_split _ _).symm
              rw [this, join_strip, join_strip, Verif.Text.join_append _ _ _ ha (by simp), Verif.Text.join_cons _ _ _ c3]
              simp
  · rintro ⟨ns, hv, rfl⟩
    -- what is left once the parts are known
    have fin : ∀ ps qs, 3 ≤ ps.length → (∀ p ∈ ps, ':' ∉ p) → t = join ':' ps → expand ps = some qs →
        qs.length ≤ 9 → fromParts qs = some (number 65536 ns) → parse6 t = some (number 65536 ns) := by
      intro ps qs h3 hno ht hq h9 hf
      have hs : split ':' t = ps := by
        rw [ht]; exact split_join _ _ (by rintro rfl; simp at h3) hno
      unfold parse6
      rw [if_neg, hs, if_neg (by omega), hq]
      · simp only
        rw [if_neg (by omega), hf]
      · rintro rfl
        have : split ':' ([] : Text) = [[]] := rfl
        rw [this] at hs
        rw [← hs] at h3
        simp at h3
    rcases hv with ⟨gs, ht, hg, hl⟩ | ⟨hi, lo, hs, ls, ht, hh, hlo, hlen, rfl⟩
    · obtain ⟨qs, hq, hm⟩ := (groups_iff _ _).1 hg
      rw [mapM_groups] at hm
      have hl' := expand_length _ _ hq
      have hql : qs.length = 8 := by rw [hm.length_eq, hl]
      exact fin gs qs (by omega) (groups_no _ _ hg _ (by decide) (by simp)) ht hq (by omega)
        ((fromParts_iff qs (by omega) _).2 (.inl ⟨ns, hm, hl, rfl⟩))
    · obtain ⟨qs, hq, hm⟩ := (groups_iff _ _).1 hlo
      rw [mapM_groups] at hm
      have hne : ∀ (l : List Text) m, List.Forall₂ Group l m → ∃ l', l' ≠ [] ∧ strip l' = l ∧
          l'.length ≤ max 1 m.length ∧ (l ≠ [] → l' = l) ∧ (l = [] → l' = [[]]) := by
        intro l m hlm
        cases l with
        | nil => exact ⟨[[]], by simp, rfl, by simp, by simp, by simp⟩
        | cons p l =>
          refine ⟨p :: l, by simp, ?_, by rw [← hlm.length_eq]; omega, by simp, by simp⟩
          rw [strip, if_neg]
          intro h
          exact groups_ne hlm (by rw [h]; simp)
      obtain ⟨hi', a1, a2, a3, a4, a5⟩ := hne _ _ hh
      obtain ⟨qs', b1, b2, b3, b4, b5⟩ := hne _ _ hm
      obtain ⟨lo', c1, c2, c3, c4⟩ : ∃ lo', lo' ≠ [] ∧ join ':' lo' = join ':' lo ∧
          expand lo' = some qs' ∧ (∀ p ∈ lo', ':' ∉ p) := by
        by_cases h : lo = []
        · subst h
          have : qs = [] := by
            have : expand [] = some [] := rfl
            rw [this] at hq; cases hq; rfl
          rw [b5 this]
          exact ⟨[[]], by simp, rfl, by decide, by simp⟩
        · refine ⟨lo, h, rfl, ?_, groups_no _ _ hlo _ (by decide) (by simp)⟩
          rw [b4, hq]
          rintro rfl
          have := (expand_length _ _ hq).1
          simp at this
          exact h this
      have hhno : ∀ p ∈ hi', ':' ∉ p := by
        by_cases h : hi = []
        · rw [a5 h]; simp
        · rw [a4 h]; exact groups_no _ _ (.inl hh) _ (by decide) (by simp)
      have c1' := List.length_pos_iff.2 c1
      have a1' := List.length_pos_iff.2 a1
      have b1' := List.length_pos_iff.2 b1
      have he : expand (hi' ++ [] :: lo') = some (hi' ++ [] :: qs') := by
        have := expand_append (hi' ++ [[]]) lo' qs' c1 c3
        simpa using this
      refine fin (hi' ++ [] :: lo') (hi' ++ [] :: qs') (by simp; omega) ?_ ?_ he (by simp; omega)
        ((fromParts_iff _ (by simp; omega) _).2 (.inr ⟨hi', qs', hs, ls, rfl, a1, b1, by rwa [a2],
          by rwa [b2], hlen, rfl⟩))
      · intro p hp
        rw [List.mem_append, List.mem_cons] at hp
        rcases hp with hp | rfl | hp
        · exact hhno p hp
        · simp
        · exact c4 p hp
      · rw [ht, ← a2, join_strip, ← c2, Verif.Text.join_append _ _ _ a1 (by simp), Verif.Text.join_cons _ _ _ c1]
        simp

theorem number_one (ns : List Nat) (hl : ns.length = 8) (h : ∀ n ∈ ns, n < 65536) :
    number 65536 ns = 1 ↔ ns = [0, 0, 0, 0, 0, 0, 0, 1] := by
  match ns, hl with
  | [a, b, c, d, e, f, g, i], _ =>
    simp only [List.mem_cons, List.not_mem_nil, or_false, forall_eq_or_imp, forall_eq] at h
    simp only [number, List.foldl_cons, List.foldl_nil, List.cons.injEq, and_true]
    omega

/-- **What is taken for a loopback address is one, and the other way round.** -/
theorem isLoopback_iff (t : Text) : isLoopback t = true ↔ Loopback t := by
  have h6 : ∀ addr, parse6 addr = some 1 ↔ V6 addr [0, 0, 0, 0, 0, 0, 0, 1] := by
    intro addr
    rw [parse6_iff]
    constructor
    · rintro ⟨ns, hv, h1⟩
      have := v6_lt _ _ hv
      rw [(number_one ns this.1 this.2).1 h1.symm] at hv
      exact hv
    · intro h; exact ⟨_, h, by decide⟩
  have h46 : ∀ a b c d ns, V4 t a b c d → ¬ ∃ addr, V6 addr ns ∧ (t = addr ∨ ∃ zone, t = addr ++ '%' :: zone) := by
    rintro a b c d ns hv ⟨addr, h, ht⟩
    have hno := v4_no _ _ _ _ _ hv
    have hc : ':' ∈ addr := by
      rcases h with ⟨gs, rfl, hg, hl⟩ | ⟨hi, lo, hs, ls, rfl, -⟩
      · obtain ⟨qs, hq, hm⟩ := (groups_iff _ _).1 hg
        rw [mapM_groups] at hm
        have hl' := expand_length _ _ hq
        have hql : qs.length = 8 := by rw [hm.length_eq, hl]
        match gs, hl' with
        | [], hl' => simp at hl'; omega
        | [_], hl' => simp at hl'; omega
        | p :: q :: r, _ => rw [Verif.Text.join_cons _ _ _ (by simp)]; simp
      · simp
    rcases ht with rfl | ⟨zone, rfl⟩
    · exact hno.1 hc
    · exact hno.1 (by simp [hc])
  unfold isLoopback Loopback
  split
  · next ns hp =>
    obtain ⟨a, b, c, d, rfl, hv⟩ := (parse4_iff _ _).1 hp
    have hn := h46 a b c d [0, 0, 0, 0, 0, 0, 0, 1] hv
    simp only [List.head?_cons, Option.some.injEq, decide_eq_true_eq]
    constructor
    · rintro rfl; exact .inl ⟨b, c, d, hv⟩
    · rintro (⟨b', c', d', hv'⟩ | ⟨addr, h1, h2⟩)
      · have e1 := (parse4_iff t _).2 ⟨_, _, _, _, rfl, hv⟩
        have e2 := (parse4_iff t _).2 ⟨_, _, _, _, rfl, hv'⟩
        rw [e1] at e2
        simp at e2
        exact e2.1
      · refine absurd ⟨addr, h1, ?_⟩ hn
        rcases h2 with h2 | ⟨zone, h2, -⟩
        · exact .inl h2
        · exact .inr ⟨zone, h2⟩
  · next hp =>
    have h4 : ¬ ∃ b c d, V4 t 127 b c d := by
      rintro ⟨b, c, d, hv⟩
      rw [(parse4_iff t _).2 ⟨_, _, _, _, rfl, hv⟩] at hp
      cases hp
    split
    · next hs =>
      refine ⟨by simp, ?_⟩
      rintro (h | ⟨addr, h1, h2⟩)
      · exact absurd h h4
      · have := (v6_no _ _ h1).1
        rcases h2 with rfl | ⟨zone, rfl, -, -, h2⟩
        · exact absurd hs this
        · simp [this, h2] at hs
    · next hs =>
      unfold splitScope
      have hcut : cut '%' t = (t, none) ∧ '%' ∉ t ∨ ∃ x z, cut '%' t = (x, some z) ∧ t = x ++ '%' :: z ∧ '%' ∉ x := by
        by_cases hm : '%' ∈ t
        · right
          obtain ⟨x, z, hx, hxn⟩ := List.eq_append_cons_of_mem hm
          exact ⟨x, z, by rw [hx, cut_append _ _ _ hxn], hx, hxn⟩
        · exact .inl ⟨cut_of_not_mem _ _ hm, hm⟩
      rcases hcut with ⟨hc, hm⟩ | ⟨x, z, hc, rfl, hx⟩
      · rw [hc]
        simp only [decide_eq_true_eq, h6]
        constructor
        · intro h; exact .inr ⟨t, h, .inl rfl⟩
        · rintro (h | ⟨addr, h1, rfl | ⟨zone, rfl, -⟩⟩)
          · exact absurd h h4
          · exact h1
          · simp at hm
      · rw [hc]
        simp only
        have uniq : ∀ addr, V6 addr [0, 0, 0, 0, 0, 0, 0, 1] → ∀ zone, x ++ '%' :: z = addr ++ '%' :: zone →
            x = addr ∧ z = zone := by
          intro addr ha zone he
          have := (v6_no _ _ ha).2
          have e1 := cut_append '%' x z hx
          rw [he, cut_append '%' addr zone this] at e1
          simp at e1
          exact ⟨e1.1.symm, e1.2.symm⟩
        by_cases hz : z = [] ∨ '%' ∈ z
        · rw [if_pos hz]
          refine ⟨by simp, ?_⟩
          rintro (h | ⟨addr, h1, h | ⟨zone, h, h2, h3, h5⟩⟩)
          · exact absurd h h4
          · exact absurd (by rw [← h]; simp) (v6_no _ _ h1).2
          · obtain ⟨rfl, rfl⟩ := uniq addr h1 zone h
            rcases hz with hz | hz
            · exact absurd hz h2
            · exact absurd hz h3
        · rw [if_neg hz]
          simp only [decide_eq_true_eq, h6]
          push Not at hz
          constructor
          · intro h
            refine .inr ⟨x, h, .inr ⟨z, rfl, hz.1, hz.2, ?_⟩⟩
            intro hm; exact hs (by simp [hm])
          · rintro (h | ⟨addr, h1, h | ⟨zone, h, h2, h3, h5⟩⟩)
            · exact absurd h h4
            · exact absurd (by rw [← h]; simp) (v6_no _ _ h1).2
            · obtain ⟨rfl, rfl⟩ := uniq addr h1 zone h
              exact h1

/-! ## The hypotheses are met -/

example : isLoopback "127.0.0.1".toList = true ∧ isLoopback "::1".toList = true ∧
    isLoopback "0:0:0:0:0:0:0.0.0.1".toList = true ∧ isLoopback "::1%eth0".toList = true ∧
    isLoopback "127.0.0.1.example.com".toList = false ∧ isLoopback "127.1".toList = false ∧
    isLoopback "::ffff:127.0.0.1".toList = false ∧ isLoopback "0127.0.0.1".toList = false := by decide +kernel

end Verif.Identity.Ip
