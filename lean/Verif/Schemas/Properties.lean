import Mathlib.Data.List.Nodup
import Verif.Schemas.Dict

/-!
# Typed property bags (C41)

Models `TypedProperties` and `PropertyKey` (smithy_core/types.py:222-340) with what they inherit from
`UserDict` (collections/__init__.py:1108-1191) and `MutableMapping` (_collections_abc.py:886-975).

Bags are mutable objects: a state is the list of all bags made so far, named by their positions.
Not modelled: the types of values, which the code does not check either; `fromkeys`; `__ror__`.
-/

set_option autoImplicit false

namespace Verif.Schemas

abbrev Name := List Char

/-! ## Model -/

section
variable {V : Type}

/-- A key: a string, or a `PropertyKey` (types.py:222-244), a frozen dataclass that is equal to
another if names and types are, and to no string. -/
inductive Key where
  | str (name : Name)
  | prop (name : Name) (type : Nat)
  deriving DecidableEq, Repr

/-- `key if isinstance(key, str) else key.key` (types.py:292, 298, 302, 322, 340; 305 likewise). -/
def Key.name : Key → Name
  | .str n => n
  | .prop n _ => n

/-- `UserDict.data`: a dict, in order of insertion. -/
abbrev Data (V : Type) := Dict Key V

/-- `__getitem__` (types.py:291-292) and `get` (321-322). -/
def getItem (d : Data V) (k : Key) : Option V := d.get (.str k.name)

/-- `__setitem__` (types.py:297-298). -/
def setItem (d : Data V) (k : Key) (v : V) : Data V := d.set (.str k.name) v

/-- `__delitem__` (types.py:300-301). -/
def delItem (d : Data V) (k : Key) : Data V := d.del (.str k.name)

/-- `update` (_collections_abc.py:938-955): one assignment after the other. -/
def update (d : Data V) (items : List (Key × V)) : Data V :=
  items.foldl (fun d e => setItem d e.1 e.2) d

/-- `data |= other` of dicts. -/
def merge (d : Data V) (items : List (Key × V)) : Data V :=
  items.foldl (fun d e => d.set e.1 e.2) d

/-- What can be done with bags. -/
inductive Op (V : Type) where
  /-- `TypedProperties(items)` -/
  | new (items : List (Key × V))
  | get (b : Nat) (k : Key)
  /-- `b.get(k, default)`; `none` stands for the default. -/
  | getDefault (b : Nat) (k : Key)
  | contains (b : Nat) (k : Key)
  | set (b : Nat) (k : Key) (v : V)
  | del (b : Nat) (k : Key)
  | pop (b : Nat) (k : Key)
  | popitem (b : Nat)
  | clear (b : Nat)
  | setdefault (b : Nat) (k : Key) (v : V)
  | update (b : Nat) (items : List (Key × V))
  | updateFrom (b c : Nat)
  /-- `b | c` -/
  | union (b c : Nat)
  /-- `b |= c` -/
  | unionInto (b c : Nat)
  /-- `b |= items` for a dict `items` -/
  | unionDict (b : Nat) (items : List (Key × V))
  /-- `b.copy()`, and `copy.copy(b)` -/
  | copy (b : Nat)
  | iter (b : Nat)
  | len (b : Nat)

/-- What is returned. -/
inductive Out (V : Type) where
  | unit
  | value (v : V)
  | optional (v : Option V)
  | keyError
  | bool (b : Bool)
  | item (k : Key) (v : V)
  | keys (ks : List Key)
  | number (n : Nat)
  | bag (b : Nat)
  /-- There is no such bag. -/
  | noBag
  deriving DecidableEq, Repr

/-- One operation. -/
def step (s : List (Data V)) : Op V → List (Data V) × Out V
  | .new items => (s ++ [update [] items], .bag s.length)
  | .get b k =>
    match s[b]? with
    | none => (s, .noBag)
    | some d => (s, match getItem d k with | some v => .value v | none => .keyError)
  | .getDefault b k =>
    match s[b]? with
    | none => (s, .noBag)
    | some d => (s, .optional (getItem d k))
  | .contains b k =>
    -- types.py:303-304
    match s[b]? with
    | none => (s, .noBag)
    | some d => (s, .bool (d.any fun e => e.1 = .str k.name))
  | .set b k v =>
    match s[b]? with
    | none => (s, .noBag)
    | some d => (s.set b (setItem d k v), .unit)
  | .del b k =>
    match s[b]? with
    | none => (s, .noBag)
    | some d =>
      match getItem d k with
      | some _ => (s.set b (delItem d k), .unit)
      | none => (s, .keyError)
  | .pop b k =>
    -- types.py:339-340: the default is `None` unless given, so that there is no `KeyError`
    match s[b]? with
    | none => (s, .noBag)
    | some d =>
      match getItem d k with
      | some v => (s.set b (delItem d k), .optional (some v))
      | none => (s, .optional none)
  | .popitem b =>
    -- _collections_abc.py:920-930: the first key
    match s[b]? with
    | none => (s, .noBag)
    | some d =>
      match d with
      | [] => (s, .keyError)
      | (k, _) :: _ =>
        match getItem d k with
        | some v => (s.set b (delItem d k), .item k v)
        | none => (s, .keyError)
  | .clear b =>
    match s[b]? with
    | none => (s, .noBag)
    | some _ => (s.set b [], .unit)
  | .setdefault b k v =>
    match s[b]? with
    | none => (s, .noBag)
    | some d =>
      match getItem d k with
      | some v => (s, .value v)
      | none => (s.set b (setItem d k v), .value v)
  | .update b items =>
    match s[b]? with
    | none => (s, .noBag)
    | some d => (s.set b (update d items), .unit)
  | .updateFrom b c =>
    match s[b]?, s[c]? with
    | some d, some e => (s.set b (update d e), .unit)
    | _, _ => (s, .noBag)
  | .union b c =>
    -- collections/__init__.py:1145-1150
    match s[b]?, s[c]? with
    | some d, some e => (s ++ [update [] (merge d e)], .bag s.length)
    | _, _ => (s, .noBag)
  | .unionInto b c =>
    -- collections/__init__.py:1159-1164
    match s[b]?, s[c]? with
    | some d, some e => (s.set b (merge d e), .unit)
    | _, _ => (s, .noBag)
  | .unionDict b items =>
    match s[b]? with
    | none => (s, .noBag)
    | some d => (s.set b (merge d items), .unit)
  | .copy b =>
    -- collections/__init__.py:1166-1184: an empty bag updated with the items
    match s[b]? with
    | none => (s, .noBag)
    | some d => (s ++ [update [] d], .bag s.length)
  | .iter b =>
    match s[b]? with
    | none => (s, .noBag)
    | some d => (s, .keys (d.map Prod.fst))
  | .len b =>
    match s[b]? with
    | none => (s, .noBag)
    | some d => (s, .number d.length)

/-- A history: the final bags and everything returned. -/
def run (s : List (Data V)) : List (Op V) → List (Data V) × List (Out V)
  | [] => (s, [])
  | op :: ops =>
    let r := step s op
    let rest := run r.1 ops
    (rest.1, r.2 :: rest.2)

/-! ## Specification -/

/-- A bag as a map from names to values. -/
abbrev Bag (V : Type) := Name → Option V

def Bag.empty : Bag V := fun _ => none

def Bag.with (m : Bag V) (n : Name) (v : V) : Bag V := fun x => if x = n then some v else m x

def Bag.without (m : Bag V) (n : Name) : Bag V := fun x => if x = n then none else m x

/-- `m` overridden by `m'`. -/
def Bag.over (m m' : Bag V) : Bag V := fun x => (m' x).or (m x)

/-- `m` after some assignments. -/
def Bag.assigned (m : Bag V) (items : List (Key × V)) : Bag V :=
  items.foldl (fun m e => m.with e.1.name e.2) m

/-- The names with a value, each once. -/
def Bag.Lists (m : Bag V) (ns : List Name) : Prop := ns.Nodup ∧ ∀ n, n ∈ ns ↔ (m n).isSome = true

/-- What an operation returns and does to the maps.  Only the bag it is called on changes, and new bags
come at the end. -/
def Spec (ms : List (Bag V)) (op : Op V) (out : Out V) (ms' : List (Bag V)) : Prop :=
  match op with
  | .new items => out = .bag ms.length ∧ ms' = ms ++ [Bag.empty.assigned items]
  | .get b k => ms' = ms ∧ match ms[b]? with
    | none => out = .noBag
    | some m => out = (match m k.name with | some v => .value v | none => .keyError)
  | .getDefault b k => ms' = ms ∧ match ms[b]? with
    | none => out = .noBag
    | some m => out = .optional (m k.name)
  | .contains b k => ms' = ms ∧ match ms[b]? with
    | none => out = .noBag
    | some m => out = .bool (m k.name).isSome
  | .set b k v => match ms[b]? with
    | none => out = .noBag ∧ ms' = ms
    | some m => out = .unit ∧ ms' = ms.set b (m.with k.name v)
  | .del b k => match ms[b]? with
    | none => out = .noBag ∧ ms' = ms
    | some m => match m k.name with
      | some _ => out = .unit ∧ ms' = ms.set b (m.without k.name)
      | none => out = .keyError ∧ ms' = ms
  | .pop b k => match ms[b]? with
    | none => out = .noBag ∧ ms' = ms
    | some m => out = .optional (m k.name) ∧ ms' = ms.set b (m.without k.name)
  | .popitem b => match ms[b]? with
    | none => out = .noBag ∧ ms' = ms
    | some m => (m = Bag.empty ∧ out = .keyError ∧ ms' = ms) ∨
      ∃ n v, m n = some v ∧ out = .item (.str n) v ∧ ms' = ms.set b (m.without n)
  | .clear b => match ms[b]? with
    | none => out = .noBag ∧ ms' = ms
    | some _ => out = .unit ∧ ms' = ms.set b Bag.empty
  | .setdefault b k v => match ms[b]? with
    | none => out = .noBag ∧ ms' = ms
    | some m => match m k.name with
      | some v => out = .value v ∧ ms' = ms
      | none => out = .value v ∧ ms' = ms.set b (m.with k.name v)
  | .update b items => match ms[b]? with
    | none => out = .noBag ∧ ms' = ms
    | some m => out = .unit ∧ ms' = ms.set b (m.assigned items)
  | .updateFrom b c => match ms[b]?, ms[c]? with
    | some m, some m' => out = .unit ∧ ms' = ms.set b (m.over m')
    | _, _ => out = .noBag ∧ ms' = ms
  | .union b c => match ms[b]?, ms[c]? with
    | some m, some m' => out = .bag ms.length ∧ ms' = ms ++ [m.over m']
    | _, _ => out = .noBag ∧ ms' = ms
  | .unionInto b c => match ms[b]?, ms[c]? with
    | some m, some m' => out = .unit ∧ ms' = ms.set b (m.over m')
    | _, _ => out = .noBag ∧ ms' = ms
  | .unionDict b items => match ms[b]? with
    | none => out = .noBag ∧ ms' = ms
    | some m => out = .unit ∧ ms' = ms.set b (m.assigned items)
  | .copy b => match ms[b]? with
    | none => out = .noBag ∧ ms' = ms
    | some m => out = .bag ms.length ∧ ms' = ms ++ [m]
  | .iter b => ms' = ms ∧ match ms[b]? with
    | none => out = .noBag
    | some m => ∃ ns, out = .keys (ns.map Key.str) ∧ m.Lists ns
  | .len b => ms' = ms ∧ match ms[b]? with
    | none => out = .noBag
    | some m => ∃ ns, out = .number ns.length ∧ m.Lists ns

/-- A history of maps. -/
inductive SpecRun : List (Bag V) → List (Op V) → List (Out V) → List (Bag V) → Prop where
  | nil (ms) : SpecRun ms [] [] ms
  | cons {ms op out ms' ops outs ms''} (h : Spec ms op out ms') (t : SpecRun ms' ops outs ms'') :
      SpecRun ms (op :: ops) (out :: outs) ms''

/-- The operation is not `|=` with a dict that has `PropertyKey`s. -/
def Op.Named : Op V → Prop
  | .unionDict _ items => ∀ e ∈ items, ∃ n, e.1 = .str n
  | _ => True

end

/-! ## Theorems -/

section
variable {V : Type}

/-- The map a dict stands for. -/
def den (d : Data V) : Bag V := fun n => d.get (.str n)

/-- The keys are strings, each once. -/
def Good (d : Data V) : Prop := (d.map Prod.fst).Nodup ∧ ∀ e ∈ d, ∃ n, e.1 = Key.str n

theorem good_keys (d : Data V) : Good d ↔ (d.map Prod.fst).Nodup ∧
    ∀ k ∈ d.map Prod.fst, ∃ n, k = Key.str n := by
  simp [Good]

theorem good_set (d : Data V) (n : Name) (v : V) (h : Good d) : Good (d.set (.str n) v) := by
  rw [good_keys] at h ⊢
  rw [keys_set]
  split
  · exact h
  · rename_i hany
    refine ⟨?_, ?_⟩
    · rw [List.nodup_append]
      refine ⟨h.1, by simp, ?_⟩
      intro a ha b hb hab
      rw [List.mem_singleton.1 hb] at hab
      obtain ⟨e, he, rfl⟩ := List.mem_map.1 ha
      exact hany (List.any_eq_true.2 ⟨e, he, by simp [hab]⟩)
    · intro k hk
      rcases List.mem_append.1 hk with hk | hk
      · exact h.2 k hk
      · exact ⟨n, List.mem_singleton.1 hk⟩

theorem den_set (d : Data V) (n : Name) (v : V) : den (d.set (.str n) v) = (den d).with n v := by
  funext x
  simp only [den, get_set, Bag.with, Key.str.injEq]

theorem good_del (d : Data V) (k : Key) (h : Good d) : Good (d.del k) := by
  refine ⟨?_, fun e he => h.2 e (List.mem_filter.1 he |>.1)⟩
  exact List.Nodup.sublist (List.filter_sublist.map _) h.1

theorem den_del (d : Data V) (n : Name) : den (d.del (.str n)) = (den d).without n := by
  funext x
  simp only [den, Dict.get, Dict.del, Bag.without, List.find?_filter]
  by_cases hx : x = n
  · rw [if_pos hx]
    subst hx
    have : (d.find? fun e => decide (e.1 ≠ Key.str x) && decide (e.1 = Key.str x)) = none := by
      rw [List.find?_eq_none]
      intro e _
      simp
    simpa using this
  · rw [if_neg hx]
    congr 2
    funext e
    by_cases he : e.1 = Key.str x
    · simp [he, hx]
    · simp [he]

theorem update_spec (items : List (Key × V)) : ∀ d : Data V, Good d →
    Good (update d items) ∧ den (update d items) = (den d).assigned items := by
  induction items with
  | nil => intro d h; exact ⟨h, rfl⟩
  | cons e items ih =>
    intro d h
    obtain ⟨h1, h2⟩ := ih (setItem d e.1 e.2) (good_set d _ _ h)
    refine ⟨h1, ?_⟩
    rw [show update d (e :: items) = update (setItem d e.1 e.2) items from rfl, h2]
    simp only [setItem, den_set, Bag.assigned, List.foldl_cons]

theorem merge_update (items : List (Key × V)) (hn : ∀ e ∈ items, ∃ n, e.1 = Key.str n) :
    ∀ d : Data V, merge d items = update d items := by
  induction items with
  | nil => intro d; rfl
  | cons e items ih =>
    intro d
    obtain ⟨n, hn'⟩ := hn e (by simp)
    rw [show merge d (e :: items) = merge (d.set e.1 e.2) items from rfl,
      show update d (e :: items) = update (setItem d e.1 e.2) items from rfl,
      ih (fun x hx => hn x (by simp [hx]))]
    simp [setItem, hn', Key.name]

theorem assigned_over (items : Data V) (hg : Good items) : ∀ m : Bag V,
    m.assigned items = m.over (den items) := by
  induction items with
  | nil => intro m; funext x; simp [Bag.assigned, Bag.over, den, Dict.get]
  | cons e items ih =>
    intro m
    obtain ⟨n, hn⟩ := hg.2 e (by simp)
    have hg2 := hg.1
    rw [List.map_cons, List.nodup_cons] at hg2
    have hg' : Good items := ⟨hg2.2, fun x hx => hg.2 x (by simp [hx])⟩
    rw [show m.assigned (e :: items) = (m.with e.1.name e.2).assigned items from rfl, ih hg']
    funext x
    simp only [Bag.over, Bag.with, den, Dict.get, List.find?_cons, hn, Key.name, Key.str.injEq]
    by_cases hx : n = x
    · subst hx
      have : items.find? (fun e => decide (e.1 = Key.str n)) = none := by
        rw [List.find?_eq_none]
        intro y hy he
        simp only [decide_eq_true_eq] at he
        exact hg2.1 (hn ▸ he ▸ List.mem_map_of_mem hy)
      simp [this]
    · have hx' : ¬x = n := fun h => hx h.symm
      simp [hx, hx']

theorem lists_keys (d : Data V) (h : Good d) :
    ∃ ns : List Name, d.map Prod.fst = ns.map Key.str ∧ (den d).Lists ns ∧ ns.length = d.length := by
  refine ⟨d.map fun e => e.1.name, ?_, ⟨?_, ?_⟩, by simp⟩
  · rw [List.map_map]
    apply List.map_congr_left
    intro e he
    obtain ⟨n, hn⟩ := h.2 e he
    simp [hn, Key.name]
  · have h1 : (d.map Prod.fst).map Key.name = d.map fun e => e.1.name := by rw [List.map_map]; rfl
    rw [← h1]
    refine List.Nodup.map_on ?_ h.1
    intro a ha b hb hab
    obtain ⟨e, he, rfl⟩ := List.mem_map.1 ha
    obtain ⟨f, hf, rfl⟩ := List.mem_map.1 hb
    obtain ⟨n, hn⟩ := h.2 e he
    obtain ⟨m, hm⟩ := h.2 f hf
    rw [hn, hm] at hab ⊢
    exact congrArg Key.str hab
  · intro n
    simp only [den, get_any, List.any_eq_true, List.mem_map]
    constructor
    · rintro ⟨e, he, rfl⟩
      obtain ⟨m, hm⟩ := h.2 e he
      exact ⟨e, he, by simp [hm, Key.name]⟩
    · rintro ⟨e, he, hk⟩
      exact ⟨e, he, by simp only [decide_eq_true_eq] at hk; simp [hk, Key.name]⟩

theorem den_nil : den ([] : Data V) = Bag.empty := rfl

theorem getElem?_den (s : List (Data V)) (b : Nat) : (s.map den)[b]? = (s[b]?).map den :=
  List.getElem?_map

theorem set_den (s : List (Data V)) (b : Nat) (d : Data V) :
    (s.set b d).map den = (s.map den).set b (den d) := List.map_set

theorem good_set_list {s : List (Data V)} (hs : ∀ d ∈ s, Good d) (b : Nat) (d : Data V) (hd : Good d) :
    ∀ x ∈ s.set b d, Good x := by
  intro x hx
  rcases List.mem_or_eq_of_mem_set hx with h | h
  · exact hs x h
  · rw [h]; exact hd

theorem good_append {s : List (Data V)} (hs : ∀ d ∈ s, Good d) (d : Data V) (hd : Good d) :
    ∀ x ∈ s ++ [d], Good x := by
  intro x hx
  rcases List.mem_append.1 hx with h | h
  · exact hs x h
  · rw [List.mem_singleton.1 h]; exact hd

theorem set_same {ms : List (Bag V)} {b : Nat} {m m' : Bag V} (h : ms[b]? = some m) (e : m' = m) :
    ms.set b m' = ms := by
  subst e
  obtain ⟨hb, rfl⟩ := List.getElem?_eq_some_iff.1 h
  exact List.set_getElem_self hb

theorem good_nil : Good ([] : Data V) := ⟨by simp, by simp⟩

theorem step_spec (s : List (Data V)) (hs : ∀ d ∈ s, Good d) (op : Op V) (hop : op.Named) :
    (∀ d ∈ (step s op).1, Good d) ∧ Spec (s.map den) op (step s op).2 ((step s op).1.map den) := by
  have mem : ∀ {b d}, s[b]? = some d → Good d := fun h => hs _ (List.mem_of_getElem? h)
  cases op with
  | new items =>
    obtain ⟨h1, h2⟩ := update_spec items [] good_nil
    refine ⟨good_append hs _ h1, ?_⟩
    simp [step, Spec, h2, den_nil]
  | get b k =>
    simp only [step, Spec, getElem?_den]
    cases h : s[b]? with
    | none => exact ⟨hs, rfl, rfl⟩
    | some d => exact ⟨hs, rfl, rfl⟩
  | getDefault b k =>
    simp only [step, Spec, getElem?_den]
    cases h : s[b]? with
    | none => exact ⟨hs, rfl, rfl⟩
    | some d => exact ⟨hs, rfl, rfl⟩
  | contains b k =>
    simp only [step, Spec, getElem?_den]
    cases h : s[b]? with
    | none => exact ⟨hs, rfl, rfl⟩
    | some d => exact ⟨hs, rfl, by simp only [Option.map_some, den, get_any]⟩
  | set b k v =>
    simp only [step, Spec, getElem?_den]
    cases h : s[b]? with
    | none => exact ⟨hs, rfl, rfl⟩
    | some d =>
      refine ⟨good_set_list hs b _ (good_set d _ _ (mem h)), rfl, ?_⟩
      simp only [set_den, setItem, den_set]
  | del b k =>
    simp only [step, Spec, getElem?_den]
    cases h : s[b]? with
    | none => exact ⟨hs, rfl, rfl⟩
    | some d =>
      simp only [Option.map_some, show den d k.name = getItem d k from rfl]
      cases hg : getItem d k with
      | none => exact ⟨hs, rfl, rfl⟩
      | some v =>
        refine ⟨good_set_list hs b _ (good_del d _ (mem h)), rfl, ?_⟩
        simp only [set_den, delItem, den_del]
  | pop b k =>
    simp only [step, Spec, getElem?_den]
    cases h : s[b]? with
    | none => exact ⟨hs, rfl, rfl⟩
    | some d =>
      simp only [Option.map_some, show den d k.name = getItem d k from rfl]
      cases hg : getItem d k with
      | none =>
        refine ⟨hs, rfl, ?_⟩
        refine (set_same (m := den d) (by rw [getElem?_den, h]; rfl) ?_).symm
        funext x
        simp only [Bag.without]
        split
        · rename_i hx; rw [hx]; exact hg.symm
        · rfl
      | some v =>
        refine ⟨good_set_list hs b _ (good_del d _ (mem h)), rfl, ?_⟩
        simp only [set_den, delItem, den_del]
  | popitem b =>
    simp only [step, Spec, getElem?_den]
    cases h : s[b]? with
    | none => exact ⟨hs, rfl, rfl⟩
    | some d =>
      have hd := mem h
      cases d with
      | nil => exact ⟨hs, Or.inl ⟨rfl, rfl, rfl⟩⟩
      | cons e d =>
        obtain ⟨k, v⟩ := e
        obtain ⟨n, hn⟩ := hd.2 (k, v) (by simp)
        simp only at hn
        subst hn
        have hg : getItem ((Key.str n, v) :: d) (Key.str n) = some v := by
          simp [getItem, Dict.get, Key.name]
        simp only [hg]
        refine ⟨good_set_list hs b _ (good_del _ _ hd), Or.inr ⟨n, v, hg, rfl, ?_⟩⟩
        simp only [set_den, delItem, den_del, Key.name]
  | clear b =>
    simp only [step, Spec, getElem?_den]
    cases h : s[b]? with
    | none => exact ⟨hs, rfl, rfl⟩
    | some d => exact ⟨good_set_list hs b _ good_nil, rfl, by simp only [set_den, den_nil]⟩
  | setdefault b k v =>
    simp only [step, Spec, getElem?_den]
    cases h : s[b]? with
    | none => exact ⟨hs, rfl, rfl⟩
    | some d =>
      simp only [Option.map_some, show den d k.name = getItem d k from rfl]
      cases hg : getItem d k with
      | some v => exact ⟨hs, rfl, rfl⟩
      | none =>
        refine ⟨good_set_list hs b _ (good_set d _ _ (mem h)), rfl, ?_⟩
        simp only [set_den, setItem, den_set]
  | update b items =>
    simp only [step, Spec, getElem?_den]
    cases h : s[b]? with
    | none => exact ⟨hs, rfl, rfl⟩
    | some d =>
      obtain ⟨h1, h2⟩ := update_spec items d (mem h)
      exact ⟨good_set_list hs b _ h1, rfl, by simp only [set_den, h2]⟩
  | updateFrom b c =>
    simp only [step, Spec, getElem?_den]
    cases h : s[b]? with
    | none => exact ⟨hs, rfl, rfl⟩
    | some d =>
      cases h' : s[c]? with
      | none => exact ⟨hs, rfl, rfl⟩
      | some e =>
        obtain ⟨h1, h2⟩ := update_spec e d (mem h)
        exact ⟨good_set_list hs b _ h1, rfl, by simp only [set_den, h2, assigned_over e (mem h')]⟩
  | union b c =>
    simp only [step, Spec, getElem?_den]
    cases h : s[b]? with
    | none => exact ⟨hs, rfl, rfl⟩
    | some d =>
      cases h' : s[c]? with
      | none => exact ⟨hs, rfl, rfl⟩
      | some e =>
        obtain ⟨h1, h2⟩ := update_spec e d (mem h)
        have hm := merge_update e (mem h').2 d
        rw [← hm] at h1 h2
        obtain ⟨h3, h4⟩ := update_spec (merge d e) [] good_nil
        refine ⟨good_append hs _ h3, by simp, ?_⟩
        simp only [List.map_append, List.map_cons, List.map_nil, h4, assigned_over _ h1, h2,
          assigned_over e (mem h'), den_nil]
        congr 2
        funext x
        simp [Bag.over, Bag.empty]
  | unionInto b c =>
    simp only [step, Spec, getElem?_den]
    cases h : s[b]? with
    | none => exact ⟨hs, rfl, rfl⟩
    | some d =>
      cases h' : s[c]? with
      | none => exact ⟨hs, rfl, rfl⟩
      | some e =>
        obtain ⟨h1, h2⟩ := update_spec e d (mem h)
        rw [← merge_update e (mem h').2 d] at h1 h2
        exact ⟨good_set_list hs b _ h1, rfl, by simp only [set_den, h2, assigned_over e (mem h')]⟩
  | unionDict b items =>
    simp only [step, Spec, getElem?_den]
    cases h : s[b]? with
    | none => exact ⟨hs, rfl, rfl⟩
    | some d =>
      obtain ⟨h1, h2⟩ := update_spec items d (mem h)
      rw [← merge_update items hop d] at h1 h2
      exact ⟨good_set_list hs b _ h1, rfl, by simp only [set_den, h2]⟩
  | copy b =>
    simp only [step, Spec, getElem?_den]
    cases h : s[b]? with
    | none => exact ⟨hs, rfl, rfl⟩
    | some d =>
      obtain ⟨h1, h2⟩ := update_spec d [] good_nil
      refine ⟨good_append hs _ h1, by simp, ?_⟩
      simp only [List.map_append, List.map_cons, List.map_nil, h2, assigned_over _ (mem h), den_nil]
      congr 2
      funext x
      simp [Bag.over, Bag.empty]
  | iter b =>
    simp only [step, Spec, getElem?_den]
    cases h : s[b]? with
    | none => exact ⟨hs, rfl, rfl⟩
    | some d =>
      obtain ⟨ns, h1, h2, _⟩ := lists_keys d (mem h)
      exact ⟨hs, rfl, ns, congrArg Out.keys h1, h2⟩
  | len b =>
    simp only [step, Spec, getElem?_den]
    cases h : s[b]? with
    | none => exact ⟨hs, rfl, rfl⟩
    | some d =>
      obtain ⟨ns, _, h2, h3⟩ := lists_keys d (mem h)
      exact ⟨hs, rfl, ns, by rw [h3], h2⟩

theorem run_spec (ops : List (Op V)) : ∀ s : List (Data V), (∀ d ∈ s, Good d) →
    (∀ op ∈ ops, op.Named) → SpecRun (s.map den) ops (run s ops).2 ((run s ops).1.map den) := by
  induction ops with
  | nil => intro s _ _; exact .nil _
  | cons op ops ih =>
    intro s hs hops
    obtain ⟨h1, h2⟩ := step_spec s hs op (hops op (by simp))
    exact .cons h2 (ih _ h1 fun x hx => hops x (by simp [hx]))

/-- Bags behave as maps from names to values, over every history of operations on any number of bags:
a `PropertyKey` and a string of the same name are the same key, and an operation changes no other bag
than the one it is called on, so that copies are independent.  Not covered is `|=` with a dict that has
`PropertyKey`s. -/
theorem C41_maps_partial (ops : List (Op V)) (h : ∀ op ∈ ops, op.Named) :
    ∃ ms, SpecRun [] ops (run [] ops).2 ms :=
  ⟨_, run_spec ops [] (by simp) h⟩

/-- With `|=` and a dict that has a `PropertyKey`, the value is stored but found neither under the key
nor under its name. -/
theorem C41_unionDict_fails : (run [] [.new [], .unionDict 0 [(.prop ['a'] 0, 1)],
      .getDefault 0 (.prop ['a'] 0), .getDefault 0 (.str ['a']), .len 0]).2 =
    [.bag 0, .unit, .optional (none : Option Nat), .optional none, .number 1] := by
  decide +kernel

/-- A string and a property key are the same key if and only if the names are equal. -/
theorem C41_same_key (a b : Key) : a.name = b.name ↔
    ∃ n, (a = .str n ∨ ∃ t, a = .prop n t) ∧ (b = .str n ∨ ∃ t, b = .prop n t) := by
  cases a <;> cases b <;> simp [Key.name, eq_comm]

/-! ## The hypotheses are met -/

/-- A copy, changes of the original and of the copy, and what is found afterwards. -/
example : (run [] [.new [(.prop ['a'] 0, 1)], .copy 0, .set 0 (.str ['a']) 2, .del 1 (.prop ['a'] 7),
      .get 0 (.prop ['a'] 3), .contains 1 (.str ['a']), .pop 0 (.str ['b'])]).2 =
    [.bag 0, .bag 1, .unit, .unit, .value 2, .bool false, .optional (none : Option Nat)] := by
  decide +kernel

end

end Verif.Schemas
