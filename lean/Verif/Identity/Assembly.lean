import Verif.Common
import Mathlib.Tactic.Common
import Mathlib.Data.List.Perm.Basic
import Mathlib.Data.List.Sort

/-!
# Assembly of the identity chain (C52)

Models `IdentityChain.create` with `_validate_providers`, `_sort_by_ordering` and
`_find_unclaimed_sources` (smithy_aws_core/identity/chain/__init__.py:63-139, 174-218), `ChainSetup`
(chain/provider.py:33-123) and the standard slots (chain/ordering.py).  What a provider does in `setup`
is arbitrary: it may look at and change the rest of the world, add resolvers, catch the exceptions
of `ChainSetup` or not, and raise.  Providers do not call `set_current_provider`, which is for the
assembly.  Discovery of the providers (lines 52-60) is not modelled: the list of them is arbitrary.
-/

set_option autoImplicit false

namespace Verif.Identity.Assembly

/-! ## Model -/

/-- `StandardProvider` (chain/ordering.py:10-24). -/
inductive Slot where
  | environment | webIdentityTokenEnv | sharedConfig | profileSessionKeys | profileStaticKeys
  | profileAssumeRole | profileWebIdentity | profileSsoSession | profileLogin
  | profileCredentialProcess | ecsContainer | ec2InstanceMetadata
  deriving DecidableEq, Repr

/-- The slots as iterating over `StandardProvider` gives them (ordering.py:13-24). -/
def slots : List Slot :=
  [.environment, .webIdentityTokenEnv, .sharedConfig, .profileSessionKeys, .profileStaticKeys,
    .profileAssumeRole, .profileWebIdentity, .profileSsoSession, .profileLogin,
    .profileCredentialProcess, .ecsContainer, .ec2InstanceMetadata]

/-- `slot_indexes[slot]` (chain/__init__.py:68). -/
def Slot.index (s : Slot) : Nat := slots.idxOf s

/-- `canonical_name` (ordering.py:13-24). -/
def Slot.canonicalName : Slot → String
  | .environment => "Environment"
  | .webIdentityTokenEnv => "WebIdentityTokenEnv"
  | .sharedConfig => "SharedConfig"
  | .profileSessionKeys => "ProfileSessionKeys"
  | .profileStaticKeys => "ProfileStaticKeys"
  | .profileAssumeRole => "ProfileAssumeRole"
  | .profileWebIdentity => "ProfileWebIdentity"
  | .profileSsoSession => "ProfileSsoSession"
  | .profileLogin => "Login"
  | .profileCredentialProcess => "ProfileCredentialProcess"
  | .ecsContainer => "EcsContainer"
  | .ec2InstanceMetadata => "Ec2InstanceMetadata"

/-- `module_suggestion` (ordering.py:13-24). -/
def Slot.package : Slot → Option String
  | .webIdentityTokenEnv => some "aws-credentials-sts"
  | .profileAssumeRole => some "aws-credentials-sts"
  | .profileWebIdentity => some "aws-credentials-sts"
  | .profileSsoSession => some "aws-credentials-sso"
  | .profileLogin => some "aws-credentials-login"
  | .ecsContainer => some "aws-credentials-http"
  | .ec2InstanceMetadata => some "aws-credentials-imds"
  | _ => none

/-- The surroundings: environment variables, and whether the config files exist. -/
structure Surroundings where
  env : String → Option String
  filesExist : Bool

/-- `bool(os.getenv(name))`. -/
def Surroundings.set (s : Surroundings) (name : String) : Bool := (s.env name).getD "" != ""

/-- `is_detected` (ordering.py:34-50). -/
def Slot.isDetected (s : Surroundings) : Slot → Bool
  | .environment => s.set "AWS_ACCESS_KEY_ID"
  | .webIdentityTokenEnv => s.set "AWS_WEB_IDENTITY_TOKEN_FILE" && s.set "AWS_ROLE_ARN"
  | .ecsContainer =>
    s.set "AWS_CONTAINER_CREDENTIALS_FULL_URI" || s.set "AWS_CONTAINER_CREDENTIALS_RELATIVE_URI"
  | .sharedConfig => s.filesExist
  | _ => false

/-- `Standard | Before | After` (ordering.py:53-75). -/
inductive Ordering where
  | standard (slot : Slot)
  | before (slot : Slot)
  | after (slot : Slot)
  deriving DecidableEq, Repr

def Ordering.slot : Ordering → Slot
  | .standard s => s
  | .before s => s
  | .after s => s

/-- `constraint_precedence` (chain/__init__.py:76-82). -/
def Ordering.precedence : Ordering → Nat
  | .before _ => 0
  | .standard _ => 1
  | .after _ => 2

/-- What a provider does in `setup`: it does something to the world, adds a resolver (`terminal` or not)
and goes on with `ok`, or with `refused` if that raised `RuntimeError`, ends, or raises. -/
inductive Prog (R W : Type) where
  | done
  | raise (e : String)
  | act (f : W → W) (next : W → Prog R W)
  | add (r : R) (terminal : Bool) (ok refused : Prog R W)

/-- A provider (chain/provider.py:126-145). -/
structure Provider (R W : Type) where
  name : String
  ordering : Ordering
  setup : Prog R W

variable {R W : Type}

/-- Lexicographic comparison of the keys of `sort_key` (chain/__init__.py:90): tuples of three numbers. -/
def keyLe (a b : Nat × Nat × Nat) : Bool :=
  a.1 < b.1 || (a.1 == b.1 && (a.2.1 < b.2.1 || (a.2.1 == b.2.1 && a.2.2 ≤ b.2.2)))

/-- `sort_key` (chain/__init__.py:70-90). -/
def sortKey (p : Provider R W × Nat) : Nat × Nat × Nat :=
  (p.1.ordering.slot.index, p.1.ordering.precedence, p.2)

/-- `_sort_by_ordering` (chain/__init__.py:63-94).  As all keys differ, every way of sorting gives the
same. -/
def sortByOrdering (ps : List (Provider R W)) : List (Provider R W) :=
  ((ps.zipIdx).insertionSort fun a b => keyLe (sortKey a) (sortKey b) = true).map Prod.fst

/-- `_validate_providers` (chain/__init__.py:97-117): the loop, with the names and slots seen. `false`
is `IdentityChainConfigurationError`. -/
def validate : List (Provider R W) → List String → List Slot → Bool
  | [], _, _ => true
  | p :: ps, names, claimed =>
    if names.contains p.name then false
    else
      match p.ordering with
      | .standard s => if claimed.contains s then false else validate ps (p.name :: names) (s :: claimed)
      | _ => validate ps (p.name :: names) claimed

/-- `_find_unclaimed_sources` (chain/__init__.py:120-139). -/
def unclaimed (s : Surroundings) (ps : List (Provider R W)) : List (String × String) :=
  let claimed := ps.filterMap fun p => match p.ordering with | .standard s => some s | _ => none
  slots.filterMap fun slot =>
    if claimed.contains slot || !slot.isDetected s then none
    else slot.package.map fun package => (slot.canonicalName, package)

/-- What happens while a chain is assembled: a provider is set up, a resolver is added. -/
inductive Happened (R : Type) where
  | setUp (name : String)
  | added (r : R) (terminal : Bool)
  deriving DecidableEq, Repr

/-- `ChainSetup` (chain/provider.py:36-54), with a record of what happened. -/
structure Setup (R W : Type) where
  world : W
  resolvers : List (String × R)
  current : Option String
  terminal : Bool
  happened : List (Happened R)

/-- `add_resolver` and `add_terminal_resolver` (chain/provider.py:107-123): `none` is `RuntimeError`. -/
def Setup.add (s : Setup R W) (r : R) (terminal : Bool) : Option (Setup R W) :=
  if s.terminal then none
  else
    match s.current with
    | none => none
    | some name =>
      some { s with
        resolvers := s.resolvers ++ [(name, r)]
        terminal := terminal || s.terminal
        happened := s.happened ++ [.added r terminal] }

/-- `set_current_provider` (chain/provider.py:91-95). -/
def Setup.setCurrent (s : Setup R W) (name : String) : Option (Setup R W) :=
  if s.terminal then none
  else some { s with current := some name, happened := s.happened ++ [.setUp name] }

/-- A provider's `setup`, with the exception it raises, if it does. -/
def Prog.run : Prog R W → Setup R W → Setup R W × Option String
  | .done, s => (s, none)
  | .raise e, s => (s, some e)
  | .act f next, s => (next s.world).run { s with world := f s.world }
  | .add r t ok refused, s =>
    match s.add r t with
    | some s' => ok.run s'
    | none => refused.run s

/-- The loop of `create` (chain/__init__.py:206-210). -/
def assemble : List (Provider R W) → Setup R W → Setup R W × Option String
  | [], s => (s, none)
  | p :: ps, s =>
    match s.setCurrent p.name with
    | none => (s, some "RuntimeError")
    | some s =>
      match p.setup.run s with
      | (s, some e) => (s, some e)
      | (s, none) => if s.terminal then (s, none) else assemble ps s

/-- What `create` gives. -/
inductive Created (R W : Type) where
  | configurationError
  | raised (e : String) (happened : List (Happened R))
  | chain (resolvers : List (String × R)) (unclaimed : List (String × String))
      (happened : List (Happened R)) (world : W)

/-- `IdentityChain.create` (chain/__init__.py:174-218), for the providers discovered. -/
def create (sur : Surroundings) (ps : List (Provider R W)) (w : W) : Created R W :=
  if validate ps [] [] then
    match assemble (sortByOrdering ps) ⟨w, [], none, false, []⟩ with
    | (s, none) => .chain s.resolvers (unclaimed sur ps) s.happened s.world
    | (s, some e) => .raised e s.happened
  else .configurationError

/-! ## Specification -/

/-- The precedence of the standard slots. -/
def rank : Slot → Nat
  | .environment => 0
  | .webIdentityTokenEnv => 1
  | .sharedConfig => 2
  | .profileSessionKeys => 3
  | .profileStaticKeys => 4
  | .profileAssumeRole => 5
  | .profileWebIdentity => 6
  | .profileSsoSession => 7
  | .profileLogin => 8
  | .profileCredentialProcess => 9
  | .ecsContainer => 10
  | .ec2InstanceMetadata => 11

/-- A number for every position: for each slot, just before it, at it, just after it. -/
def position : Ordering → Nat
  | .before s => 3 * rank s
  | .standard s => 3 * rank s + 1
  | .after s => 3 * rank s + 2

/-- The providers are listed by position, and those at the same position in the order in which they were
discovered. -/
def Ordered (discovered listed : List (Provider R W)) : Prop :=
  listed.Perm discovered ∧
  listed.Pairwise (fun p q => position p.ordering ≤ position q.ordering) ∧
  ∀ n, listed.filter (fun p => position p.ordering = n) = discovered.filter (fun p => position p.ordering = n)

/-- The slots claimed. -/
def standardSlots (ps : List (Provider R W)) : List Slot :=
  ps.filterMap fun p => match p.ordering with | .standard s => some s | _ => none

/-- The names of the providers set up. -/
def setUps (h : List (Happened R)) : List String :=
  h.filterMap fun e => match e with | .setUp n => some n | _ => none

/-- The resolvers added, each with the provider set up last before it. -/
def attributed : List (Happened R) → Option String → List (Option String × R)
  | [], _ => []
  | .setUp n :: es, _ => attributed es (some n)
  | .added r _ :: es, n => (n, r) :: attributed es n

/-- A terminal resolver is the last thing that happens. -/
def NothingAfterTerminal (h : List (Happened R)) : Prop :=
  ∀ a r b, h = a ++ .added r true :: b → b = []

/-! ## Theorems -/

theorem index_eq (s : Slot) : s.index = rank s := by cases s <;> decide

/-- **C52**: the slots are all the slots, each once, in the documented order. -/
theorem C52_slots : slots.Nodup ∧ (∀ s, s ∈ slots) ∧ slots.map rank = List.range 12 := by
  refine ⟨by decide, fun s => by cases s <;> decide, by decide⟩

theorem precedence_le (o : Ordering) : o.precedence ≤ 2 := by cases o <;> simp [Ordering.precedence]

theorem position_eq (o : Ordering) : position o = 3 * o.slot.index + o.precedence := by
  cases o <;> simp [position, Ordering.slot, Ordering.precedence, index_eq]

theorem keyLe_spec (a b : Nat × Nat × Nat) : keyLe a b = true ↔
    a.1 < b.1 ∨ (a.1 = b.1 ∧ (a.2.1 < b.2.1 ∨ (a.2.1 = b.2.1 ∧ a.2.2 ≤ b.2.2))) := by
  simp [keyLe]

theorem keyLe_iff (a b : Provider R W × Nat) : keyLe (sortKey a) (sortKey b) = true ↔
    position a.1.ordering < position b.1.ordering ∨
      (position a.1.ordering = position b.1.ordering ∧ a.2 ≤ b.2) := by
  have h1 := precedence_le a.1.ordering
  have h2 := precedence_le b.1.ordering
  rw [position_eq, position_eq]
  rw [keyLe_spec]
  simp only [sortKey]
  omega

/-- A sorted list of pairs restricted to one position is in order of index. -/
theorem sorted_filter (l : List (Provider R W × Nat)) (n : Nat)
    (h : l.Pairwise fun a b => keyLe (sortKey a) (sortKey b) = true) :
    (l.filter fun p => position p.1.ordering = n).Pairwise fun a b => a.2 ≤ b.2 := by
  have h2 := h.sublist (List.filter_sublist (p := fun p => decide (position p.1.ordering = n)))
  refine h2.imp_of_mem ?_
  intro a b ha hb hab
  have ha' : position a.1.ordering = n := by simpa using (List.mem_filter.1 ha).2
  have hb' : position b.1.ordering = n := by simpa using (List.mem_filter.1 hb).2
  rw [keyLe_iff] at hab
  omega

/-- Two lists of pairs, sorted by index with the same pairs and different indices, are the same. -/
theorem sorted_unique {A : Type} (l m : List (A × Nat)) (hp : l.Perm m)
    (hl : l.Pairwise fun a b => a.2 ≤ b.2) (hm : m.Pairwise fun a b => a.2 ≤ b.2)
    (hn : ∀ a ∈ l, ∀ b ∈ l, a.2 = b.2 → a = b) : l = m := by
  induction l generalizing m with
  | nil => exact (List.Perm.nil_eq hp)
  | cons a l ih =>
    cases m with
    | nil => simp at hp
    | cons b m =>
      have hb : b ∈ a :: l := hp.symm.subset (by simp)
      have ha : a ∈ b :: m := hp.subset (by simp)
      have hab : a = b := by
        rcases List.mem_cons.1 hb with h | h
        · exact h.symm
        · rcases List.mem_cons.1 ha with h' | h'
          · exact h'
          · have h1 := (List.pairwise_cons.1 hl).1 b h
            have h2 := (List.pairwise_cons.1 hm).1 a h'
            exact hn a (by simp) b (by simp [h]) (by omega)
      subst hab
      rw [ih m (List.Perm.cons_inv hp) (List.pairwise_cons.1 hl).2 (List.pairwise_cons.1 hm).2
        fun x hx y hy => hn x (by simp [hx]) y (by simp [hy])]

theorem zipIdx_sorted {A : Type} (l : List A) (k : Nat) :
    (l.zipIdx k).Pairwise (fun a b => a.2 ≤ b.2) ∧ (∀ a ∈ l.zipIdx k, k ≤ a.2) ∧
      ∀ a ∈ l.zipIdx k, ∀ b ∈ l.zipIdx k, a.2 = b.2 → a = b := by
  induction l generalizing k with
  | nil => simp
  | cons x l ih =>
    obtain ⟨h1, h2, h3⟩ := ih (k + 1)
    rw [List.zipIdx_cons]
    refine ⟨List.pairwise_cons.2 ⟨fun a ha => ?_, h1⟩, fun a ha => ?_, fun a ha b hb hab => ?_⟩
    · have := h2 a ha; simp only; omega
    · rcases List.mem_cons.1 ha with rfl | ha
      · exact Nat.le_refl _
      · have := h2 a ha; omega
    · rcases List.mem_cons.1 ha with rfl | ha <;> rcases List.mem_cons.1 hb with rfl | hb
      · rfl
      · have := h2 b hb; simp only at hab; omega
      · have := h2 a ha; simp only at hab; omega
      · exact h3 a ha b hb hab

theorem filter_map_fst {A : Type} (l : List (A × Nat)) (f : A → Bool) :
    (l.map Prod.fst).filter f = (l.filter fun p => f p.1).map Prod.fst := by
  induction l with
  | nil => rfl
  | cons a l ih => by_cases h : f a.1 = true <;> simp [h, ih]

theorem zipIdx_map_fst {A : Type} (l : List A) (k : Nat) : (l.zipIdx k).map Prod.fst = l := by
  induction l generalizing k with
  | nil => rfl
  | cons a l ih => rw [List.zipIdx_cons]; simp [ih]

/-- **C52**: the providers are set up in the order of their positions, those at the same position in
the order of discovery. -/
theorem C52_order (ps : List (Provider R W)) : Ordered ps (sortByOrdering ps) := by
  unfold sortByOrdering
  have hperm := List.perm_insertionSort (fun a b => keyLe (sortKey a) (sortKey b) = true) (ps.zipIdx)
  have hsort : ((ps.zipIdx).insertionSort fun a b => keyLe (sortKey a) (sortKey b) = true).Pairwise
      fun a b => keyLe (sortKey a) (sortKey b) = true :=
    haveI : IsTrans (Provider R W × Nat) fun a b => keyLe (sortKey a) (sortKey b) = true :=
      ⟨fun a b c h1 h2 => by rw [keyLe_iff] at *; omega⟩
    haveI : Std.Total fun a b : Provider R W × Nat => keyLe (sortKey a) (sortKey b) = true :=
      ⟨fun a b => by simp only [keyLe_iff]; omega⟩
    List.pairwise_insertionSort _ _
  refine ⟨?_, ?_, fun n => ?_⟩
  · have := hperm.map Prod.fst
    rwa [zipIdx_map_fst] at this
  · rw [List.pairwise_map]
    refine hsort.imp fun h => ?_
    rw [keyLe_iff] at h
    omega
  · rw [filter_map_fst]
    conv => rhs; rw [← zipIdx_map_fst ps 0, filter_map_fst]
    obtain ⟨h1, -, h3⟩ := zipIdx_sorted ps 0
    rw [sorted_unique _ _ (hperm.filter _) (sorted_filter _ n hsort)
      (h1.sublist List.filter_sublist) fun a ha b hb =>
        h3 a (hperm.subset (List.mem_filter.1 ha).1) b (hperm.subset (List.mem_filter.1 hb).1)]

/-- Lists sorted by position that have the same providers at every position are the same. -/
theorem ordered_unique (l m : List (Provider R W))
    (hl : l.Pairwise fun p q => position p.ordering ≤ position q.ordering)
    (hm : m.Pairwise fun p q => position p.ordering ≤ position q.ordering)
    (hf : ∀ n, l.filter (fun p => position p.ordering = n) = m.filter (fun p => position p.ordering = n)) :
    l = m := by
  induction l generalizing m with
  | nil =>
    cases m with
    | nil => rfl
    | cons q m => have := hf (position q.ordering); simp at this
  | cons p l ih =>
    cases m with
    | nil => have := hf (position p.ordering); simp at this
    | cons q m =>
      have hpq : position p.ordering = position q.ordering := by
        have h1 : p ∈ (q :: m).filter (fun x => position x.ordering = position p.ordering) := by
          rw [← hf]; simp
        have h2 : q ∈ (p :: l).filter (fun x => position x.ordering = position q.ordering) := by
          rw [hf]; simp
        have h1 := (List.mem_filter.1 h1).1
        have h2 := (List.mem_filter.1 h2).1
        rcases List.mem_cons.1 h1 with rfl | h1
        · rfl
        · rcases List.mem_cons.1 h2 with rfl | h2
          · rfl
          · have := (List.pairwise_cons.1 hl).1 q h2
            have := (List.pairwise_cons.1 hm).1 p h1
            omega
      have h0 := hf (position p.ordering)
      rw [List.filter_cons_of_pos (by simp), List.filter_cons_of_pos (by simp [hpq])] at h0
      obtain ⟨rfl, h01⟩ := List.cons.inj h0
      rw [ih m (List.pairwise_cons.1 hl).2 (List.pairwise_cons.1 hm).2 ?_]
      intro n
      by_cases hn : position p.ordering = n
      · rw [← hn]; exact h01
      · have := hf n
        rwa [List.filter_cons_of_neg (by simpa using hn), List.filter_cons_of_neg (by simpa using hn)]
          at this

/-- The order is the only one there is. -/
theorem C52_order_unique (ps l : List (Provider R W)) (h : Ordered ps l) : l = sortByOrdering ps := by
  obtain ⟨-, h1, h2⟩ := h
  obtain ⟨-, h3, h4⟩ := C52_order ps
  exact ordered_unique l _ h1 h3 fun n => by rw [h2, h4]

/-- **C52**: if no two providers are at the same position, the order does not depend on the order of
discovery. -/
theorem C52_discovery_order (ps qs : List (Provider R W)) (hp : ps.Perm qs)
    (hd : (ps.map fun p => position p.ordering).Nodup) : sortByOrdering ps = sortByOrdering qs := by
  refine C52_order_unique qs _ ?_
  obtain ⟨h1, h2, h3⟩ := C52_order ps
  refine ⟨h1.trans hp, h2, fun n => ?_⟩
  rw [h3]
  have hlen : (ps.filter fun p => position p.ordering = n).length ≤ 1 := by
    clear hp h1 h2 h3
    induction ps with
    | nil => simp
    | cons p ps ih =>
      obtain ⟨hd1, hd2⟩ := List.nodup_cons.1 hd
      by_cases hn : position p.ordering = n
      · rw [List.filter_cons_of_pos (by simpa using hn)]
        have : ps.filter (fun p => position p.ordering = n) = [] := by
          rw [List.filter_eq_nil_iff]
          intro q hq hqn
          simp only [decide_eq_true_eq] at hqn
          exact hd1 (List.mem_map.2 ⟨q, hq, hqn.trans hn.symm⟩)
        rw [this]; simp
      · rw [List.filter_cons_of_neg (by simpa using hn)]
        exact ih hd2
  have hperm := hp.filter fun p => decide (position p.ordering = n)
  match h : ps.filter fun p => decide (position p.ordering = n) with
  | [] => rw [h] at hperm; rw [h]; exact (List.Perm.nil_eq hperm)
  | [a] => rw [h] at hperm; rw [h]; exact (List.perm_singleton.1 hperm.symm).symm
  | a :: b :: l => rw [h] at hlen; simp at hlen

theorem validate_iff (ps : List (Provider R W)) (names : List String) (claimed : List Slot) :
    validate ps names claimed = true ↔
      ((ps.map Provider.name).Nodup ∧ ∀ n ∈ ps.map Provider.name, n ∉ names) ∧
      (standardSlots ps).Nodup ∧ ∀ s ∈ standardSlots ps, s ∉ claimed := by
  induction ps generalizing names claimed with
  | nil => simp [validate, standardSlots]
  | cons p ps ih =>
    have hcons : ∀ n, (n ∈ (ps.map Provider.name) → n ∉ p.name :: names) ↔
        (n ∈ ps.map Provider.name → n ≠ p.name ∧ n ∉ names) := fun n => by simp
    by_cases hn : p.name ∈ names
    · have : validate (p :: ps) names claimed = false := by simp [validate, hn]
      rw [this]
      simp [hn]
    · cases ho : p.ordering with
      | standard s =>
        have hst : standardSlots (p :: ps) = s :: standardSlots ps := by simp [standardSlots, ho]
        rw [hst]
        by_cases hs : s ∈ claimed
        · have : validate (p :: ps) names claimed = false := by simp [validate, hn, ho, hs]
          rw [this]
          simp [hs]
        · have : validate (p :: ps) names claimed = validate ps (p.name :: names) (s :: claimed) := by
            simp [validate, hn, ho, hs]
          rw [this, ih]
          simp only [List.map_cons, List.nodup_cons, List.mem_cons, not_or, forall_eq_or_imp]
          constructor
          · rintro ⟨⟨h1, h2⟩, h3, h4⟩
            exact ⟨⟨⟨fun h => (h2 _ h).1 rfl, h1⟩, hn, fun n h => (h2 n h).2⟩,
              ⟨fun h => (h4 _ h).1 rfl, h3⟩, hs, fun n h => (h4 n h).2⟩
          · rintro ⟨⟨⟨h1, h2⟩, -, h3⟩, ⟨h4, h5⟩, -, h6⟩
            exact ⟨⟨h2, fun n h => ⟨fun e => h1 (e ▸ h), h3 n h⟩⟩, h5,
              fun n h => ⟨fun e => h4 (e ▸ h), h6 n h⟩⟩
      | before s =>
        have hst : standardSlots (p :: ps) = standardSlots ps := by simp [standardSlots, ho]
        have : validate (p :: ps) names claimed = validate ps (p.name :: names) claimed := by
          simp [validate, hn, ho]
        rw [this, ih, hst]
        simp only [List.map_cons, List.nodup_cons, List.mem_cons, not_or, forall_eq_or_imp]
        constructor
        · rintro ⟨⟨h1, h2⟩, h3⟩
          exact ⟨⟨⟨fun h => (h2 _ h).1 rfl, h1⟩, hn, fun n h => (h2 n h).2⟩, h3⟩
        · rintro ⟨⟨⟨h1, h2⟩, -, h3⟩, h4⟩
          exact ⟨⟨h2, fun n h => ⟨fun e => h1 (e ▸ h), h3 n h⟩⟩, h4⟩
      | after s =>
        have hst : standardSlots (p :: ps) = standardSlots ps := by simp [standardSlots, ho]
        have : validate (p :: ps) names claimed = validate ps (p.name :: names) claimed := by
          simp [validate, hn, ho]
        rw [this, ih, hst]
        simp only [List.map_cons, List.nodup_cons, List.mem_cons, not_or, forall_eq_or_imp]
        constructor
        · rintro ⟨⟨h1, h2⟩, h3⟩
          exact ⟨⟨⟨fun h => (h2 _ h).1 rfl, h1⟩, hn, fun n h => (h2 n h).2⟩, h3⟩
        · rintro ⟨⟨⟨h1, h2⟩, -, h3⟩, h4⟩
          exact ⟨⟨h2, fun n h => ⟨fun e => h1 (e ▸ h), h3 n h⟩⟩, h4⟩

/-- **C52**: the providers are refused, before any of them is set up, exactly if two have the same name
or two claim the same standard slot. -/
theorem C52_duplicates (sur : Surroundings) (ps : List (Provider R W)) (w : W) :
    create sur ps w = .configurationError ↔
      ¬ ((ps.map Provider.name).Nodup ∧ (standardSlots ps).Nodup) := by
  have h := validate_iff ps [] []
  simp only [List.not_mem_nil, not_false_eq_true, implies_true, and_true] at h
  unfold create
  by_cases hv : validate ps [] [] = true
  · rw [if_pos hv]
    constructor
    · intro hc; split at hc <;> cases hc
    · intro hc; exact absurd (h.1 hv) hc
  · rw [if_neg hv]
    exact ⟨fun _ hc => hv (h.2 hc), fun _ => rfl⟩

/-- What holds at every moment of an assembly. -/
structure Inv (s : Setup R W) : Prop where
  nothing : NothingAfterTerminal s.happened
  open' : s.terminal = false → ∀ r, Happened.added r true ∉ s.happened
  named : (attributed s.happened none) = s.resolvers.map fun p => (some p.1, p.2)
  last : s.current = (setUps s.happened).getLast?
  closed : s.terminal = true → ∃ r, s.happened.getLast? = some (.added r true)

theorem attributed_append (a b : List (Happened R)) (n : Option String) :
    attributed (a ++ b) n = attributed a n ++ attributed b (((setUps a).getLast?).or n) := by
  induction a generalizing n with
  | nil => simp [attributed, setUps]
  | cons e a ih =>
    cases e with
    | setUp m =>
      simp only [List.cons_append, attributed, ih]
      simp only [setUps, List.filterMap_cons]
      rw [List.getLast?_cons]
      cases (List.filterMap _ a).getLast? <;> rfl
    | added r t => simp [attributed, ih, setUps]

theorem add_inv (s s' : Setup R W) (r : R) (t : Bool) (hi : Inv s) (h : s.add r t = some s') :
    Inv s' ∧ s'.happened = s.happened ++ [.added r t] := by
  unfold Setup.add at h
  split at h
  · cases h
  · next ht =>
    have ht : s.terminal = false := by simpa using ht
    split at h
    · cases h
    · next name hc =>
      cases h
      refine ⟨⟨?_, ?_, ?_, ?_, ?_⟩, rfl⟩
      · intro a x b hab
        rcases List.eq_nil_or_concat b with rfl | ⟨b', e', rfl⟩
        · rfl
        · have : s.happened = a ++ .added x true :: b' := by
            have h' : s.happened ++ [.added r t] = (a ++ .added x true :: b') ++ [e'] := by simpa using hab
            exact (List.append_inj' h' rfl).1
          exact absurd (by rw [this]; simp) (hi.open' ht x)
      · intro ht' x hx
        rcases List.mem_append.1 hx with hx | hx
        · exact hi.open' ht x hx
        · simp only [List.mem_singleton, Happened.added.injEq] at hx
          simp [← hx.2] at ht'
      · simp only [attributed_append, hi.named, Option.or_none, ← hi.last, hc]
        simp [attributed]
      · simp only [setUps, List.filterMap_append]
        simpa [setUps] using hi.last
      · intro ht'
        simp only [ht, Bool.or_false] at ht'
        exact ⟨r, by simp [ht']⟩

theorem run_inv (p : Prog R W) (s : Setup R W) (hi : Inv s) :
    Inv (p.run s).1 ∧ setUps (p.run s).1.happened = setUps s.happened := by
  induction p generalizing s with
  | done => exact ⟨hi, rfl⟩
  | raise e => exact ⟨hi, rfl⟩
  | act f next ih =>
    simp only [Prog.run]
    exact ih s.world { s with world := f s.world } ⟨hi.nothing, hi.open', hi.named, hi.last, hi.closed⟩
  | add r t ok refused ih1 ih2 =>
    simp only [Prog.run]
    split
    · next s' h =>
      obtain ⟨h1, h2⟩ := add_inv s s' r t hi h
      obtain ⟨h3, h4⟩ := ih1 s' h1
      refine ⟨h3, ?_⟩
      rw [h4, h2]
      simp [setUps]
    · exact ih2 s hi

theorem setCurrent_inv (s s' : Setup R W) (n : String) (hi : Inv s) (h : s.setCurrent n = some s') :
    Inv s' ∧ setUps s'.happened = setUps s.happened ++ [n] := by
  unfold Setup.setCurrent at h
  split at h
  · cases h
  · next ht =>
    have ht : s.terminal = false := by simpa using ht
    cases h
    refine ⟨⟨?_, ?_, ?_, ?_, ?_⟩, by simp [setUps]⟩
    · intro a x b hab
      rcases List.eq_nil_or_concat b with rfl | ⟨b', e', rfl⟩
      · rfl
      · have : s.happened = a ++ .added x true :: b' := by
          have h' : s.happened ++ [.setUp n] = (a ++ .added x true :: b') ++ [e'] := by simpa using hab
          exact (List.append_inj' h' rfl).1
        exact absurd (by rw [this]; simp) (hi.open' ht x)
    · intro _ x hx
      rcases List.mem_append.1 hx with hx | hx
      · exact hi.open' ht x hx
      · simp at hx
    · simp only [attributed_append, hi.named]
      simp [attributed]
    · simp [setUps]
    · intro ht'; simp only at ht'; rw [ht] at ht'; cases ht'

theorem assemble_inv (ps : List (Provider R W)) (s : Setup R W) (hi : Inv s) (ht : s.terminal = false) :
    Inv (assemble ps s).1 ∧
    (∃ ran rest, ps.map Provider.name = ran ++ rest ∧
      setUps (assemble ps s).1.happened = setUps s.happened ++ ran ∧
      ((assemble ps s).2 = none → (assemble ps s).1.terminal = false → rest = [])) ∧
    (∀ e, (assemble ps s).2 = some e → ∃ p ∈ ps, ∃ s', (p.setup.run s').2 = some e) := by
  induction ps generalizing s with
  | nil => exact ⟨hi, ⟨[], [], by simp, by simp [assemble], fun _ _ => rfl⟩, fun e h => by cases h⟩
  | cons p ps ih =>
    cases hs : s.setCurrent p.name with
    | none => simp [Setup.setCurrent, ht] at hs
    | some s1 =>
      obtain ⟨h1, h2⟩ := setCurrent_inv s s1 p.name hi hs
      obtain ⟨h3, h4⟩ := run_inv p.setup s1 h1
      cases hr : p.setup.run s1 with
      | mk s2 e =>
        rw [hr] at h3 h4
        simp only at h3 h4
        cases e with
        | some e =>
          have : assemble (p :: ps) s = (s2, some e) := by simp [assemble, hs, hr]
          rw [this]
          exact ⟨h3, ⟨[p.name], ps.map Provider.name, by simp, by simp [h4, h2], fun h => by cases h⟩,
            fun e' h => ⟨p, by simp, s1, by rw [hr]; exact h⟩⟩
        | none =>
          by_cases ht2 : s2.terminal = true
          · have : assemble (p :: ps) s = (s2, none) := by simp [assemble, hs, hr, ht2]
            rw [this]
            exact ⟨h3, ⟨[p.name], ps.map Provider.name, by simp, by simp [h4, h2],
              fun _ h => by simp only at h; rw [ht2] at h; cases h⟩, fun e h => by cases h⟩
          · have ht2 : s2.terminal = false := by simpa using ht2
            have : assemble (p :: ps) s = assemble ps s2 := by simp [assemble, hs, hr, ht2]
            rw [this]
            obtain ⟨h5, ⟨ran, rest, h6, h7, h8⟩, h9⟩ := ih s2 h3 ht2
            refine ⟨h5, ⟨p.name :: ran, rest, by simp [h6], by simp [h7, h4, h2], h8⟩, fun e he => ?_⟩
            obtain ⟨q, hq, x⟩ := h9 e he
            exact ⟨q, by simp [hq], x⟩

theorem inv_empty (w : W) : Inv (⟨w, [], none, false, []⟩ : Setup R W) :=
  ⟨fun a r b h => by simp at h, fun _ r => by simp, rfl, rfl, fun h => by cases h⟩

/-- **C52**: a chain has the resolvers that were added, in the order in which they were added, each under
the name of the provider that added it; the providers are set up in order, and all of them are unless one
added a terminal resolver; and nothing happens after a terminal resolver was added, so that it is the last
one of the chain. -/
theorem C52_assembled (sur : Surroundings) (ps : List (Provider R W)) (w w' : W)
    (resolvers : List (String × R)) (sources : List (String × String)) (h : List (Happened R))
    (hc : create sur ps w = .chain resolvers sources h w') :
    attributed h none = resolvers.map (fun p => (some p.1, p.2)) ∧
    NothingAfterTerminal h ∧
    ∃ ran rest, (sortByOrdering ps).map Provider.name = ran ++ rest ∧ setUps h = ran ∧
      (rest = [] ∨ ∃ r, h.getLast? = some (.added r true)) := by
  unfold create at hc
  split at hc
  · obtain ⟨h1, ⟨ran, rest, h2, h3, h4⟩, -⟩ :=
      assemble_inv (sortByOrdering ps) ⟨w, [], none, false, []⟩ (inv_empty w) rfl
    split at hc
    · next s hs =>
      cases hc
      rw [hs] at h1 h3 h4
      refine ⟨h1.named, h1.nothing, ran, rest, h2, by simpa [setUps] using h3, ?_⟩
      cases ht : s.terminal with
      | false => exact .inl (h4 rfl ht)
      | true => exact .inr (h1.closed ht)
    · cases hc
  · cases hc

/-- **C52**: assembly raises only what the `setup` of a provider raises, and then too nothing happened
after a terminal resolver. -/
theorem C52_raised (sur : Surroundings) (ps : List (Provider R W)) (w : W) (e : String)
    (h : List (Happened R)) (hc : create sur ps w = .raised e h) :
    NothingAfterTerminal h ∧ ∃ p ∈ ps, ∃ s, (p.setup.run s).2 = some e := by
  unfold create at hc
  split at hc
  · obtain ⟨h1, -, h9⟩ := assemble_inv (sortByOrdering ps) ⟨w, [], none, false, []⟩ (inv_empty w) rfl
    split at hc
    · cases hc
    · next s e' hs =>
      cases hc
      rw [hs] at h1 h9
      obtain ⟨p, hp, x⟩ := h9 e rfl
      exact ⟨h1.nothing, p, (C52_order ps).1.subset hp, x⟩
  · cases hc

/-- The variable is there and is not empty. -/
def Surroundings.Has (s : Surroundings) (name : String) : Prop := ∃ v, s.env name = some v ∧ v ≠ ""

theorem set_iff (s : Surroundings) (name : String) : s.set name = true ↔ s.Has name := by
  unfold Surroundings.set Surroundings.Has
  cases s.env name <;> simp

/-- **C52**: the sources reported as not handled are web identity tokens and containers, if the
environment tells of them and no provider claims their slot. -/
theorem C52_unclaimed (sur : Surroundings) (ps : List (Provider R W)) (name package : String) :
    (name, package) ∈ unclaimed sur ps ↔
      (name = "WebIdentityTokenEnv" ∧ package = "aws-credentials-sts" ∧
        (sur.Has "AWS_WEB_IDENTITY_TOKEN_FILE" ∧ sur.Has "AWS_ROLE_ARN") ∧
        ∀ p ∈ ps, p.ordering ≠ .standard .webIdentityTokenEnv) ∨
      (name = "EcsContainer" ∧ package = "aws-credentials-http" ∧
        (sur.Has "AWS_CONTAINER_CREDENTIALS_FULL_URI" ∨
          sur.Has "AWS_CONTAINER_CREDENTIALS_RELATIVE_URI") ∧
        ∀ p ∈ ps, p.ordering ≠ .standard .ecsContainer) := by
  have hcl : ∀ slot, (ps.filterMap fun p => match p.ordering with | .standard s => some s | _ => none).contains
      slot = false ↔ ∀ p ∈ ps, p.ordering ≠ .standard slot := by
    intro slot
    rw [← Bool.not_eq_true, List.contains_iff_mem, List.mem_filterMap]
    constructor
    · intro h p hp he
      exact h ⟨p, hp, by rw [he]⟩
    · rintro h ⟨p, hp, he⟩
      cases ho : p.ordering with
      | standard s => rw [ho] at he; cases he; exact h p hp ho
      | before s => rw [ho] at he; cases he
      | after s => rw [ho] at he; cases he
  unfold unclaimed
  simp only
  rw [List.mem_filterMap]
  have hw := hcl .webIdentityTokenEnv
  have he := hcl .ecsContainer
  rw [← set_iff, ← set_iff, ← set_iff, ← set_iff, ← hw, ← he]
  constructor
  · rintro ⟨slot, -, h⟩
    split at h
    · cases h
    · next hcond =>
      simp only [Bool.or_eq_true, Bool.not_eq_true', not_or, Bool.not_eq_true, Bool.not_eq_false] at hcond
      cases slot <;> simp only [Slot.package, Option.map_none, Option.map_some, reduceCtorEq] at h
      · cases h
        exact .inl ⟨rfl, rfl, by simpa [Slot.isDetected] using hcond.2, hcond.1⟩
      · exact absurd hcond.2 (by simp [Slot.isDetected])
      · exact absurd hcond.2 (by simp [Slot.isDetected])
      · exact absurd hcond.2 (by simp [Slot.isDetected])
      · exact absurd hcond.2 (by simp [Slot.isDetected])
      · cases h
        exact .inr ⟨rfl, rfl, by simpa [Slot.isDetected] using hcond.2, hcond.1⟩
      · exact absurd hcond.2 (by simp [Slot.isDetected])
  · rintro (⟨rfl, rfl, h1, h2⟩ | ⟨rfl, rfl, h1, h2⟩)
    · refine ⟨.webIdentityTokenEnv, C52_slots.2.1 _, ?_⟩
      rw [if_neg]
      · rfl
      · rw [h2]; simp only [Slot.isDetected, h1.1, h1.2]; simp
    · refine ⟨.ecsContainer, C52_slots.2.1 _, ?_⟩
      rw [if_neg]
      · rfl
      · rw [h2]
        have : Slot.isDetected sur .ecsContainer = true := by
          simp only [Slot.isDetected, Bool.or_eq_true]; exact h1
        rw [this]; simp

/-! ## The hypotheses are met -/

/-- A provider that adds a resolver, and a terminal one if the world is odd, and tries to go on. -/
def demo (n : String) (o : Ordering) (r : Nat) : Provider Nat Nat :=
  ⟨n, o, .add r false (.act (· + 1) fun w => if w % 2 = 1 then
    .add (r + 1) true (.add (r + 2) false .done .done) .done else .done) .done⟩

def isChain (c : Created Nat Nat) (rs : List (String × Nat)) (h : List (Happened Nat)) : Bool :=
  match c with
  | .chain resolvers _ happened _ => resolvers == rs && happened == h
  | _ => false

example : isChain (create ⟨fun _ => none, false⟩
    [demo "c" (.standard .ecsContainer) 30, demo "b" (.after .environment) 20,
      demo "a" (.standard .environment) 10] 0) [("a", 10), ("b", 20), ("b", 21)]
    [.setUp "a", .added 10 false, .setUp "b", .added 20 false, .added 21 true] = true := by decide +kernel

example : ((sortByOrdering [demo "c" (.before .ecsContainer) 30, demo "d" (.before .ecsContainer) 30,
    demo "b" (.after .environment) 20]).map Provider.name) = ["b", "c", "d"] := by decide +kernel

end Verif.Identity.Assembly
