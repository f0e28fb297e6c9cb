import Verif.Identity.Assembly
import Verif.Identity.Chain
import Verif.AwsConfig.Profiles

/-!
# The credentials a user gets by default (C99)

Models the providers that come with smithy_aws_core (identity/chain/providers/environment.py, shared_config.py and
profile.py), the resolvers they add (identity/environment.py, static.py with a fixed identity), and composes them with the
assembly of the chain (`Verif.Identity.Assembly`), its resolution (`Verif.Identity.Chain`) and the configuration files
(`Verif.AwsConfig`).

Simplifications: what the files have is given, as in `Verif.AwsConfig.load`; the
environment does not change while the chain is assembled (it may change before credentials are resolved).
-/

set_option autoImplicit false

namespace Verif.Identity.Default

open Verif.Identity.Assembly Verif.Text
open Verif.AwsConfig hiding assemble

/-! ## Model -/

/-- `AWSCredentialsIdentity` (components.py:11-31); the expiration is never set here. -/
structure Credentials where
  accessKey : Text
  secretKey : Text
  token : Option Text
  account : Option Text
  deriving DecidableEq, Repr

/-- The resolvers that are added: `EnvironmentCredentialsResolver` and `StaticCredentialsResolver` with an identity. -/
inductive Resolver where
  | environment
  | fixed (c : Credentials)
  deriving DecidableEq, Repr

/-- What `ChainSetup` holds besides the resolvers (chain/provider.py:45-46). -/
structure World where
  configFile : Option Std
  profileName : Option Text
  deriving DecidableEq, Repr

/-- The environment. -/
abbrev Env := String → Option String

/-- `os.getenv`. -/
def getenv (env : Env) (name : String) : Option Text := (env name).map String.toList

/-- `not value`. -/
def falsy : Option Text → Bool
  | none => true
  | some t => t.isEmpty

/-- `EnvironmentCredentialsProvider` (providers/environment.py:16-41); `aws` says whether AWS credentials are asked for. -/
def environmentProvider (aws : Bool) (env : Env) : Provider Resolver World where
  name := Slot.environment.canonicalName
  ordering := .standard .environment
  setup :=
    if !aws then .done
    else if falsy (getenv env "AWS_ACCESS_KEY_ID") || falsy (getenv env "AWS_SECRET_ACCESS_KEY") then .done
    else .add .environment true .done (.raise "RuntimeError")

/-- `setup.profile_name or os.getenv("AWS_PROFILE") or "default"` (providers/shared_config.py:36). -/
def chosenProfile (env : Env) (given : Option Text) : Text :=
  if falsy given = false then given.getD []
  else if falsy (getenv env "AWS_PROFILE") = false then (getenv env "AWS_PROFILE").getD []
  else "default".toList

/-- The exceptions of `load_config`, as `Verif.AwsConfig` tells them apart. -/
def fault : Err → String
  | .parse => "ConfigParseError"
  | .crash => "crash"

/-- `SharedConfigProvider` (providers/shared_config.py:13-37); `files` is what `load_config` gives. -/
def sharedConfigProvider (aws : Bool) (env : Env) (files : Except Err Std) : Provider Resolver World where
  name := Slot.sharedConfig.canonicalName
  ordering := .standard .sharedConfig
  setup :=
    if !aws then .done
    else .act id fun w =>
      match w.configFile with
      | some c => .act (fun _ => ⟨some c, some (chosenProfile env w.profileName)⟩) fun _ => .done
      | none =>
        match files with
        | .error e => .raise (fault e)
        | .ok c => .act (fun _ => ⟨some c, some (chosenProfile env w.profileName)⟩) fun _ => .done

/-- `ProfileSessionCredentialsProvider` (providers/profile.py:16-51). -/
def sessionProvider (aws : Bool) : Provider Resolver World where
  name := Slot.profileSessionKeys.canonicalName
  ordering := .standard .profileSessionKeys
  setup :=
    if !aws then .done
    else .act id fun w =>
      match w.configFile, w.profileName with
      | some c, some n =>
        match c.get n "aws_access_key_id".toList, c.get n "aws_secret_access_key".toList,
          c.get n "aws_session_token".toList with
        | some a, some s, some t =>
          .add (.fixed ⟨a, s, some t, c.get n "aws_account_id".toList⟩) true .done (.raise "RuntimeError")
        | _, _, _ => .done
      | _, _ => .done

/-- `ProfileStaticCredentialsProvider` (providers/profile.py:54-87). -/
def staticProvider (aws : Bool) : Provider Resolver World where
  name := Slot.profileStaticKeys.canonicalName
  ordering := .standard .profileStaticKeys
  setup :=
    if !aws then .done
    else .act id fun w =>
      match w.configFile, w.profileName with
      | some c, some n =>
        match c.get n "aws_access_key_id".toList, c.get n "aws_secret_access_key".toList with
        | some a, some s =>
          .add (.fixed ⟨a, s, none, c.get n "aws_account_id".toList⟩) true .done (.raise "RuntimeError")
        | _, _ => .done
      | _, _ => .done

/-- The providers that smithy_aws_core registers (pyproject.toml:40-44). -/
def standard (aws : Bool) (env : Env) (files : Except Err Std) : List (Provider Resolver World) :=
  [environmentProvider aws env, sharedConfigProvider aws env files, sessionProvider aws, staticProvider aws]

/-- `get_identity` of the resolvers (identity/environment.py:19-42, static.py:18-23); the world is what the environment
resolver has cached. -/
def ask (env : Env) : Resolver → Option Credentials → Option Credentials × Chain.Answer Credentials Unit Unit
  | .fixed c, w => (w, .identity c)
  | .environment, some c => (some c, .identity c)
  | .environment, none =>
    let key := getenv env "AWS_ACCESS_KEY_ID"
    let secret := getenv env "AWS_SECRET_ACCESS_KEY"
    if falsy key || falsy secret then (none, .identityError ())
    else
      let c := ⟨key.getD [], secret.getD [], getenv env "AWS_SESSION_TOKEN", getenv env "AWS_ACCOUNT_ID"⟩
      (some c, .identity c)

/-- `get_identity` of the chain, with the environment at that time. -/
def getIdentity (env : Env) (resolvers : List (String × Resolver)) (cached : Option Credentials) :
    Option Credentials × Except (Chain.Raised (String × Resolver) Unit Unit) Credentials :=
  Chain.chain (fun r => ask env r.2) Prod.fst resolvers cached

/-! ## Specification -/

/-- The variable has the value, which is not empty. -/
def Has (env : Env) (name : String) (value : Text) : Prop := ∃ v, env name = some v ∧ value = v.toList ∧ v ≠ ""

/-- The environment has no access key, or no secret key. -/
def NoKeys (env : Env) : Prop :=
  (∀ v, ¬Has env "AWS_ACCESS_KEY_ID" v) ∨ ∀ v, ¬Has env "AWS_SECRET_ACCESS_KEY" v

/-- The profile in use: the one given, or else that of the environment, or else `default`. -/
inductive Active (env : Env) : Option Text → Text → Prop
  | given (n : Text) : n ≠ [] → Active env (some n) n
  | env {given : Option Text} (n : Text) : given = none ∨ given = some [] → Has env "AWS_PROFILE" n → Active env given n
  | default {given : Option Text} : given = none ∨ given = some [] → (∀ n, ¬Has env "AWS_PROFILE" n) →
      Active env given "default".toList

/-- The configuration in use: the one given, or else that of the files. -/
def InUse (given : Option Std) (files : Except Err Std) (c : Std) : Prop :=
  given = some c ∨ given = none ∧ files = .ok c

/-- The providers discovered: the standard ones and others that come after all of these, in any order, with different names
and slots. -/
structure Discovered (aws : Bool) (env : Env) (files : Except Err Std) (others ps : List (Provider Resolver World)) :
    Prop where
  perm : ps.Perm (standard aws env files ++ others)
  later : ∀ o ∈ others, position (.standard .profileStaticKeys) < position o.ordering
  names : (ps.map Provider.name).Nodup
  slots : (standardSlots ps).Nodup

/-! ## Lemmas -/

theorem has_iff (env : Env) (name : String) : falsy (getenv env name) = false ↔ ∃ v, Has env name v := by
  unfold getenv Has
  cases h : env name with
  | none => simp [falsy]
  | some v => simp [falsy]

theorem falsy_iff (env : Env) (name : String) : falsy (getenv env name) = true ↔ ∀ v, ¬Has env name v := by
  rw [← Bool.not_eq_false, has_iff]
  simp

theorem has_get {env : Env} {name : String} {v : Text} (h : Has env name v) :
    getenv env name = some v ∧ falsy (getenv env name) = false := by
  refine ⟨?_, (has_iff env name).2 ⟨v, h⟩⟩
  obtain ⟨x, h1, h2, _⟩ := h
  simp [getenv, h1, h2]

theorem noKeys_iff (env : Env) : NoKeys env ↔
    (falsy (getenv env "AWS_ACCESS_KEY_ID") || falsy (getenv env "AWS_SECRET_ACCESS_KEY")) = true := by
  unfold NoKeys
  rw [Bool.or_eq_true, falsy_iff, falsy_iff]

theorem chosen_active {env : Env} {given : Option Text} {n : Text} (h : Active env given n) :
    chosenProfile env given = n := by
  unfold chosenProfile
  cases h with
  | given _ hn =>
    have : falsy (some n) = false := by cases n with | nil => exact absurd rfl hn | cons => rfl
    rw [if_pos this]
    rfl
  | env _ hg hn =>
    have : ¬falsy given = false := by rcases hg with rfl | rfl <;> simp [falsy]
    rw [if_neg this, if_pos (has_get hn).2, (has_get hn).1]
    rfl
  | default hg hn =>
    have : ¬falsy given = false := by rcases hg with rfl | rfl <;> simp [falsy]
    rw [if_neg this, if_neg (by simpa using (falsy_iff env "AWS_PROFILE").2 hn)]

variable {aws : Bool} {env : Env} {files : Except Err Std} {others ps : List (Provider Resolver World)}

/-- The standard providers come first. -/
theorem sorted_standard (h : Discovered aws env files others ps) :
    ∃ rest, sortByOrdering ps = standard aws env files ++ rest ∧ rest.Perm others := by
  have hpos : (standard aws env files).map (fun p => position p.ordering) = [1, 7, 10, 13] := rfl
  have hstd : ∀ p ∈ standard aws env files, position p.ordering ≤ 13 := by
    intro p hp
    have : position p.ordering ∈ [1, 7, 10, 13] := hpos ▸ List.mem_map_of_mem hp
    simp only [List.mem_cons, List.not_mem_nil, or_false] at this
    omega
  have hlater : ∀ o ∈ others, 13 < position o.ordering := h.later
  have hf : (ps.filter fun p => 13 < position p.ordering).Perm others := by
    refine (h.perm.filter _).trans ?_
    rw [List.filter_append, List.filter_eq_nil_iff.2 (fun p hp => by have := hstd p hp; simp; omega),
      List.filter_eq_self.2 (fun p hp => by simpa using hlater p hp)]
    exact List.Perm.refl _
  obtain ⟨o1, o2, o3⟩ := C52_order (ps.filter fun p => 13 < position p.ordering)
  refine ⟨_, (C52_order_unique ps (standard aws env files ++ sortByOrdering (ps.filter fun p => 13 < position p.ordering))
    ⟨?_, ?_, fun n => ?_⟩).symm, o1.trans hf⟩
  · exact ((o1.trans hf).append_left _).trans h.perm.symm
  · rw [List.pairwise_append]
    refine ⟨?_, o2, fun p hp q hq => ?_⟩
    · have : ((standard aws env files).map fun p => position p.ordering).Pairwise (· ≤ ·) := by rw [hpos]; decide
      exact List.pairwise_map.1 this
    · have h1 := hstd p hp
      have h2 := hlater q ((o1.trans hf).subset hq)
      omega
  · rw [List.filter_append, o3, List.filter_filter]
    by_cases hn : n ≤ 13
    · have e1 : (ps.filter fun p => decide (position p.ordering = n) && decide (13 < position p.ordering)) = [] :=
        List.filter_eq_nil_iff.2 fun p _ => by simp; omega
      have e2 : (others.filter fun p => decide (position p.ordering = n)) = [] :=
        List.filter_eq_nil_iff.2 fun p hp => by have := hlater p hp; simp; omega
      rw [e1, List.append_nil]
      have hp := h.perm.filter fun p => decide (position p.ordering = n)
      rw [List.filter_append, e2, List.append_nil] at hp
      have hlen : ((standard aws env files).filter fun p => decide (position p.ordering = n)).length ≤ 1 := by
        have h1 : ((standard aws env files).filter fun p => decide (position p.ordering = n)).length =
            (((standard aws env files).map fun p => position p.ordering).filter fun i => decide (i = n)).length := by
          rw [List.filter_map, List.length_map]
          rfl
        rw [h1, hpos]
        have : ([1, 7, 10, 13] : List Nat).Nodup := by decide
        have h2 := List.nodup_iff_count_le_one.1 this n
        rw [List.count_eq_length_filter] at h2
        refine le_of_eq_of_le (congrArg List.length (List.filter_congr fun i _ => ?_)) h2
        by_cases hi : i = n <;> simp [hi]
      match hm : (standard aws env files).filter fun p => decide (position p.ordering = n) with
      | [] => rw [hm] at hp ⊢; exact (List.perm_nil.1 hp).symm
      | [a] => rw [hm] at hp ⊢; exact (List.perm_singleton.1 hp).symm
      | a :: b :: l => rw [hm] at hlen; simp at hlen
    · have e1 : ((standard aws env files).filter fun p => decide (position p.ordering = n)) = [] :=
        List.filter_eq_nil_iff.2 fun p hp => by have := hstd p hp; simp; omega
      rw [e1, List.nil_append]
      refine List.filter_congr fun p _ => ?_
      by_cases hpn : position p.ordering = n
      · simp [hpn]; omega
      · simp [hpn]

theorem create_eq (sur : Surroundings) (w : World) (h : Discovered aws env files others ps) :
    ∃ rest, rest.Perm others ∧ create sur ps w =
      match assemble (standard aws env files ++ rest) ⟨w, [], none, false, []⟩ with
      | (s, none) => .chain s.resolvers (unclaimed sur ps) s.happened s.world
      | (s, some e) => .raised e s.happened := by
  obtain ⟨rest, h1, h2⟩ := sorted_standard h
  refine ⟨rest, h2, ?_⟩
  have hv : validate ps [] [] = true := (validate_iff ps [] []).2 ⟨⟨h.names, by simp⟩, h.slots, by simp⟩
  unfold create
  rw [if_pos hv, h1]
  generalize assemble (standard aws env files ++ rest) _ = x
  obtain ⟨s, _ | e⟩ := x <;> rfl

/-- A provider that ends without a terminal resolver. -/
theorem assemble_next {p : Provider Resolver World} {s : Setup Resolver World} {w : World} (qs : List (Provider Resolver World))
    (ht : s.terminal = false)
    (h : p.setup.run { s with current := some p.name, happened := s.happened ++ [.setUp p.name] } =
      ({ s with world := w, current := some p.name, happened := s.happened ++ [.setUp p.name] }, none)) :
    assemble (p :: qs) s =
      assemble qs { s with world := w, current := some p.name, happened := s.happened ++ [.setUp p.name] } := by
  simp only [assemble, Setup.setCurrent, ht, Bool.false_eq_true, if_false]
  rw [ht] at h
  rw [h]
  rfl

/-- A provider that adds a terminal resolver. -/
theorem assemble_last {p : Provider Resolver World} {s : Setup Resolver World} {r : Resolver}
    (qs : List (Provider Resolver World)) (ht : s.terminal = false)
    (h : p.setup.run { s with current := some p.name, happened := s.happened ++ [.setUp p.name] } =
      ({ s with
        current := some p.name
        resolvers := s.resolvers ++ [(p.name, r)]
        terminal := true
        happened := s.happened ++ [.setUp p.name] ++ [.added r true] }, none)) :
    assemble (p :: qs) s = ({ s with
        current := some p.name
        resolvers := s.resolvers ++ [(p.name, r)]
        terminal := true
        happened := s.happened ++ [.setUp p.name] ++ [.added r true] }, none) := by
  simp only [assemble, Setup.setCurrent, ht, Bool.false_eq_true, if_false]
  rw [ht] at h
  rw [h]
  rfl

/-- Without keys in the environment, the profile and the configuration are chosen. -/
theorem assemble_chosen {w : World} (qs : List (Provider Resolver World)) (hno : NoKeys env) {c : Std} {n : Text}
    (hc : InUse w.configFile files c) (hn : Active env w.profileName n) :
    assemble (environmentProvider true env :: sharedConfigProvider true env files :: qs) ⟨w, [], none, false, []⟩ =
      assemble qs ⟨⟨some c, some n⟩, [], some "SharedConfig", false, [.setUp "Environment", .setUp "SharedConfig"]⟩ := by
  have h1 : (environmentProvider true env).setup = .done := by
    simp only [environmentProvider, (noKeys_iff env).1 hno, if_true, Bool.not_true, Bool.false_eq_true, if_false]
  rw [assemble_next (w := w) _ rfl (by rw [h1]; rfl)]
  have hch := chosen_active hn
  rw [assemble_next (w := ⟨some c, some n⟩) _ rfl]
  · rfl
  · obtain ⟨file, profile⟩ := w
    simp only at hc hch
    rcases hc with rfl | ⟨rfl, rfl⟩ <;>
      simp only [sharedConfigProvider, Prog.run, Bool.not_true, Bool.false_eq_true, if_false, hch]

/-! ## Theorems -/

/-- **C99**: if the environment has both keys, the chain has the environment only, whatever profile is given and whatever
other providers there are, and the files are not read: they may be faulty. -/
theorem C99_environment (sur : Surroundings) (w : World) (h : Discovered true env files others ps) (a s : Text)
    (ha : Has env "AWS_ACCESS_KEY_ID" a) (hs : Has env "AWS_SECRET_ACCESS_KEY" s) :
    create sur ps w = .chain [("Environment", .environment)] (unclaimed sur ps)
      [.setUp "Environment", .added .environment true] w := by
  obtain ⟨rest, -, h2⟩ := create_eq sur w h
  have h1 : (environmentProvider true env).setup = .add .environment true .done (.raise "RuntimeError") := by
    simp only [environmentProvider, (has_get ha).2, (has_get hs).2, Bool.or_false, Bool.not_true, Bool.false_eq_true,
      if_false]
  rw [h2, standard, List.cons_append, assemble_last (r := .environment) _ rfl (by rw [h1]; rfl)]
  rfl

/-- **C99**: credentials of the environment are those it has when they are first asked for, and from then on the same, even
if the environment changes. -/
theorem C99_environment_identity (now later : Env) (a s : Text)
    (ha : Has now "AWS_ACCESS_KEY_ID" a) (hs : Has now "AWS_SECRET_ACCESS_KEY" s) :
    let c : Credentials := ⟨a, s, (now "AWS_SESSION_TOKEN").map String.toList, (now "AWS_ACCOUNT_ID").map String.toList⟩
    getIdentity now [("Environment", .environment)] none = (some c, .ok c) ∧
    getIdentity later [("Environment", .environment)] (some c) = (some c, .ok c) := by
  refine ⟨?_, rfl⟩
  have h1 := has_get ha
  have h2 := has_get hs
  simp only [getIdentity, Chain.chain, Chain.resolve, ask, h1.2, h2.2, Bool.or_false, Bool.false_eq_true, if_false]
  rw [h1.1, h2.1]
  rfl

/-- **C99**: if the environment does not have both keys any more when credentials are first asked for, asking raises; nothing
is kept, so that they are found when the environment has them again. -/
theorem C99_environment_gone (now : Env) (hno : NoKeys now) :
    ∃ failures, getIdentity now [("Environment", .environment)] none = (none, .error (.exhausted failures)) := by
  refine ⟨[("Environment", ("Environment", .environment), ())], ?_⟩
  simp only [getIdentity, Chain.chain, Chain.resolve, ask, (noKeys_iff now).1 hno, if_true, List.nil_append]

example : NoKeys fun n => if n = "AWS_ACCESS_KEY_ID" then some "A" else none := by
  right
  rintro v ⟨x, h, -⟩
  simp at h

/-- **C99**: if the environment does not have both keys, but the profile in use has, the chain has the credentials of that
profile only, with its token if there is one, whatever other providers there are.  Missing: that they come from one file
(`C99_mixed_fails`) and are not empty (`C99_empty_keys_fails`). -/
theorem C99_profile_partial (sur : Surroundings) (w : World) (h : Discovered true env files others ps) (hno : NoKeys env)
    (c : Std) (n a s : Text) (hc : InUse w.configFile files c) (hn : Active env w.profileName n)
    (ha : c.get n "aws_access_key_id".toList = some a) (hs : c.get n "aws_secret_access_key".toList = some s) :
    ∃ name happened w', create sur ps w = .chain
        [(name, .fixed ⟨a, s, c.get n "aws_session_token".toList, c.get n "aws_account_id".toList⟩)]
        (unclaimed sur ps) happened w' ∧
      name = (if (c.get n "aws_session_token".toList).isSome then "ProfileSessionKeys" else "ProfileStaticKeys") := by
  obtain ⟨rest, -, h2⟩ := create_eq sur w h
  rw [h2, standard, List.cons_append, List.cons_append, assemble_chosen _ hno hc hn]
  cases ht : c.get n "aws_session_token".toList with
  | some t =>
    rw [List.cons_append, assemble_last
      (r := .fixed ⟨a, s, some t, c.get n "aws_account_id".toList⟩) _ rfl
      (by simp only [sessionProvider, Prog.run, Setup.add, Bool.not_true, Bool.false_eq_true, if_false, ha, hs, ht]; rfl)]
    exact ⟨_, _, _, rfl, rfl⟩
  | none =>
    rw [List.cons_append, assemble_next (w := ⟨some c, some n⟩) _ rfl
      (by simp only [sessionProvider, Prog.run, Bool.not_true, Bool.false_eq_true, if_false, ha, hs, ht, id])]
    rw [List.cons_append, assemble_last
      (r := .fixed ⟨a, s, none, c.get n "aws_account_id".toList⟩) _ rfl
      (by simp only [staticProvider, Prog.run, Setup.add, Bool.not_true, Bool.false_eq_true, if_false, ha, hs]; rfl)]
    exact ⟨_, _, _, rfl, rfl⟩

/-- **C99**: credentials of a profile are the same whenever they are asked for, whatever the environment is then. -/
theorem C99_profile_identity (now : Env) (name : String) (c : Credentials) (cached : Option Credentials) :
    getIdentity now [(name, .fixed c)] cached = (cached, .ok c) := rfl

/-- **C99**: if neither the environment nor the profile in use has both keys, the standard providers add nothing, and
asking for credentials raises. -/
theorem C99_none (sur : Surroundings) (w : World) (h : Discovered true env files [] ps) (hno : NoKeys env)
    (c : Std) (n : Text) (hc : InUse w.configFile files c) (hn : Active env w.profileName n)
    (hm : c.get n "aws_access_key_id".toList = none ∨ c.get n "aws_secret_access_key".toList = none) :
    (∃ happened, create sur ps w = .chain [] (unclaimed sur ps) happened ⟨some c, some n⟩) ∧
    ∀ now cached, getIdentity now [] cached = (cached, .error (.exhausted [])) := by
  refine ⟨?_, fun _ _ => rfl⟩
  obtain ⟨rest, hr, h2⟩ := create_eq sur w h
  rw [List.perm_nil.1 hr] at h2
  rw [h2, standard, List.append_nil, assemble_chosen _ hno hc hn]
  rw [assemble_next (w := ⟨some c, some n⟩) _ rfl, assemble_next (w := ⟨some c, some n⟩) _ rfl]
  · exact ⟨_, rfl⟩
  · simp only [staticProvider, Prog.run, Bool.not_true, Bool.false_eq_true, if_false, id]
    rcases hm with hm | hm <;> rw [hm]
    · rfl
    · cases c.get n "aws_access_key_id".toList <;> rfl
  · simp only [sessionProvider, Prog.run, Bool.not_true, Bool.false_eq_true, if_false, id]
    rcases hm with hm | hm <;> rw [hm]
    · rfl
    · cases c.get n "aws_access_key_id".toList <;> rfl

/-- **C99**: if the environment does not have both keys and no configuration is given, faulty files make the creation of the
chain raise. -/
theorem C99_faulty_files (sur : Surroundings) (w : World) (h : Discovered true env files others ps) (hno : NoKeys env)
    (hw : w.configFile = none) (e : Err) (he : files = .error e) :
    ∃ happened, create sur ps w =
      .raised (match e with | .parse => "ConfigParseError" | .crash => "crash") happened := by
  obtain ⟨rest, -, h2⟩ := create_eq sur w h
  obtain ⟨file, profile⟩ := w
  simp only at hw
  subst hw he
  have h1 : (environmentProvider true env).setup = .done := by
    simp only [environmentProvider, (noKeys_iff env).1 hno, if_true, Bool.not_true, Bool.false_eq_true, if_false]
  rw [h2, standard, List.cons_append, assemble_next (w := ⟨none, profile⟩) _ rfl (by rw [h1]; rfl)]
  cases e <;> exact ⟨_, rfl⟩

/-- **C99**: if other identities than AWS credentials are asked for, the standard providers add nothing and read
nothing. -/
theorem C99_other_identity (sur : Surroundings) (w : World) (h : Discovered false env files [] ps) :
    ∃ happened, create sur ps w = .chain [] (unclaimed sur ps) happened w := by
  obtain ⟨rest, hr, h2⟩ := create_eq sur w h
  rw [List.perm_nil.1 hr] at h2
  rw [h2]
  exact ⟨_, rfl⟩

/-! ## What does not hold -/

/-- The credentials that come out, for texts of the two files. -/
def outcome (env : Env) (config credentials : String) (given : Option Text) :
    Option (List (String × Resolver)) :=
  match create ⟨env, true⟩ (standard true env (load (some config.toList) (some credentials.toList))) ⟨none, given⟩ with
  | .chain rs _ _ _ => some rs
  | _ => none

/-- An environment with both keys. -/
def someEnv : Env
  | "AWS_ACCESS_KEY_ID" => some "AE"
  | "AWS_SECRET_ACCESS_KEY" => some "SE"
  | _ => none

/-- An environment without variables. -/
def noEnv : Env := fun _ => none

/-- **C99 (negative).**  A profile that the program asks for is not used if the environment has keys. -/
theorem C99_given_profile_fails :
    outcome someEnv "" "[dev]\naws_access_key_id = A\naws_secret_access_key = S\n" (some "dev".toList) =
      some [("Environment", .environment)] := by decide +kernel

/-- **C99 (negative).**  Credentials may be put together from both files: the keys of the one with the session token of the
other, which belongs to other keys. -/
theorem C99_mixed_fails :
    outcome noEnv
      "[profile dev]\naws_access_key_id = A1\naws_secret_access_key = S1\naws_session_token = T1\n"
      "[dev]\naws_access_key_id = A2\naws_secret_access_key = S2\n" (some "dev".toList) =
      some [("ProfileSessionKeys", .fixed ⟨"A2".toList, "S2".toList, some "T1".toList, none⟩)] := by decide +kernel

/-- **C99 (negative).**  Empty keys in a profile are taken for credentials; in the environment they are not. -/
theorem C99_empty_keys_fails :
    outcome noEnv "" "[default]\naws_access_key_id =\naws_secret_access_key =\n" none =
      some [("ProfileStaticKeys", .fixed ⟨[], [], none, none⟩)] := by decide +kernel

/-- **C99 (negative).**  A profile that is asked for and does not exist is no error when the chain is made. -/
theorem C99_missing_profile_fails : outcome noEnv "" "[default]\naws_access_key_id = A\naws_secret_access_key = S\n"
    (some "dev".toList) = some [] := by decide +kernel

/-! ## The hypotheses are met -/

/-- Another provider, for containers. -/
def container : Provider Resolver World := ⟨"EcsContainer", .standard .ecsContainer, .raise "no network"⟩

example : Discovered true someEnv (.error .parse) [container]
    (container :: (standard true someEnv (.error .parse)).reverse) where
  perm := by
    refine (List.Perm.cons container (List.reverse_perm _)).trans ?_
    exact (List.perm_append_singleton container _).symm
  later := by decide
  names := by decide
  slots := by decide

example : Has someEnv "AWS_ACCESS_KEY_ID" "AE".toList ∧ Has someEnv "AWS_SECRET_ACCESS_KEY" "SE".toList :=
  ⟨⟨"AE", rfl, rfl, by decide⟩, ⟨"SE", rfl, rfl, by decide⟩⟩

example : NoKeys noEnv := .inl fun v => by rintro ⟨x, h, -⟩; cases h

example : Active noEnv none "default".toList := .default (.inl rfl) fun n => by rintro ⟨x, h, -⟩; cases h

example : outcome noEnv "[profile dev]\nregion = x\n" "[dev]\naws_access_key_id = A\naws_secret_access_key = S\n"
    (some "dev".toList) = some [("ProfileStaticKeys", .fixed ⟨"A".toList, "S".toList, none, none⟩)] := by decide +kernel

end Verif.Identity.Default
