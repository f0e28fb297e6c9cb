import Verif.AwsConfig.Settings

/-!
# The files a configuration is read from (C123)

Models smithy_aws_core/config/context.py:27-54 (which files), 57-86 and 110-182 (when they are read), filesystem.py:29-49 and
aws_config.py:73-117 with what it calls, over files that change while they are read.  `pathlib` and `os.path.expanduser` are
those of POSIX systems (Python 3.11: pathlib.py:56-92, 239-252, 524-544 and 1377-1388, posixpath.py:229-283).
Simplifications: the environment does not change while a configuration is resolved; a file is read at one moment; `VxWorks` and
systems without `pwd` are left out, as are warnings.
-/

set_option autoImplicit false

namespace Verif.AwsConfig.Files

open Verif.Text
open Verif.AwsConfig.Settings (PyVal Source Field Config)

/-! ## Model: paths -/

/-- A `PosixPath`: the root, which is empty, `/` or `//`, and the parts without it. -/
structure Path where
  root : Text
  parts : List Text
  deriving DecidableEq, Repr

/-- `lstrip("/")` -/
def unslash (t : Text) : Text := t.dropWhile (· == '/')

/-- `splitroot` (pathlib.py:239-252). -/
def rootOf (t : Text) : Text :=
  match t with
  | '/' :: _ => if t.length - (unslash t).length = 2 then ['/', '/'] else ['/']
  | _ => []

/-- A part that is kept (pathlib.py:68-74). -/
def isPart (p : Text) : Bool := !(p == []) && !(p == ['.'])

/-- `Path(text)` (pathlib.py:56-92 for one argument). -/
def Path.ofText (t : Text) : Path := ⟨rootOf t, (split '/' (unslash t)).filter isPart⟩

/-- `str(path)` (pathlib.py:524-544). -/
def Path.text (p : Path) : Text :=
  let t := p.root ++ join '/' p.parts
  if t = [] then ['.'] else t

/-- What is outside: the environment, the home directories of users by their names (the current user has the empty name here),
what is in a file when some number of files has been read, and `int`. -/
inductive Contents where
  | text (t : Text)
  /-- `FileNotFoundError` -/
  | missing
  /-- another `OSError` -/
  | unreadable
  /-- not UTF-8: `UnicodeDecodeError` -/
  | encoding
  deriving DecidableEq, Repr

structure World where
  env : Text → Option Text
  home : Text → Option Text
  disk : Nat → Text → Contents
  int : Text → Option Int

/-- `userhome` for the name of a user (posixpath.py:243-273). -/
def userHome (w : World) (name : Text) : Option Text :=
  if name = [] then
    match w.env "HOME".toList with
    | some h => some h
    | none => w.home []
  else w.home name

/-- `rstrip("/")` -/
def unslashEnd (t : Text) : Text := (unslash t.reverse).reverse

/-- `os.path.expanduser("~" + name)` for a name without slashes (posixpath.py:229-283); `none` if it is left as it is. -/
def homeDir (w : World) (name : Text) : Option Text :=
  (userHome w name).map fun h => if unslashEnd h = [] then ['/'] else unslashEnd h

/-- `path.expanduser()` (pathlib.py:1377-1388); `none` is `RuntimeError`. -/
def Path.expand (w : World) (p : Path) : Option Path :=
  match p.root, p.parts with
  | [], ('~' :: name) :: rest =>
    match homeDir w name with
    | none => none
    | some ('~' :: _) => none
    | some d => some ⟨(Path.ofText d).root, (Path.ofText d).parts ++ rest⟩
  | _, _ => some p

/-- One of the paths of `_resolve_config_paths` (context.py:27-54). -/
def pathOf (w : World) (argument : Option Text) (var dflt : Text) : Option Text :=
  ((Path.ofText (match argument with
    | some t => t
    | none => (w.env var).getD dflt)).expand w).map Path.text

def configPath (w : World) (argument : Option Text) : Option Text :=
  pathOf w argument "AWS_CONFIG_FILE".toList "~/.aws/config".toList

def credentialsPath (w : World) (argument : Option Text) : Option Text :=
  pathOf w argument "AWS_SHARED_CREDENTIALS_FILE".toList "~/.aws/credentials".toList

/-! ## Model: reading -/

inductive LoadErr where
  | parse (e : Err)
  /-- `UnicodeDecodeError` -/
  | unicode
  /-- `RuntimeError`: no home directory -/
  | home
  deriving DecidableEq, Repr

/-- `read_file` (filesystem.py:32-49) of the n-th file that is read.  `Path(path)` is the path that has this text. -/
def readFile (w : World) (n : Nat) (path : Text) : Except LoadErr (Option Text) :=
  match w.disk n (Path.ofText path).text with
  | .text t => .ok (some t)
  | .missing => .ok none
  | .unreadable => .ok none
  | .encoding => .error .unicode

/-- `parse_config_file` (file_parser.py:44-63). -/
def parseAt (w : World) (n : Nat) (path : Text) : Except LoadErr Sections :=
  match readFile w n path with
  | .error e => .error e
  | .ok t =>
    match parseFile t with
    | .error e => .error (.parse e)
    | .ok s => .ok s

/-- `load_config` (context.py:57-86) when `n` files have been read: the files that it reads, and the result. -/
def loadConfig (w : World) (config credentials : Option Text) (n : Nat) : List Text × Except LoadErr Std :=
  match configPath w config, credentialsPath w credentials with
  | some c, some k =>
    match parseAt w n c with
    | .error e => ([c], .error e)
    | .ok rc =>
      match parseAt w (n + 1) k with
      | .error e => ([c, k], .error e)
      | .ok rk => ([c, k], .ok (merged (standardize rc .config) (standardize rk .credentials)))
  | _, _ => ([], .error .home)

/-- `SharedConfigContext` (context.py:110-182): what is cached; and the files that were read. -/
structure St where
  cached : Option Std
  reads : List Text

/-- The arguments of `resolve`. -/
structure Args where
  profile : Option Text
  config : Option Text
  credentials : Option Text
  overrides : List (Text × PyVal)

/-- `parsed_profiles` (context.py:170-182). -/
def St.profiles (w : World) (a : Args) (s : St) : St × Except LoadErr Std :=
  match s.cached with
  | some m => (s, .ok m)
  | none =>
    match loadConfig w a.config a.credentials s.reads.length with
    | (ps, .ok m) => (⟨some m, s.reads ++ ps⟩, .ok m)
    | (ps, .error e) => (⟨none, s.reads ++ ps⟩, .error e)

/-- What `resolve` raises. -/
inductive Fail where
  | validation | profileNotFound | load (e : LoadErr)
  deriving DecidableEq, Repr

/-- Settings looks at the environment only, and what is in the files is given there. -/
def World.settings (w : World) (files : Except Err Std) : Settings.World := ⟨w.env, files, w.int⟩

/-- `_resolve_str` (resolvers.py:13-42). -/
def St.str (w : World) (a : Args) (profile : Text) (s : St) (vars keys : List Text) :
    St × Except Fail (Option (Text × Source)) :=
  match Settings.firstEnv (w.settings (.error .crash)) vars with
  | some t => (s, .ok (some (t, .env)))
  | none =>
    if keys = [] then (s, .ok none)
    else
      match s.profiles w a with
      | (s, .error e) => (s, .error (.load e))
      | (s, .ok m) =>
        match Settings.firstKey m profile keys with
        | some t => (s, .ok (some (t, .profile)))
        | none => (s, .ok none)

/-- `resolve_region` (resolvers.py:70-80). -/
def St.region (w : World) (a : Args) (profile : Text) (s : St) : St × Except Fail (Option (PyVal × Source)) :=
  match s.str w a profile ["AWS_REGION".toList, "AWS_DEFAULT_REGION".toList] ["region".toList] with
  | (s, .error e) => (s, .error e)
  | (s, .ok none) => (s, .ok none)
  | (s, .ok (some (t, x))) => (s, .ok (some (.str t, x)))

/-- `resolve_retry_mode` (resolvers.py:83-109). -/
def St.retryMode (w : World) (a : Args) (profile : Text) (s : St) : St × Except Fail (Option (PyVal × Source)) :=
  match s.str w a profile ["AWS_RETRY_MODE".toList] ["retry_mode".toList] with
  | (s, .error e) => (s, .error e)
  | (s, .ok none) => (s, .ok none)
  | (s, .ok (some (t, x))) =>
    if t = "legacy".toList then (s, .ok (some (.str "standard".toList, x)))
    else if t = "adaptive".toList then (s, .ok (some (.str "standard".toList, x)))
    else (s, .ok (some (.str t, x)))

/-- `resolve_max_attempts`, with `_resolve_int` (resolvers.py:112-122, 45-67). -/
def St.maxAttempts (w : World) (a : Args) (profile : Text) (s : St) : St × Except Fail (Option (PyVal × Source)) :=
  match s.str w a profile ["AWS_MAX_ATTEMPTS".toList] ["max_attempts".toList] with
  | (s, .error e) => (s, .error e)
  | (s, .ok none) => (s, .ok none)
  | (s, .ok (some (t, x))) =>
    match w.int t with
    | some n => (s, .ok (some (.int n, x)))
    | none => (s, .error .validation)

def St.resolver (w : World) (a : Args) (profile : Text) (s : St) : Field → St × Except Fail (Option (PyVal × Source))
  | .region => s.region w a profile
  | .retryMode => s.retryMode w a profile
  | .maxAttempts => s.maxAttempts w a profile

/-- What a field is set to, and where from (aws_config.py:154-171). -/
def St.choose (w : World) (a : Args) (profile : Text) (s : St) (f : Field) : St × Except Fail (PyVal × Source) :=
  match a.overrides.lookup f.name with
  | some v => (s, .ok (v, .override))
  | none =>
    match s.resolver w a profile f with
    | (s, .error e) => (s, .error e)
    | (s, .ok (some r)) => (s, .ok r)
    | (s, .ok none) => (s, .ok (Settings.dflt f, .default))

/-- The loop of `_resolve_fields` (aws_config.py:153-175). -/
def St.fields (w : World) (a : Args) (profile : Text) : List Field → Config → St → St × Except Fail Config
  | [], c, s => (s, .ok c)
  | f :: fs, c, s =>
    match s.choose w a profile f with
    | (s, .error e) => (s, .error e)
    | (s, .ok (v, x)) =>
      match c.assign f v with
      | .error _ => (s, .error .validation)
      | .ok c =>
        if Settings.validate f v then s.fields w a profile fs { c with sources := Verif.Dict.put c.sources f x }
        else (s, .error .validation)

/-- `AsyncAwsConfig.resolve` (aws_config.py:73-117). -/
def resolve (w : World) (a : Args) : St × Except Fail Config :=
  let p := Settings.profileName (w.settings (.error .crash)) a.profile
  let s : St := ⟨none, []⟩
  let checked : St × Except Fail Unit :=
    if p.2 then
      match s.profiles w a with
      | (s, .error e) => (s, .error (.load e))
      | (s, .ok m) => if (m.profiles.lookup p.1).isSome then (s, .ok ()) else (s, .error .profileNotFound)
    else (s, .ok ())
  match checked with
  | (s, .error e) => (s, .error e)
  | (s, .ok ()) =>
    if Settings.known a.overrides then s.fields w a p.1 [.region, .retryMode, .maxAttempts] ⟨[], []⟩
    else (s, .error .validation)

/-! ## Model: several calls at once -/

/-- A call of `parsed_profiles`: not begun, waiting for the config file, waiting for the other one, or over. -/
inductive Task where
  | new
  | config (t : Except LoadErr (Option Text))
  | credentials (c : Sections) (t : Except LoadErr (Option Text))
  | done (m : Std)
  | failed (e : LoadErr)

/-- The calls on one context, what it has cached, and the files that were read, each with what came of it. -/
structure Together where
  tasks : List Task
  cached : Option Std
  reads : List (Text × Except LoadErr (Option Text))

/-- One call goes on until it waits again or is over (context.py:170-182 with 57-86 and file_parser.py:44-63), for the two paths.
A file is read when it is asked for. -/
def Together.step (w : World) (c k : Text) (s : Together) (i : Nat) : Together :=
  match s.tasks[i]? with
  | some .new =>
    match s.cached with
    | some m => { s with tasks := s.tasks.set i (.done m) }
    | none =>
      let t := readFile w s.reads.length c
      { s with tasks := s.tasks.set i (.config t), reads := s.reads ++ [(c, t)] }
  | some (.config (.error e)) => { s with tasks := s.tasks.set i (.failed e) }
  | some (.config (.ok t)) =>
    match parseFile t with
    | .error e => { s with tasks := s.tasks.set i (.failed (.parse e)) }
    | .ok rc =>
      let t := readFile w s.reads.length k
      { s with tasks := s.tasks.set i (.credentials rc t), reads := s.reads ++ [(k, t)] }
  | some (.credentials _ (.error e)) => { s with tasks := s.tasks.set i (.failed e) }
  | some (.credentials rc (.ok t)) =>
    match parseFile t with
    | .error e => { s with tasks := s.tasks.set i (.failed (.parse e)) }
    | .ok rk =>
      let m := merged (standardize rc .config) (standardize rk .credentials)
      { s with tasks := s.tasks.set i (.done m), cached := some m }
  | _ => s

/-- Some number of calls, in any order. -/
def together (w : World) (c k : Text) (n : Nat) (schedule : List Nat) : Together :=
  schedule.foldl (fun s i => s.step w c k i) ⟨List.replicate n .new, none, []⟩

/-! ## Specification -/

/-- The parts of a path: what is between slashes, without the parts that are empty or a dot, which change nothing. -/
def components (t : Text) : List Text := (split '/' t).filter fun p => decide (p ≠ [] ∧ p ≠ ['.'])

/-- How a path begins: with no slash, with exactly two (which POSIX has as something else), or with one or more. -/
inductive Begins : Text → Text → Prop
  | relative {t : Text} : t.head? ≠ some '/' → Begins t []
  | two {t : Text} : t.head? ≠ some '/' → Begins ('/' :: '/' :: t) ['/', '/']
  | one {t : Text} : t.head? ≠ some '/' → Begins ('/' :: t) ['/']
  | more {t : Text} : Begins ('/' :: '/' :: '/' :: t) ['/']

/-- The text that is given for a path: as an argument, in the environment, or what is used if there is none. -/
inductive Given (w : World) (var dflt : Text) : Option Text → Text → Prop
  | argument {t : Text} : Given w var dflt (some t) t
  | environment {t : Text} : w.env var = some t → Given w var dflt none t
  | default : w.env var = none → Given w var dflt none dflt

/-- The home directory of a user, by the name that is after the tilde: `HOME` goes first for the current user. -/
inductive Home (w : World) : Text → Text → Prop
  | fromVariable {h : Text} : w.env "HOME".toList = some h → Home w [] h
  | current {h : Text} : w.env "HOME".toList = none → w.home [] = some h → Home w [] h
  | user {name h : Text} : name ≠ [] → w.home name = some h → Home w name h

/-- The file that a text means: the path that it is, or in the home directory if it is relative and begins with a tilde. -/
inductive Means (w : World) (t : Text) : Text → List Text → Prop
  | plain {b : Text} : Begins t b → (b ≠ [] ∨ ∀ name rest, components t ≠ ('~' :: name) :: rest) →
      Means w t b (components t)
  | home {name : Text} {rest : List Text} {h b : Text} : Begins t [] → components t = ('~' :: name) :: rest → Home w name h →
      h.head? ≠ some '~' →
      (components h = [] ∧ (∀ c ∈ h, c = '/') ∧ b = ['/'] ∨ (∃ c ∈ h, c ≠ '/') ∧ Begins h b) →
      Means w t b (components h ++ rest)

/-- What a file that is read stands for: one that is missing or cannot be read is empty. -/
def Holds (w : World) (n : Nat) (path : Text) (t : Option Text) : Prop :=
  t = none ∧ (w.disk n path = .missing ∨ w.disk n path = .unreadable) ∨ ∃ x, t = some x ∧ w.disk n path = .text x

/-- The errors as C49 has them. -/
def LoadErr.erase : LoadErr → Err
  | .parse e => e
  | _ => .crash

def Fail.erase : Fail → Settings.Error
  | .validation => .validation
  | .profileNotFound => .profileNotFound
  | .load e => .file e.erase

/-! ## Lemmas: paths -/

theorem unslash_cons (t : Text) : unslash ('/' :: t) = unslash t := rfl

theorem unslash_of {t : Text} (h : t.head? ≠ some '/') : unslash t = t := by
  cases t with
  | nil => rfl
  | cons d t =>
    have : d ≠ '/' := by simpa using h
    simp [unslash, this]

theorem rootOf_of {t b : Text} (h : Begins t b) : rootOf t = b := by
  cases h with
  | relative h =>
    cases t with
    | nil => rfl
    | cons d t =>
      rw [rootOf]
      intro _ he
      cases he
      exact h rfl
  | two h =>
    rw [rootOf, unslash_cons, unslash_cons, unslash_of h, if_pos]
    simp only [List.length_cons]
    omega
  | one h =>
    rw [rootOf, unslash_cons, unslash_of h, if_neg]
    simp only [List.length_cons]
    omega
  | @more t =>
    have : (unslash t).length ≤ t.length := (List.dropWhile_sublist _).length_le
    rw [rootOf, unslash_cons, unslash_cons, unslash_cons, if_neg]
    simp only [List.length_cons]
    omega

theorem begins_exists (t : Text) : ∃ b, Begins t b := by
  by_cases h : t.head? = some '/'
  · obtain ⟨t, rfl⟩ : ∃ r, t = '/' :: r := by
      cases t with
      | nil => simp at h
      | cons d t => exact ⟨t, by simpa using h⟩
    by_cases h : t.head? = some '/'
    · obtain ⟨t, rfl⟩ : ∃ r, t = '/' :: r := by
        cases t with
        | nil => simp at h
        | cons d t => exact ⟨t, by simpa using h⟩
      by_cases h : t.head? = some '/'
      · obtain ⟨t, rfl⟩ : ∃ r, t = '/' :: r := by
          cases t with
          | nil => simp at h
          | cons d t => exact ⟨t, by simpa using h⟩
        exact ⟨_, .more⟩
      · exact ⟨_, .two h⟩
    · exact ⟨_, .one h⟩
  · exact ⟨_, .relative h⟩

theorem begins_rootOf (t : Text) : Begins t (rootOf t) := by
  obtain ⟨b, h⟩ := begins_exists t
  rw [rootOf_of h]
  exact h

theorem isPart_eq : isPart = fun p => decide (p ≠ [] ∧ p ≠ ['.']) := by
  funext p
  rw [Bool.eq_iff_iff, decide_eq_true_eq]
  simp [isPart]

theorem parts_eq (t : Text) : (Path.ofText t).parts = components t := by
  rw [Path.ofText, components, isPart_eq]
  simp only
  induction t with
  | nil => rfl
  | cons d t ih =>
    by_cases hd : d = '/'
    · subst hd
      rw [unslash_cons, ih]
      simp [split]
    · rw [unslash_of (by simp [hd])]

/-- A path whose text it is. -/
structure Path.Ok (p : Path) : Prop where
  root : p.root = [] ∨ p.root = ['/'] ∨ p.root = ['/', '/']
  parts : ∀ x ∈ p.parts, '/' ∉ x ∧ x ≠ [] ∧ x ≠ ['.']

theorem components_ok (t : Text) : ∀ x ∈ components t, '/' ∉ x ∧ x ≠ [] ∧ x ≠ ['.'] := by
  intro x hx
  simp only [components, List.mem_filter, decide_eq_true_eq] at hx
  exact ⟨split_no_sep _ _ _ hx.1, hx.2⟩

theorem begins_root {t b : Text} (h : Begins t b) : b = [] ∨ b = ['/'] ∨ b = ['/', '/'] := by
  cases h <;> simp

theorem ofText_ok (t : Text) : (Path.ofText t).Ok :=
  ⟨begins_root (begins_rootOf t), by rw [parts_eq]; exact components_ok t⟩

theorem join_head {ps : List Text} (h : ∀ x ∈ ps, '/' ∉ x ∧ x ≠ [] ∧ x ≠ ['.']) : (join '/' ps).head? ≠ some '/' := by
  cases ps with
  | nil => simp [join]
  | cons p ps =>
    obtain ⟨h1, h2, -⟩ := h p (by simp)
    cases p with
    | nil => exact absurd rfl h2
    | cons d p =>
      have : d ≠ '/' := fun e => h1 (by simp [e])
      cases ps <;> simp [join, this]

theorem components_join {ps : List Text} (h : ∀ x ∈ ps, '/' ∉ x ∧ x ≠ [] ∧ x ≠ ['.']) : components (join '/' ps) = ps := by
  cases ps with
  | nil => rfl
  | cons p ps =>
    rw [components, split_join _ _ (by simp) fun x hx => (h x hx).1]
    rw [List.filter_eq_self]
    intro x hx
    simp [h x hx]

theorem components_slash (t : Text) : components ('/' :: t) = components t := by
  simp [components, split]

/-- The text of a path is one of the same path. -/
theorem ofText_text {p : Path} (h : p.Ok) : Path.ofText p.text = p := by
  have hh := join_head h.parts
  have hc := components_join h.parts
  have key : ∀ b, Begins (p.root ++ join '/' p.parts) p.root → components (p.root ++ join '/' p.parts) = p.parts →
      (p.root ++ join '/' p.parts ≠ [] ∨ b) → p.text = p.root ++ join '/' p.parts → Path.ofText p.text = p := by
    intro _ h1 h2 _ h3
    rw [h3]
    obtain ⟨root, parts⟩ := p
    have := parts_eq (root ++ join '/' parts)
    simp only [Path.ofText] at this ⊢
    rw [this, h2, rootOf_of h1]
  by_cases h0 : p.root ++ join '/' p.parts = []
  · obtain ⟨h1, h2⟩ := List.append_eq_nil_iff.1 h0
    have : p.parts = [] := by
      rw [← hc, h2]
      rfl
    obtain ⟨root, parts⟩ := p
    simp only at h1 this
    subst h1 this
    rfl
  · have ht : p.text = p.root ++ join '/' p.parts := by rw [Path.text, if_neg h0]
    refine key False ?_ ?_ (.inl h0) ht
    · rcases h.root with e | e | e <;> rw [e]
      · exact .relative hh
      · exact .one hh
      · exact .two hh
    · rcases h.root with e | e | e <;> rw [e]
      · exact hc
      · rw [List.cons_append, List.nil_append, components_slash, hc]
      · rw [List.cons_append, List.cons_append, List.nil_append, components_slash, components_slash, hc]

theorem text_spec {p : Path} (h : p.Ok) : Begins p.text p.root ∧ components p.text = p.parts := by
  have := ofText_text h
  refine ⟨?_, ?_⟩
  · have hb := begins_rootOf p.text
    rwa [show rootOf p.text = p.root from congrArg Path.root this] at hb
  · rw [← parts_eq, this]

theorem userHome_iff (w : World) (name h : Text) : userHome w name = some h ↔ Home w name h := by
  rw [userHome]
  by_cases hn : name = []
  · subst hn
    rw [if_pos rfl]
    cases he : w.env "HOME".toList with
    | some x =>
      constructor
      · intro hx
        cases hx
        exact .fromVariable he
      · intro hx
        cases hx with
        | fromVariable hx => simp only; rw [← he, hx]
        | current hx _ => rw [he] at hx; cases hx
        | user hx _ => exact absurd rfl hx
    | none =>
      constructor
      · intro hx
        exact .current he hx
      · intro hx
        cases hx with
        | fromVariable hx => rw [he] at hx; cases hx
        | current _ hx => exact hx
        | user hx _ => exact absurd rfl hx
  · rw [if_neg hn]
    constructor
    · exact fun hx => .user hn hx
    · intro hx
      cases hx with
      | fromVariable hx => exact absurd rfl hn
      | current _ hx => exact absurd rfl hn
      | user _ hx => exact hx

theorem unslash_split (t : Text) : ∃ r, t = r ++ unslash t ∧ (∀ c ∈ r, c = '/') ∧ (unslash t).head? ≠ some '/' := by
  induction t with
  | nil => exact ⟨[], rfl, by simp, by simp [unslash]⟩
  | cons d t ih =>
    by_cases hd : d = '/'
    · subst hd
      obtain ⟨r, h1, h2, h3⟩ := ih
      rw [unslash_cons]
      refine ⟨'/' :: r, by rw [List.cons_append, ← h1], ?_, h3⟩
      intro c hc
      rcases List.mem_cons.1 hc with rfl | hc
      · rfl
      · exact h2 c hc
    · have : (d :: t).head? ≠ some '/' := by simp [hd]
      rw [unslash_of this]
      exact ⟨[], rfl, by simp, this⟩

theorem unslashEnd_append (t : Text) : ∃ r, t = unslashEnd t ++ r ∧ (∀ c ∈ r, c = '/') ∧
    (unslashEnd t = [] ∨ ∃ x d, unslashEnd t = x ++ [d] ∧ d ≠ '/') := by
  obtain ⟨r, h1, h2, h3⟩ := unslash_split t.reverse
  refine ⟨r.reverse, ?_, ?_, ?_⟩
  · have := congrArg List.reverse h1
    rw [List.reverse_append, List.reverse_reverse] at this
    exact this
  · intro c hc
    exact h2 c (List.mem_reverse.1 hc)
  · rw [unslashEnd]
    cases hd : unslash t.reverse with
    | nil => exact .inl rfl
    | cons d x =>
      rw [hd] at h3
      exact .inr ⟨x.reverse, d, by simp, by simpa using h3⟩

theorem components_append_slashes (t r : Text) (h : ∀ c ∈ r, c = '/') : components (t ++ r) = components t := by
  induction r generalizing t with
  | nil => rw [List.append_nil]
  | cons d r ih =>
    have := h d (by simp)
    subst this
    have e : t ++ '/' :: r = (t ++ ['/']) ++ r := by simp
    rw [e, ih _ fun c hc => h c (by simp [hc])]
    have := split_append_sep '/' t []
    rw [components, this, List.filter_append]
    simp [components, split]

theorem begins_append {t b : Text} (h : Begins t b) (hne : ∃ c ∈ t, c ≠ '/') (r : Text) : Begins (t ++ r) b := by
  cases h with
  | relative h =>
    cases t with
    | nil => simp at hne
    | cons d t => exact .relative (by simpa using h)
  | @two t h =>
    cases t with
    | nil => simp at hne
    | cons d t => exact .two (by simpa using h)
  | @one t h =>
    cases t with
    | nil => simp at hne
    | cons d t => exact .one (by simpa using h)
  | more => exact .more

/-! ## Which files -/

/-- The end of `expand`. -/
def afterHome (rest : List Text) : Option Text → Option Path
  | none => none
  | some ('~' :: _) => none
  | some d => some ⟨(Path.ofText d).root, (Path.ofText d).parts ++ rest⟩

theorem afterHome_tilde (rest : List Text) {d : Text} (h : d.head? = some '~') : afterHome rest (some d) = none := by
  cases d with
  | nil => simp at h
  | cons c z =>
    simp only [List.head?_cons, Option.some.injEq] at h
    subst h
    rfl

theorem afterHome_some (rest : List Text) {d : Text} (h : d.head? ≠ some '~') :
    afterHome rest (some d) = some ⟨(Path.ofText d).root, (Path.ofText d).parts ++ rest⟩ := by
  rw [afterHome.eq_def]
  split
  · rename_i h; cases h
  · rename_i h'; cases h'; exact absurd rfl h
  · rename_i h; cases h; rfl

theorem expand_spec (w : World) (t : Text) :
    (∀ p, (Path.ofText t).expand w = some p → p.Ok ∧ Means w t p.root p.parts) ∧
    ((Path.ofText t).expand w = none ↔ Begins t [] ∧ ∃ name rest, components t = ('~' :: name) :: rest ∧
      ∀ h, Home w name h → h.head? = some '~') := by
  have hok := ofText_ok t
  have hb : Begins t (Path.ofText t).root := begins_rootOf t
  have hp := parts_eq t
  generalize Path.ofText t = q at *
  obtain ⟨root, parts⟩ := q
  simp only at hb hp
  subst hp
  by_cases htilde : root = [] ∧ ∃ name rest, components t = ('~' :: name) :: rest
  · obtain ⟨rfl, name, rest, hc⟩ := htilde
    have he : (Path.mk [] (components t)).expand w = afterHome rest (homeDir w name) := by
      rw [hc]
      rfl
    rw [he]
    cases hu : userHome w name with
    | none =>
      have : homeDir w name = none := by rw [homeDir, hu]; rfl
      rw [this]
      refine ⟨fun p h => (by cases h), fun _ => ⟨hb, name, rest, hc, ?_⟩, fun _ => rfl⟩
      intro h hh
      rw [(userHome_iff w name h).2 hh] at hu
      cases hu
    | some h =>
      have hh := (userHome_iff w name h).1 hu
      have huniq : ∀ h', Home w name h' → h' = h := by
        intro h' hh'
        have := ((userHome_iff w name h').2 hh').symm.trans hu
        exact Option.some.inj this
      obtain ⟨r, hr1, hr2, hr3⟩ := unslashEnd_append h
      have hd : homeDir w name = some (if unslashEnd h = [] then ['/'] else unslashEnd h) := by rw [homeDir, hu]; rfl
      rw [hd]
      generalize unslashEnd h = d at *
      subst hr1
      rcases hr3 with rfl | ⟨x, y, rfl, hy⟩
      · rw [if_pos rfl]
        have hroot : (Path.ofText ['/']).root = ['/'] ∧ (Path.ofText ['/']).parts = [] := ⟨rfl, rfl⟩
        refine ⟨?_, ?_⟩
        · intro p h
          cases h
          refine ⟨⟨.inr (.inl rfl), ?_⟩, ?_⟩
          · intro x hx
            exact hok.parts x (by simp only [hc]; exact List.mem_cons_of_mem _ hx)
          · have hcomp : components ([] ++ r) = [] := by rw [components_append_slashes _ _ hr2]; rfl
            have := Means.home (w := w) hb hc hh (b := ['/']) (by
              cases r with
              | nil => simp
              | cons d r => rw [hr2 d (by simp)]; simp) (.inl ⟨hcomp, by simpa using hr2, rfl⟩)
            rw [hcomp] at this
            exact this
        · constructor
          · intro h
            cases h
          · rintro ⟨-, name', rest', hc', hall⟩
            rw [hc] at hc'
            cases hc'
            have := hall _ hh
            cases r with
            | nil => simp at this
            | cons d r => rw [hr2 d (by simp)] at this; simp at this
      · rw [if_neg (by simp)]
        by_cases ht : (x ++ [y]).head? = some '~'
        · rw [afterHome_tilde rest ht]
          refine ⟨fun p h => (by cases h), fun _ => ⟨hb, name, rest, hc, ?_⟩, fun _ => rfl⟩
          intro h' hh'
          rw [huniq h' hh']
          cases hx : x ++ [y] with
          | nil => simp at hx
          | cons c z => rw [hx] at ht; simpa using ht
        · rw [afterHome_some rest ht]
          have hne : ∃ c ∈ x ++ [y], c ≠ '/' := ⟨y, by simp, hy⟩
          have hhead : (x ++ [y] ++ r).head? = (x ++ [y]).head? := by cases x <;> simp
          refine ⟨?_, ?_⟩
          · intro p h
            cases h
            have ok := ofText_ok (x ++ [y])
            refine ⟨⟨ok.root, ?_⟩, ?_⟩
            · intro z hz
              rcases List.mem_append.1 hz with hz | hz
              · exact ok.parts z hz
              · exact hok.parts z (by simp only [hc]; exact List.mem_cons_of_mem _ hz)
            · have := Means.home (w := w) hb hc hh (b := rootOf (x ++ [y])) (by rw [hhead]; exact ht)
                (.inr ⟨hne.imp fun c hc => ⟨List.mem_append_left _ hc.1, hc.2⟩, begins_append (begins_rootOf _) hne r⟩)
              rw [components_append_slashes _ _ hr2] at this
              rw [parts_eq]
              exact this
          · constructor
            · intro h
              cases h
            · rintro ⟨-, name', rest', hc', hall⟩
              rw [hc] at hc'
              cases hc'
              have := hall _ hh
              rw [hhead] at this
              exact absurd this ht
  · have he : (Path.mk root (components t)).expand w = some ⟨root, components t⟩ := by
      rw [Path.expand.eq_def]
      split
      · rename_i h1 h2
        exact absurd ⟨h1, _, _, h2⟩ htilde
      · rfl
    rw [he]
    refine ⟨?_, ?_⟩
    · intro p h
      cases h
      refine ⟨hok, .plain hb ?_⟩
      by_cases h0 : root = []
      · exact .inr fun name rest hc => htilde ⟨h0, name, rest, hc⟩
      · exact .inl h0
    · constructor
      · intro h
        cases h
      · rintro ⟨hb', name, rest, hc, -⟩
        exact absurd ⟨(rootOf_of hb).symm.trans (rootOf_of hb'), name, rest, hc⟩ htilde

theorem given_iff (w : World) (var dflt : Text) (argument : Option Text) (t : Text) :
    Given w var dflt argument t ↔ (match argument with
      | some t => t
      | none => (w.env var).getD dflt) = t := by
  cases argument with
  | some x =>
    constructor
    · intro h; cases h; rfl
    · rintro rfl; exact .argument
  | none =>
    constructor
    · intro h
      cases h with
      | environment h => simp [h]
      | default h => simp [h]
    · intro h
      cases he : w.env var with
      | none =>
        rw [he] at h
        simp only [Option.getD_none] at h
        subst h
        exact .default he
      | some x =>
        rw [he] at h
        simp only [Option.getD_some] at h
        subst h
        exact .environment he

/-- C123: the path of a file is the one given as an argument, in the environment, or the usual one, in this order, with the
home directory for a tilde at its beginning; and there is none exactly if that directory is needed and not known. -/
theorem C123_path (w : World) (argument : Option Text) (var dflt : Text) :
    (∀ u, pathOf w argument var dflt = some u →
      ∃ t b cs, Given w var dflt argument t ∧ Means w t b cs ∧ Begins u b ∧ components u = cs) ∧
    (pathOf w argument var dflt = none ↔ ∃ t name rest, Given w var dflt argument t ∧ Begins t [] ∧
      components t = ('~' :: name) :: rest ∧ ∀ h, Home w name h → h.head? = some '~') := by
  obtain ⟨t, hg⟩ : ∃ t, Given w var dflt argument t := by
    cases argument with
    | some t => exact ⟨t, .argument⟩
    | none =>
      cases he : w.env var with
      | some t => exact ⟨t, .environment he⟩
      | none => exact ⟨dflt, .default he⟩
  have ht := (given_iff w var dflt argument t).1 hg
  obtain ⟨h1, h2⟩ := expand_spec w t
  have hpath : pathOf w argument var dflt = ((Path.ofText t).expand w).map Path.text := by
    rw [← ht]
    cases argument <;> rfl
  rw [hpath]
  refine ⟨?_, ?_⟩
  · intro u hu
    obtain ⟨p, hp, rfl⟩ := Option.map_eq_some_iff.1 hu
    obtain ⟨hok, hm⟩ := h1 p hp
    obtain ⟨h3, h4⟩ := text_spec hok
    exact ⟨t, _, _, hg, hm, h3, h4⟩
  · rw [Option.map_eq_none_iff, h2]
    constructor
    · rintro ⟨hb, name, rest, hc, hall⟩
      exact ⟨t, name, rest, hg, hb, hc, hall⟩
    · rintro ⟨t', name, rest, hg', hb, hc, hall⟩
      have := (given_iff w var dflt argument t').1 hg'
      rw [ht] at this
      subst this
      exact ⟨hb, name, rest, hc, hall⟩

/-! ## What is read -/

theorem pathOf_text {w : World} {argument : Option Text} {var dflt u : Text} (h : pathOf w argument var dflt = some u) :
    (Path.ofText u).text = u := by
  obtain ⟨p, hp, rfl⟩ := Option.map_eq_some_iff.1 h
  rw [ofText_text ((expand_spec w _).1 p hp).1]

theorem readFile_iff {w : World} {n : Nat} {u : Text} (h : (Path.ofText u).text = u) (t : Option Text) :
    readFile w n u = .ok t ↔ Holds w n u t := by
  rw [readFile, h, Holds]
  cases w.disk n u <;> simp [eq_comm]

theorem readFile_error {w : World} {n : Nat} {u : Text} (h : (Path.ofText u).text = u) (e : LoadErr) :
    readFile w n u = .error e ↔ e = .unicode ∧ w.disk n u = .encoding := by
  rw [readFile, h]
  cases w.disk n u <;> simp [eq_comm]

/-- C123: loading reads the config file and then the credentials file, at their paths, and gives what C48 says of what they
hold at these moments. -/
theorem C123_load (w : World) (config credentials : Option Text) (n : Nat) (ps : List Text) (m : Std) :
    loadConfig w config credentials n = (ps, .ok m) ↔
      ∃ c k tc tk, configPath w config = some c ∧ credentialsPath w credentials = some k ∧
        Holds w n c tc ∧ Holds w (n + 1) k tk ∧ load tc tk = .ok m ∧ ps = [c, k] := by
  rw [loadConfig]
  cases hc : configPath w config with
  | none => simp
  | some c =>
    cases hk : credentialsPath w credentials with
    | none => simp
    | some k =>
      have fc := fun n => readFile_iff (w := w) (n := n) (pathOf_text hc)
      have fk := fun n => readFile_iff (w := w) (n := n) (pathOf_text hk)
      constructor
      · intro h
        simp only [parseAt] at h
        cases h1 : readFile w n c with
        | error e => rw [h1] at h; simp at h
        | ok tc =>
          rw [h1] at h
          cases h2 : parseFile tc with
          | error e => simp [h2] at h
          | ok rc =>
            cases h3 : readFile w (n + 1) k with
            | error e => simp [h2, h3] at h
            | ok tk =>
              cases h4 : parseFile tk with
              | error e => simp [h2, h3, h4] at h
              | ok rk =>
                simp only [h2, h3, h4, Prod.mk.injEq, Except.ok.injEq] at h
                refine ⟨c, k, tc, tk, rfl, rfl, (fc n tc).1 h1, (fk (n + 1) tk).1 h3, ?_, h.1.symm⟩
                simp only [load, h2, h4, h.2]
      · rintro ⟨c', k', tc, tk, h1, h2, h3, h4, h5, rfl⟩
        cases h1
        cases h2
        rw [load] at h5
        simp only [parseAt, (fc n tc).2 h3, (fk (n + 1) tk).2 h4]
        cases h6 : parseFile tc with
        | error e => simp [h6] at h5
        | ok rc =>
          cases h7 : parseFile tk with
          | error e => simp [h6, h7] at h5
          | ok rk =>
            simp only [h6, h7, Except.ok.injEq] at h5
            simp only [h5]

/-- C123: and it fails only if a path is not known, before anything is read; or if a file is not UTF-8 or is not a file of
profiles, and then the credentials file is not read if it is the config file. -/
theorem C123_load_error (w : World) (config credentials : Option Text) (n : Nat) (ps : List Text) (e : LoadErr)
    (h : loadConfig w config credentials n = (ps, .error e)) :
    (e = .home ∧ ps = [] ∧ (configPath w config = none ∨ credentialsPath w credentials = none)) ∨
    ∃ c k, configPath w config = some c ∧ credentialsPath w credentials = some k ∧
      ((ps = [c] ∧ (e = .unicode ∧ w.disk n c = .encoding ∨ ∃ t x, Holds w n c t ∧ parseFile t = .error x ∧ e = .parse x)) ∨
       (ps = [c, k] ∧ (∃ t r, Holds w n c t ∧ parseFile t = .ok r) ∧
         (e = .unicode ∧ w.disk (n + 1) k = .encoding ∨
           ∃ t x, Holds w (n + 1) k t ∧ parseFile t = .error x ∧ e = .parse x))) := by
  rw [loadConfig] at h
  cases hc : configPath w config with
  | none =>
    rw [hc] at h
    simp only [Prod.mk.injEq, Except.error.injEq] at h
    exact .inl ⟨h.2.symm, h.1.symm, .inl rfl⟩
  | some c =>
    cases hk : credentialsPath w credentials with
    | none =>
      rw [hc, hk] at h
      simp only [Prod.mk.injEq, Except.error.injEq] at h
      exact .inl ⟨h.2.symm, h.1.symm, .inr rfl⟩
    | some k =>
      have fc := fun n => readFile_iff (w := w) (n := n) (pathOf_text hc)
      have fk := fun n => readFile_iff (w := w) (n := n) (pathOf_text hk)
      refine .inr ⟨c, k, rfl, rfl, ?_⟩
      rw [hc, hk] at h
      simp only [parseAt] at h
      cases h1 : readFile w n c with
      | error x =>
        simp only [h1, Prod.mk.injEq, Except.error.injEq] at h
        obtain ⟨rfl, rfl⟩ := h
        exact .inl ⟨rfl, .inl ((readFile_error (pathOf_text hc) _).1 h1)⟩
      | ok tc =>
        cases h2 : parseFile tc with
        | error x =>
          simp only [h1, h2, Prod.mk.injEq, Except.error.injEq] at h
          obtain ⟨rfl, rfl⟩ := h
          exact .inl ⟨rfl, .inr ⟨tc, x, (fc n tc).1 h1, h2, rfl⟩⟩
        | ok rc =>
          have hrc : ∃ t r, Holds w n c t ∧ parseFile t = .ok r := ⟨tc, rc, (fc n tc).1 h1, h2⟩
          cases h3 : readFile w (n + 1) k with
          | error x =>
            simp only [h1, h2, h3, Prod.mk.injEq, Except.error.injEq] at h
            obtain ⟨rfl, rfl⟩ := h
            exact .inr ⟨rfl, hrc, .inl ((readFile_error (pathOf_text hk) _).1 h3)⟩
          | ok tk =>
            cases h4 : parseFile tk with
            | error x =>
              simp only [h1, h2, h3, h4, Prod.mk.injEq, Except.error.injEq] at h
              obtain ⟨rfl, rfl⟩ := h
              exact .inr ⟨rfl, hrc, .inr ⟨tk, x, (fk (n + 1) tk).1 h3, h4, rfl⟩⟩
            | ok rk =>
              simp [h1, h2, h3, h4] at h

/-! ## One reading -/

/-- What is known of a context while a configuration is resolved. -/
def Inv (w : World) (a : Args) (s : St) : Prop :=
  s = ⟨none, []⟩ ∨ ∃ m, (loadConfig w a.config a.credentials 0).2 = .ok m ∧ s = ⟨some m, (loadConfig w a.config a.credentials 0).1⟩

/-- What has been read at the end. -/
def Fin' (w : World) (a : Args) (s : St) : Prop :=
  s.reads = [] ∨ s.reads = (loadConfig w a.config a.credentials 0).1

theorem Inv.fin {w : World} {a : Args} {s : St} (h : Inv w a s) : Fin' w a s := by
  rcases h with rfl | ⟨m, -, rfl⟩
  · exact .inl rfl
  · exact .inr rfl

/-- A step does what C49 says with what one loading gives. -/
def Rel {α : Type} (w : World) (a : Args) (x : St × Except Fail α) (y : Except Settings.Error α) : Prop :=
  (∃ s r, x = (s, .ok r) ∧ y = .ok r ∧ Inv w a s) ∨ (∃ s e, x = (s, .error e) ∧ y = .error e.erase ∧ Fin' w a s)

/-- The world of C49. -/
def World.pure (w : World) (a : Args) : Settings.World :=
  w.settings ((loadConfig w a.config a.credentials 0).2.mapError LoadErr.erase)

theorem profiles_rel {w : World} {a : Args} {s : St} (h : Inv w a s) :
    (∃ m s', (w.pure a).files = .ok m ∧ s.profiles w a = (s', .ok m) ∧ Inv w a s') ∨
    (∃ e s', (w.pure a).files = .error e.erase ∧ s.profiles w a = (s', .error e) ∧ Fin' w a s') := by
  rcases h with rfl | ⟨m, h, rfl⟩
  · cases hl : loadConfig w a.config a.credentials 0 with
    | mk ps r =>
      cases r with
      | ok m =>
        refine .inl ⟨m, ⟨some m, ps⟩, ?_, ?_, .inr ⟨m, by rw [hl], by rw [hl]⟩⟩
        · simp [World.pure, World.settings, hl, Except.mapError]
        · simp [St.profiles, hl]
      | error e =>
        refine .inr ⟨e, ⟨none, ps⟩, ?_, ?_, .inr (by rw [hl])⟩
        · simp [World.pure, World.settings, hl, Except.mapError]
        · simp [St.profiles, hl]
  · refine .inl ⟨m, _, ?_, rfl, .inr ⟨m, h, rfl⟩⟩
    simp [World.pure, World.settings, h, Except.mapError]

theorem firstEnv_settings (w : World) (x y : Except Err Std) (vars : List Text) :
    Settings.firstEnv (w.settings x) vars = Settings.firstEnv (w.settings y) vars := by
  induction vars with
  | nil => rfl
  | cons v vs ih =>
    rw [Settings.firstEnv, Settings.firstEnv, ih]
    rfl

theorem str_rel {w : World} {a : Args} {s : St} (h : Inv w a s) (p : Text) (vars keys : List Text) :
    Rel w a (s.str w a p vars keys) (Settings.resolveStr (w.pure a) p vars keys) := by
  rw [St.str, Settings.resolveStr, firstEnv_settings w (.error .crash) ((loadConfig w a.config a.credentials 0).2.mapError LoadErr.erase)]
  show Rel w a (match Settings.firstEnv (w.pure a) vars with | some t => _ | none => _) _
  cases Settings.firstEnv (w.pure a) vars with
  | some t => exact .inl ⟨s, _, rfl, rfl, h⟩
  | none =>
    by_cases hk : keys = []
    · simp only [if_pos hk]
      exact .inl ⟨s, _, rfl, rfl, h⟩
    · simp only [if_neg hk]
      rcases profiles_rel h with ⟨m, s', h1, h2, h3⟩ | ⟨e, s', h1, h2, h3⟩
      · rw [h1, h2]
        simp only
        cases Settings.firstKey m p keys with
        | none => exact .inl ⟨s', _, rfl, rfl, h3⟩
        | some t => exact .inl ⟨s', _, rfl, rfl, h3⟩
      · rw [h1, h2]
        exact .inr ⟨s', _, rfl, rfl, h3⟩

theorem resolver_rel {w : World} {a : Args} {s : St} (h : Inv w a s) (p : Text) (f : Field) :
    Rel w a (s.resolver w a p f) (Settings.resolver (w.pure a) p f) := by
  cases f with
  | region =>
    rw [St.resolver, Settings.resolver, St.region, Settings.resolveRegion]
    rcases str_rel h p ["AWS_REGION".toList, "AWS_DEFAULT_REGION".toList] ["region".toList] with
      ⟨s', r, h1, h2, h3⟩ | ⟨s', e, h1, h2, h3⟩
    · rw [h1, h2]
      cases r with
      | none => exact .inl ⟨s', _, rfl, rfl, h3⟩
      | some r => exact .inl ⟨s', _, rfl, rfl, h3⟩
    · rw [h1, h2]
      exact .inr ⟨s', _, rfl, rfl, h3⟩
  | retryMode =>
    rw [St.resolver, Settings.resolver, St.retryMode, Settings.resolveRetryMode]
    rcases str_rel h p ["AWS_RETRY_MODE".toList] ["retry_mode".toList] with
      ⟨s', r, h1, h2, h3⟩ | ⟨s', e, h1, h2, h3⟩
    · rw [h1, h2]
      cases r with
      | none => exact .inl ⟨s', _, rfl, rfl, h3⟩
      | some r =>
        obtain ⟨t, x⟩ := r
        simp only
        by_cases e1 : t = "legacy".toList
        · rw [if_pos e1, if_pos e1]
          exact .inl ⟨s', _, rfl, rfl, h3⟩
        · rw [if_neg e1, if_neg e1]
          by_cases e2 : t = "adaptive".toList
          · rw [if_pos e2, if_pos e2]
            exact .inl ⟨s', _, rfl, rfl, h3⟩
          · rw [if_neg e2, if_neg e2]
            exact .inl ⟨s', _, rfl, rfl, h3⟩
    · rw [h1, h2]
      exact .inr ⟨s', _, rfl, rfl, h3⟩
  | maxAttempts =>
    rw [St.resolver, Settings.resolver, St.maxAttempts, Settings.resolveMaxAttempts]
    rcases str_rel h p ["AWS_MAX_ATTEMPTS".toList] ["max_attempts".toList] with
      ⟨s', r, h1, h2, h3⟩ | ⟨s', e, h1, h2, h3⟩
    · rw [h1, h2]
      cases r with
      | none => exact .inl ⟨s', _, rfl, rfl, h3⟩
      | some r =>
        obtain ⟨t, x⟩ := r
        show Rel w a (match w.int t with | some n => _ | none => _) (match w.int t with | some n => _ | none => _)
        cases w.int t with
        | some n => exact .inl ⟨s', _, rfl, rfl, h3⟩
        | none => exact .inr ⟨s', .validation, rfl, rfl, h3.fin⟩
    · rw [h1, h2]
      exact .inr ⟨s', _, rfl, rfl, h3⟩

theorem assign_error {c : Config} {f : Field} {v : PyVal} {e : Settings.Error} (h : c.assign f v = .error e) :
    e = .validation := by
  rw [Config.assign] at h
  cases hs : c.sources.lookup f with
  | none => rw [hs] at h; cases h
  | some x =>
    rw [hs] at h
    simp only at h
    by_cases hv : Settings.validate f v = true
    · rw [if_pos hv] at h; cases h
    · rw [if_neg hv] at h; cases h; rfl

/-- What `resolveFields` chooses. -/
def chosen (w : Settings.World) (p : Text) (o : List (Text × PyVal)) (f : Field) : Except Settings.Error (PyVal × Source) :=
  match o.lookup f.name with
  | some v => .ok (v, .override)
  | none =>
    match Settings.resolver w p f with
    | .error e => .error e
    | .ok (some r) => .ok r
    | .ok none => .ok (Settings.dflt f, .default)

theorem choose_rel {w : World} {a : Args} {s : St} (h : Inv w a s) (p : Text) (f : Field) :
    Rel w a (s.choose w a p f) (chosen (w.pure a) p a.overrides f) := by
  rw [St.choose, chosen]
  cases a.overrides.lookup f.name with
  | some v => exact .inl ⟨s, _, rfl, rfl, h⟩
  | none =>
    rcases resolver_rel h p f with ⟨s', r, h1, h2, h3⟩ | ⟨s', e, h1, h2, h3⟩
    · simp only [h1, h2]
      cases r with
      | none => exact .inl ⟨s', _, rfl, rfl, h3⟩
      | some r => exact .inl ⟨s', _, rfl, rfl, h3⟩
    · simp only [h1, h2]
      exact .inr ⟨s', _, rfl, rfl, h3⟩

theorem fields_rel {w : World} {a : Args} (p : Text) (fs : List Field) (c : Config) {s : St} (h : Inv w a s) :
    Rel w a (s.fields w a p fs c) (Settings.resolveFields (w.pure a) p a.overrides fs c) := by
  induction fs generalizing c s with
  | nil => exact .inl ⟨s, _, rfl, rfl, h⟩
  | cons f fs ih =>
    rw [St.fields, Settings.resolveFields]
    show Rel w a _ (match chosen (w.pure a) p a.overrides f with | .error e => _ | .ok (v, s) => _)
    rcases choose_rel h p f with ⟨s', ⟨v, x⟩, h1, h2, h3⟩ | ⟨s', e, h1, h2, h3⟩
    · simp only [h1, h2]
      cases hc : c.assign f v with
      | error e =>
        have := assign_error hc
        subst this
        exact .inr ⟨s', .validation, rfl, rfl, h3.fin⟩
      | ok c =>
        simp only
        by_cases hv : Settings.validate f v = true
        · rw [if_pos hv, if_pos hv]
          exact ih _ h3
        · rw [if_neg hv, if_neg hv]
          exact .inr ⟨s', .validation, rfl, rfl, h3.fin⟩
    · simp only [h1, h2]
      exact .inr ⟨s', _, rfl, rfl, h3⟩

/-- C123: however the files change, what `resolve` gives is what C49 says of one loading of them; nothing else is read, and
nothing is read twice. -/
theorem C123_once (w : World) (a : Args) :
    (resolve w a).2.mapError Fail.erase =
      Settings.resolve ⟨w.env, (loadConfig w a.config a.credentials 0).2.mapError LoadErr.erase, w.int⟩ a.profile a.overrides ∧
    ((resolve w a).1.reads = [] ∨ (resolve w a).1.reads = (loadConfig w a.config a.credentials 0).1) := by
  have key : Rel w a (resolve w a) (Settings.resolve (w.pure a) a.profile a.overrides) := by
    rw [resolve, Settings.resolve]
    have hp : Settings.profileName (w.settings (.error .crash)) a.profile = Settings.profileName (w.pure a) a.profile := rfl
    rw [hp]
    have h0 : Inv w a ⟨none, []⟩ := .inl rfl
    have go : ∀ s, Inv w a s → Rel w a
        (if Settings.known a.overrides then s.fields w a (Settings.profileName (w.pure a) a.profile).1 [.region, .retryMode, .maxAttempts] ⟨[], []⟩
          else (s, .error .validation))
        (if Settings.known a.overrides then
          Settings.resolveFields (w.pure a) (Settings.profileName (w.pure a) a.profile).1 a.overrides [.region, .retryMode, .maxAttempts] ⟨[], []⟩
          else .error .validation) := by
      intro s hs
      by_cases hk : Settings.known a.overrides = true
      · rw [if_pos hk, if_pos hk]
        exact fields_rel _ _ _ hs
      · rw [if_neg hk, if_neg hk]
        exact .inr ⟨s, .validation, rfl, rfl, hs.fin⟩
    by_cases h2 : (Settings.profileName (w.pure a) a.profile).2 = true
    · rw [if_pos h2, if_pos h2]
      rcases profiles_rel h0 with ⟨m, s', e1, e2, e3⟩ | ⟨e, s', e1, e2, e3⟩
      · rw [e1, e2]
        simp only
        by_cases h4 : (m.profiles.lookup (Settings.profileName (w.pure a) a.profile).1).isSome = true
        · rw [if_pos h4, if_pos h4]
          exact go s' e3
        · rw [if_neg h4, if_neg h4]
          exact .inr ⟨s', .profileNotFound, rfl, rfl, e3.fin⟩
      · rw [e1, e2]
        exact .inr ⟨s', _, rfl, rfl, e3⟩
    · rw [if_neg h2, if_neg h2]
      exact go _ h0
  rcases key with ⟨s, r, h1, h2, h3⟩ | ⟨s, e, h1, h2, h3⟩
  · refine ⟨?_, ?_⟩
    · rw [h1]; exact h2.symm
    · rw [h1]; exact h3.fin
  · refine ⟨?_, ?_⟩
    · rw [h1]; exact h2.symm
    · rw [h1]; exact h3

/-- C123: once the profiles are there, asking for them again gives the same and reads nothing. -/
theorem C123_cached (w : World) (a : Args) (s s' : St) (m : Std) (h : s.profiles w a = (s', .ok m)) :
    s'.profiles w a = (s', .ok m) := by
  rw [St.profiles] at h
  cases hc : s.cached with
  | some x =>
    rw [hc] at h
    simp only [Prod.mk.injEq, Except.ok.injEq] at h
    obtain ⟨rfl, rfl⟩ := h
    rw [St.profiles, hc]
  | none =>
    rw [hc] at h
    cases hl : loadConfig w a.config a.credentials s.reads.length with
    | mk ps r =>
      cases r with
      | error e => simp [hl] at h
      | ok x =>
        simp only [hl, Prod.mk.injEq, Except.ok.injEq] at h
        obtain ⟨rfl, rfl⟩ := h
        rfl

/-! ## Several calls at once -/

/-- The profiles are those of what was read from the config file, and later from the credentials file. -/
def FromReads (c k : Text) (reads : List (Text × Except LoadErr (Option Text))) (m : Std) : Prop :=
  ∃ (i j : Nat) (tc tk : Option Text), i < j ∧ reads[i]? = some (c, .ok tc) ∧ reads[j]? = some (k, .ok tk) ∧ load tc tk = .ok m

theorem get_append {α : Type} {l : List α} {i : Nat} {x : α} (h : l[i]? = some x) (r : List α) : (l ++ r)[i]? = some x := by
  rw [List.getElem?_append_left (List.getElem?_eq_some_iff.1 h).1]
  exact h

theorem FromReads.append {c k : Text} {reads : List (Text × Except LoadErr (Option Text))} {m : Std} (h : FromReads c k reads m)
    (r : List (Text × Except LoadErr (Option Text))) : FromReads c k (reads ++ r) m := by
  obtain ⟨i, j, tc, tk, h1, h2, h3, h4⟩ := h
  exact ⟨i, j, tc, tk, h1, get_append h2 r, get_append h3 r, h4⟩

/-- What is known of one call. -/
def TaskOk (c k : Text) (reads : List (Text × Except LoadErr (Option Text))) : Task → Prop
  | .new => True
  | .config t => ∃ i : Nat, reads[i]? = some (c, t)
  | .credentials rc t => ∃ (i j : Nat) (tc : Option Text), i < j ∧ reads[i]? = some (c, .ok tc) ∧ parseFile tc = .ok rc ∧ reads[j]? = some (k, t)
  | .done m => FromReads c k reads m
  | .failed _ => True

theorem TaskOk.append {c k : Text} {reads : List (Text × Except LoadErr (Option Text))} {t : Task} (h : TaskOk c k reads t)
    (r : List (Text × Except LoadErr (Option Text))) : TaskOk c k (reads ++ r) t := by
  cases t with
  | new => trivial
  | config t => obtain ⟨i, h⟩ := h; exact ⟨i, get_append h r⟩
  | credentials rc t =>
    obtain ⟨i, j, tc, h1, h2, h3, h4⟩ := h
    exact ⟨i, j, tc, h1, get_append h2 r, h3, get_append h4 r⟩
  | done m => exact FromReads.append h r
  | failed e => trivial

/-- What is known of all calls. -/
structure TogetherOk (w : World) (c k : Text) (s : Together) : Prop where
  reads : ∀ (n : Nat) p r, s.reads[n]? = some (p, r) → (p = c ∨ p = k) ∧ r = readFile w n p
  cached : ∀ m, s.cached = some m → FromReads c k s.reads m
  tasks : ∀ t ∈ s.tasks, TaskOk c k s.reads t

theorem TogetherOk.set {w : World} {c k : Text} {s : Together} (h : TogetherOk w c k s) (i : Nat) {t : Task}
    (ht : TaskOk c k s.reads t) : TogetherOk w c k { s with tasks := s.tasks.set i t } where
  reads := h.reads
  cached := h.cached
  tasks := by
    intro x hx
    rcases List.mem_or_eq_of_mem_set hx with hx | rfl
    · exact h.tasks x hx
    · exact ht

theorem TogetherOk.read {w : World} {c k : Text} {s : Together} (h : TogetherOk w c k s) (i : Nat) {t : Task} {p : Text}
    (hp : p = c ∨ p = k) (ht : TaskOk c k (s.reads ++ [(p, readFile w s.reads.length p)]) t) :
    TogetherOk w c k { s with tasks := s.tasks.set i t, reads := s.reads ++ [(p, readFile w s.reads.length p)] } where
  reads := by
    intro n q r hr
    by_cases hn : n < s.reads.length
    · simp only [List.getElem?_append_left hn] at hr
      exact h.reads n q r hr
    · have hn' : n = s.reads.length := by
        have := (List.getElem?_eq_some_iff.1 hr).1
        simp only [List.length_append, List.length_cons, List.length_nil] at this
        omega
      subst hn'
      simp only [List.getElem?_concat_length, Option.some.injEq, Prod.mk.injEq] at hr
      obtain ⟨rfl, rfl⟩ := hr
      exact ⟨hp, rfl⟩
  cached := fun m hm => (h.cached m hm).append _
  tasks := by
    intro x hx
    rcases List.mem_or_eq_of_mem_set hx with hx | rfl
    · exact (h.tasks x hx).append _
    · exact ht

theorem TogetherOk.step {w : World} {c k : Text} {s : Together} (h : TogetherOk w c k s) (i : Nat) :
    TogetherOk w c k (s.step w c k i) := by
  rw [Together.step.eq_def]
  cases hi : s.tasks[i]? with
  | none => exact h
  | some t =>
    have ht := h.tasks t (List.mem_of_getElem? hi)
    cases t with
    | new =>
      simp only
      cases hc : s.cached with
      | some m =>
        have := h.set i (t := .done m) (h.cached m hc)
        rw [hc] at this
        exact this
      | none =>
        have := h.read i (t := .config (readFile w s.reads.length c)) (p := c) (.inl rfl) ⟨s.reads.length, by simp⟩
        rw [hc] at this
        exact this
    | config t =>
      cases t with
      | error e => exact h.set i (t := .failed e) trivial
      | ok t =>
        simp only
        cases hp : parseFile t with
        | error e => exact h.set i (t := .failed (.parse e)) trivial
        | ok rc =>
          obtain ⟨x, hx⟩ := ht
          exact h.read i (t := .credentials rc _) (p := k) (.inr rfl)
            ⟨x, s.reads.length, t, (List.getElem?_eq_some_iff.1 hx).1, get_append hx _, hp, by simp⟩
    | credentials rc t =>
      cases t with
      | error e => exact h.set i (t := .failed e) trivial
      | ok t =>
        simp only
        cases hp : parseFile t with
        | error e => exact h.set i (t := .failed (.parse e)) trivial
        | ok rk =>
          obtain ⟨x, y, tc, h1, h2, h3, h4⟩ := ht
          have hf : FromReads c k s.reads (merged (standardize rc .config) (standardize rk .credentials)) :=
            ⟨x, y, tc, t, h1, h2, h4, by rw [load, h3, hp]⟩
          have := h.set i (t := .done _) hf
          exact ⟨this.reads, fun m hm => by cases hm; exact hf, this.tasks⟩
    | done m => exact h
    | failed e => exact h

/-- C123: in whatever order calls go on that ask for the profiles at the same time, each of them gets those of the config file
at one moment and of the credentials file at a later one, from what was read from the two. -/
theorem C123_concurrent (w : World) (config credentials : Option Text) (c k : Text) (hc : configPath w config = some c)
    (hk : credentialsPath w credentials = some k) (n : Nat) (schedule : List Nat) (i : Nat) (m : Std) (h : (together w c k n schedule).tasks[i]? = some (.done m)) :
    ∃ (x y : Nat) (tc tk : Option Text), x < y ∧ y < (together w c k n schedule).reads.length ∧
      Holds w x c tc ∧ Holds w y k tk ∧ load tc tk = .ok m := by
  have hok : ∀ (l : List Nat) (s : Together), TogetherOk w c k s → TogetherOk w c k (l.foldl (fun s i => s.step w c k i) s) := by
    intro l
    induction l with
    | nil => exact fun s h => h
    | cons i l ih => exact fun s h => ih _ (h.step i)
  have h0 : TogetherOk w c k ⟨List.replicate n .new, none, []⟩ := by
    refine ⟨?_, ?_, ?_⟩
    · intro n p r h
      simp at h
    · intro m h
      cases h
    · intro t ht
      rw [(List.mem_replicate.1 ht).2]
      trivial
  have hs := hok schedule _ h0
  obtain ⟨x, y, tc, tk, h1, h2, h3, h4⟩ := hs.tasks _ (List.mem_of_getElem? h)
  refine ⟨x, y, tc, tk, h1, (List.getElem?_eq_some_iff.1 h3).1, ?_, ?_, h4⟩
  · exact (readFile_iff (pathOf_text hc) tc).1 (hs.reads x c _ h2).2.symm
  · exact (readFile_iff (pathOf_text hk) tk).1 (hs.reads y k _ h3).2.symm

/-! ## Examples, and what does not hold -/

/-- A home directory, and files that change whenever one is read. -/
def changing (env : List (Text × Text)) : World where
  env x := env.lookup x
  home name := if name = "ann".toList then some "/home/ann".toList else none
  disk n p :=
    if p = "/home/u/.aws/config".toList then
      .text (if n = 0 then "[default]\nregion = a".toList else "[default]\nregion = b".toList)
    else .missing
  int _ := none

def atHome : World := changing [("HOME".toList, "/home/u/".toList)]

/-- C123 (what does not hold): calls that ask for the profiles at the same time may all read the files, and then get different
profiles; the file is not read once. -/
theorem C123_once_fails :
    ∃ (c k : Text) (m m' : Std), configPath atHome none = some c ∧ credentialsPath atHome none = some k ∧
      (together atHome c k 2 [0, 1, 0, 0, 1, 1]).tasks[0]? = some (.done m) ∧
      (together atHome c k 2 [0, 1, 0, 0, 1, 1]).tasks[1]? = some (.done m') ∧
      m.get "default".toList "region".toList = some "a".toList ∧ m'.get "default".toList "region".toList = some "b".toList ∧
      (together atHome c k 2 [0, 1, 0, 0, 1, 1]).reads.map Prod.fst = [c, c, k, k] := by
  refine ⟨"/home/u/.aws/config".toList, "/home/u/.aws/credentials".toList,
    ⟨[("default".toList, [("region".toList, .text "a".toList)])], [], []⟩,
    ⟨[("default".toList, [("region".toList, .text "b".toList)])], [], []⟩, ?_, ?_, ?_, ?_, ?_, ?_, ?_⟩ <;> with_unfolding_all rfl

/-- C123 (an empty variable): unlike those of settings, it is not as one that is not set, and the file is the working
directory. -/
theorem C123_empty (w : World) (h : w.env "AWS_CONFIG_FILE".toList = some []) : configPath w none = some ['.'] := by
  rw [configPath, pathOf, h]
  rfl

/-- One after the other, the second call gets what the first read. -/
example : (together atHome "/home/u/.aws/config".toList "/home/u/.aws/credentials".toList 2 [0, 0, 0, 1]).reads.map Prod.fst =
    ["/home/u/.aws/config".toList, "/home/u/.aws/credentials".toList] := by decide +kernel

/-- The usual place, another user's home, a home that is the root, and one that is not known. -/
example : configPath atHome none = some "/home/u/.aws/config".toList ∧
    configPath atHome (some "~ann//x/./y/".toList) = some "/home/ann/x/y".toList ∧
    configPath atHome (some "~bob/x".toList) = none ∧
    configPath (changing [("HOME".toList, [])]) none = some "/.aws/config".toList ∧
    configPath (changing []) none = none ∧
    configPath (changing [("AWS_CONFIG_FILE".toList, "x/../~ann".toList)]) none = some "x/../~ann".toList := by
  refine ⟨?_, ?_, ?_, ?_, ?_, ?_⟩ <;> decide +kernel

/-- A configuration of files that change. -/
example : (resolve atHome ⟨none, none, none, []⟩).2 = .ok
      ⟨[(.region, .str "a".toList), (.retryMode, .str "standard".toList), (.maxAttempts, .null)],
       [(.region, .profile), (.retryMode, .default), (.maxAttempts, .default)]⟩ ∧
    (resolve atHome ⟨none, none, none, []⟩).1.reads =
      ["/home/u/.aws/config".toList, "/home/u/.aws/credentials".toList] := by
  refine ⟨?_, ?_⟩ <;> with_unfolding_all rfl

/-- Nothing is read if nothing is needed from the files. -/
example : (resolve (changing []) ⟨none, none, none, [("region".toList, .str "x".toList), ("retry_mode".toList, .str "standard".toList),
    ("max_attempts".toList, .int 3)]⟩).1.reads = [] := by with_unfolding_all rfl

end Verif.AwsConfig.Files
