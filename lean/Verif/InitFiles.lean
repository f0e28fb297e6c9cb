import Mathlib.Data.List.Basic
import Mathlib.Data.List.Dedup

/-!
# The packages of generated code (C138)

Models `InitGenerator` (codegen/core/src/main/java/software/amazon/smithy/python/codegen/generators/InitGenerator.java:18-52), when it runs
and when files are written (DirectedPythonClientCodegen.java:216-225, PythonFormatter.java:31-32), and the check of module names
(PythonSettings.java:48-51).

Simplified: a file is the list of the sections written to it; the header, imports and separators of the writers are left out.
`WriterDelegator` and `FileManifest` are classes of the Smithy library: a writer for each normalized path, and the file written when
writers are flushed, in the place of one that is there.
-/

set_option autoImplicit false

namespace Verif.InitFiles

abbrev Text := List Char
/-- A relative path, normalized: its names. -/
abbrev Path := List Text
/-- The writers that are open: a path and the sections written to it. -/
abbrev Writers := List (Path × List Text)
/-- The files. -/
abbrev Files := Path → Option (List Text)

/-! ## Model -/

def initName : Text := "__init__.py".toList

/-- The content of files that are only there to make packages (InitGenerator.java:44). -/
def generated : Text := "# Code generated by smithy-python-codegen DO NOT EDIT.\n".toList

/-- The directories of the writers (InitGenerator.java:30-38).  `none`: `getParent` of a path with one name is `null` and `equals` of it a
`NullPointerException` (36).  Its comparison with the base directory, which is absolute, is never true. -/
def directories (ws : Writers) : Option (List Path) :=
  if ∃ w ∈ ws, w.1.length < 2 then none
  else some ((((ws.map (·.1)).filter fun p => p.head? = some "src".toList ∨ p.head? = some "tests".toList).map List.dropLast).dedup)

/-- `FileManifest.writeFile`. -/
def writeFile (files : Files) (path : Path) (content : List Text) : Files := fun q => if q = path then some content else files q

/-- The loop of `run` (InitGenerator.java:39-46). -/
def makeInits (ws : Writers) : List Path → Files → Files
  | [], files => files
  | d :: ds, files =>
    makeInits ws ds (if (d ++ [initName]) ∈ ws.map (·.1) then files else writeFile files (d ++ [initName]) [generated])

/-- `useFileWriter` with one section. -/
def useWriter (path : Path) (section_ : Text) : Writers → Writers
  | [] => [(path, [section_])]
  | w :: ws => if w.1 = path then (path, w.2 ++ [section_]) :: ws else w :: useWriter path section_ ws

/-- `InitGenerator.run` (InitGenerator.java:29-51); `version` is the line that is written. -/
def run (moduleName version : Text) (ws : Writers) (files : Files) : Option (Writers × Files) :=
  match directories ws with
  | none => none
  | some ds => some (useWriter ["src".toList, moduleName, initName] version ws, makeInits ws ds files)

/-- `flushWriters` (PythonFormatter.java:32). -/
def flush : Writers → Files → Files
  | [], files => files
  | w :: ws, files => flush ws (writeFile files w.1 w.2)

/-- What integrations write after `InitGenerator` has run (DirectedPythonClientCodegen.java:219, and their `customize`), and
`pyproject.toml` and `README.md` (PythonFormatter.java:29). -/
def integrate : List (Path × Text) → Writers → Writers
  | [], ws => ws
  | a :: as, ws => integrate as (useWriter a.1 a.2 ws)

/-- From the end of the generation of shapes to the files (DirectedPythonClientCodegen.java:216-225). -/
def finish (moduleName version : Text) (later : List (Path × Text)) (ws : Writers) (files : Files) : Option Files :=
  match run moduleName version ws files with
  | none => none
  | some (ws', files') => some (flush (integrate later ws') files')

/-- The pattern for module names, `[a-z_\d]+` (PythonSettings.java:48). -/
def acceptsModule (t : Text) : Bool := t ≠ [] ∧ t.all fun c => ('a' ≤ c ∧ c ≤ 'z') ∨ c = '_' ∨ ('0' ≤ c ∧ c ≤ '9')

/-! ## Specification -/

/-- A path in the directories of Python code. -/
def InPackage (p : Path) : Prop := ∃ rest, rest ≠ [] ∧ (p = "src".toList :: rest ∨ p = "tests".toList :: rest)

/-- What was written to a path later, in order. -/
def additions (later : List (Path × Text)) (p : Path) : List Text := (later.filter fun a => a.1 = p).map (·.2)

/-- A name that Python allows after `import`, but for keywords. -/
def IsIdentifier (t : Text) : Prop :=
  ∃ c cs, t = c :: cs ∧ (c.isAlpha = true ∨ c = '_') ∧ ∀ d ∈ cs, d.isAlphanum = true ∨ d = '_'

/-! ## Lemmas -/

/-- The sections of a path, in writers. -/
def lookup (ws : Writers) (p : Path) : Option (List Text) := (ws.find? fun w => w.1 = p).map (·.2)

theorem lookup_use (path : Path) (s : Text) : ∀ (ws : Writers) (p : Path),
    lookup (useWriter path s ws) p = if p = path then some ((lookup ws p).getD [] ++ [s]) else lookup ws p
  | [], p => by
    unfold useWriter lookup
    by_cases h : p = path
    · subst h
      simp
    · simp [h, Ne.symm h]
  | w :: ws, p => by
    unfold useWriter
    by_cases hw : w.1 = path
    · rw [if_pos hw]
      by_cases h : p = path
      · subst h
        simp [lookup, hw]
      · have h1 : ¬ path = p := fun e => h e.symm
        simp [lookup, h, h1, hw]
    · rw [if_neg hw]
      by_cases hp : w.1 = p
      · subst hp
        simp [lookup, hw]
      · have ih := lookup_use path s ws p
        simp only [lookup, List.find?_cons, hp, decide_false] at ih ⊢
        exact ih

theorem lookup_integrate : ∀ (later : List (Path × Text)) (ws : Writers) (p : Path),
    lookup (integrate later ws) p =
      if additions later p = [] then lookup ws p else some ((lookup ws p).getD [] ++ additions later p)
  | [], ws, p => rfl
  | a :: as, ws, p => by
    rw [integrate, lookup_integrate as, lookup_use]
    by_cases h : a.1 = p
    · subst h
      have : additions (a :: as) a.1 = a.2 :: additions as a.1 := by simp [additions]
      rw [this, if_pos rfl, if_neg (List.cons_ne_nil _ _)]
      by_cases h2 : additions as a.1 = []
      · rw [if_pos h2, h2]
      · rw [if_neg h2]
        simp
    · have : additions (a :: as) p = additions as p := by simp [additions, h]
      have h' : ¬ p = a.1 := fun e => h e.symm
      rw [this]
      simp only [h', if_false]

/-- No path has two writers. -/
def Distinct (ws : Writers) : Prop := (ws.map (·.1)).Nodup

theorem use_paths (path : Path) (s : Text) : ∀ (ws : Writers) (p : Path),
    p ∈ (useWriter path s ws).map (·.1) ↔ p ∈ ws.map (·.1) ∨ p = path
  | [], p => by simp [useWriter]
  | w :: ws, p => by
    unfold useWriter
    by_cases hw : w.1 = path
    · rw [if_pos hw]
      simp only [List.map_cons, List.mem_cons, hw]
      constructor
      · rintro (h | h)
        · exact .inr h
        · exact .inl (.inr h)
      · rintro ((h | h) | h)
        · exact .inl h
        · exact .inr h
        · exact .inl h
    · rw [if_neg hw]
      simp only [List.map_cons, List.mem_cons, use_paths path s ws p, or_assoc]

theorem use_distinct (path : Path) (s : Text) : ∀ {ws : Writers}, Distinct ws → Distinct (useWriter path s ws)
  | [], _ => by simp [Distinct, useWriter]
  | w :: ws, h => by
    unfold Distinct at h
    rw [List.map_cons, List.nodup_cons] at h
    unfold useWriter Distinct
    by_cases hw : w.1 = path
    · rw [if_pos hw, List.map_cons, List.nodup_cons]
      exact ⟨hw ▸ h.1, h.2⟩
    · rw [if_neg hw, List.map_cons, List.nodup_cons, use_paths]
      exact ⟨fun h' => h'.elim h.1 hw, use_distinct path s h.2⟩

theorem integrate_distinct : ∀ (later : List (Path × Text)) {ws : Writers}, Distinct ws → Distinct (integrate later ws)
  | [], _, h => h
  | a :: as, _, h => integrate_distinct as (use_distinct a.1 a.2 h)

theorem flush_spec : ∀ (ws : Writers) (files : Files), Distinct ws → ∀ p, flush ws files p = (lookup ws p).or (files p)
  | [], files, _, p => rfl
  | w :: ws, files, h, p => by
    unfold Distinct at h
    rw [List.map_cons, List.nodup_cons] at h
    rw [flush, flush_spec ws _ h.2]
    by_cases hp : w.1 = p
    · subst hp
      have : lookup ws w.1 = none := by
        unfold lookup
        rw [Option.map_eq_none_iff, List.find?_eq_none]
        intro x hx hxe
        exact h.1 (List.mem_map.2 ⟨x, hx, by simpa using hxe⟩)
      rw [this]
      simp [lookup, writeFile]
    · have h1 : ¬ p = w.1 := fun e => hp e.symm
      simp [lookup, writeFile, hp, h1]

theorem makeInits_spec (ws : Writers) (p : Path) : ∀ (ds : List Path) (files : Files),
    makeInits ws ds files p = if (∃ d ∈ ds, p = d ++ [initName]) ∧ p ∉ ws.map (·.1) then some [generated] else files p
  | [], files => by simp [makeInits]
  | d :: ds, files => by
    have hin : (if (d ++ [initName]) ∈ ws.map (·.1) then files else writeFile files (d ++ [initName]) [generated]) p =
        if p = d ++ [initName] ∧ p ∉ ws.map (·.1) then some [generated] else files p := by
      by_cases hd : (d ++ [initName]) ∈ ws.map (·.1)
      · rw [if_pos hd, if_neg]
        rintro ⟨rfl, h⟩
        exact h hd
      · rw [if_neg hd, writeFile]
        by_cases hp : p = d ++ [initName]
        · rw [if_pos hp, if_pos ⟨hp, hp ▸ hd⟩]
        · rw [if_neg hp, if_neg (fun h => hp h.1)]
    rw [makeInits, makeInits_spec ws p ds, hin]
    have hex : (∃ e ∈ d :: ds, p = e ++ [initName]) ↔ p = d ++ [initName] ∨ ∃ e ∈ ds, p = e ++ [initName] := by
      simp only [List.mem_cons, exists_eq_or_imp]
    simp only [hex]
    by_cases hw : p ∈ ws.map (·.1)
    · simp only [hw, not_true_eq_false, and_false, if_false]
    · simp only [hw, not_false_eq_true, and_true]
      by_cases h1 : ∃ e ∈ ds, p = e ++ [initName]
      · simp only [h1, or_true, if_true]
      · simp only [h1, or_false, if_false]

theorem lookup_none {ws : Writers} {p : Path} : lookup ws p = none ↔ p ∉ ws.map (·.1) := by
  unfold lookup
  rw [Option.map_eq_none_iff, List.find?_eq_none, List.mem_map]
  constructor
  · rintro h ⟨x, hx, hxe⟩
    exact h x hx (by simpa using hxe)
  · intro h x hx hxe
    exact h ⟨x, hx, by simpa using hxe⟩

theorem mem_lookup {ws : Writers} (h : Distinct ws) {p : Path} {c : List Text} (hm : (p, c) ∈ ws) : lookup ws p = some c := by
  induction ws with
  | nil => cases hm
  | cons w ws ih =>
    unfold Distinct at h
    rw [List.map_cons, List.nodup_cons] at h
    rcases List.mem_cons.1 hm with rfl | hm
    · simp [lookup]
    · have hne : ¬ w.1 = p := by
        rintro rfl
        exact h.1 (List.mem_map.2 ⟨_, hm, rfl⟩)
      have := ih h.2 hm
      simpa [lookup, hne] using this

theorem mem_directories {ws : Writers} {ds : List Path} (h : directories ws = some ds) {d : Path} :
    d ∈ ds ↔ ∃ p ∈ ws.map (·.1), InPackage p ∧ p.dropLast = d := by
  unfold directories at h
  split at h
  · cases h
  · next hl =>
    cases h
    rw [List.mem_dedup, List.mem_map]
    constructor
    · rintro ⟨p, hp, rfl⟩
      rw [List.mem_filter, decide_eq_true_eq] at hp
      refine ⟨p, hp.1, ?_, rfl⟩
      obtain ⟨w, hw, rfl⟩ := List.mem_map.1 hp.1
      have h2 : ¬ w.1.length < 2 := fun h => hl ⟨w, hw, h⟩
      match hx : w.1, hp.2, h2 with
      | [], _, h2 => simp at h2
      | [_], _, h2 => simp at h2
      | x :: y :: r, hh, _ =>
        refine ⟨y :: r, by simp, ?_⟩
        rcases hh with hh | hh
        · exact .inl (by rw [Option.some.inj hh])
        · exact .inr (by rw [Option.some.inj hh])
    · rintro ⟨p, hp, ⟨r, -, hr⟩, rfl⟩
      refine ⟨p, ?_, rfl⟩
      rw [List.mem_filter, decide_eq_true_eq]
      refine ⟨hp, ?_⟩
      rcases hr with rfl | rfl
      · exact .inl rfl
      · exact .inr rfl

/-- What is in each file in the end. -/
theorem finish_spec {moduleName version : Text} {later : List (Path × Text)} {ws : Writers} {files fs : Files} (hd : Distinct ws)
    (h : finish moduleName version later ws files = some fs) (p : Path) :
    ∃ ds, directories ws = some ds ∧
      fs p = (lookup (integrate later (useWriter ["src".toList, moduleName, initName] version ws)) p).or
        (if (∃ d ∈ ds, p = d ++ [initName]) ∧ p ∉ ws.map (·.1) then some [generated] else files p) := by
  unfold finish run at h
  cases hds : directories ws with
  | none => simp [hds] at h
  | some ds =>
    simp only [hds, Option.some.injEq] at h
    refine ⟨ds, rfl, ?_⟩
    rw [← h, flush_spec _ _ (integrate_distinct _ (use_distinct _ _ hd)), makeInits_spec]

/-! ## Theorems -/

/-- **C138**: generation gets to its end exactly if every file that was written has a directory. -/
theorem C138_ends (moduleName version : Text) (later : List (Path × Text)) (ws : Writers) (files : Files) :
    finish moduleName version later ws files ≠ none ↔ ∀ p c, (p, c) ∈ ws → 2 ≤ p.length := by
  unfold finish run directories
  by_cases h : ∃ w ∈ ws, w.1.length < 2
  · rw [if_pos h]
    simp only [ne_eq, not_true_eq_false, false_iff, not_forall]
    obtain ⟨w, hw, hl⟩ := h
    exact ⟨w.1, w.2, hw, by omega⟩
  · rw [if_neg h]
    simp only [ne_eq, reduceCtorEq, not_false_eq_true, true_iff]
    intro p c hp
    exact Nat.le_of_not_lt fun hl => h ⟨_, hp, hl⟩

/-- **C138**: every directory of a Python file that shapes were written to is a package: it has a file `__init__.py`. -/
theorem C138_packages_partial {moduleName version : Text} {later : List (Path × Text)} {ws : Writers} {files fs : Files}
    (hd : Distinct ws) (h : finish moduleName version later ws files = some fs) {dir : Path} {name : Text} {c : List Text}
    (hp : (dir ++ [name], c) ∈ ws) (hk : InPackage (dir ++ [name])) : fs (dir ++ ["__init__.py".toList]) ≠ none := by
  obtain ⟨ds, hds, hfs⟩ := finish_spec hd h (dir ++ [initName])
  change fs (dir ++ [initName]) ≠ none
  rw [hfs]
  have hmem : dir ∈ ds := (mem_directories hds).2 ⟨_, List.mem_map.2 ⟨_, hp, rfl⟩, hk, by simp⟩
  by_cases hw : dir ++ [initName] ∈ ws.map (·.1)
  · have : lookup (integrate later (useWriter ["src".toList, moduleName, initName] version ws)) (dir ++ [initName]) ≠ none := by
      have h1 : lookup ws (dir ++ [initName]) ≠ none := fun h => lookup_none.1 h hw
      rw [lookup_integrate, lookup_use]
      split
      · split
        · simp
        · exact h1
      · simp
    intro hn
    rw [Option.or_eq_none_iff] at hn
    exact this hn.1
  · rw [if_pos ⟨⟨dir, hmem, rfl⟩, hw⟩]
    intro hn
    rw [Option.or_eq_none_iff] at hn
    cases hn.2

/-- **C138**: no file loses what was written to it: that of the module gets the version, the others what integrations add to them. -/
theorem C138_kept {moduleName version : Text} {later : List (Path × Text)} {ws : Writers} {files fs : Files} (hd : Distinct ws)
    (h : finish moduleName version later ws files = some fs) {p : Path} {c : List Text} (hp : (p, c) ∈ ws) :
    fs p = some (c ++ (if p = ["src".toList, moduleName, "__init__.py".toList] then [version] else []) ++ additions later p) := by
  obtain ⟨ds, hds, hfs⟩ := finish_spec hd h p
  rw [hfs, lookup_integrate, lookup_use, mem_lookup hd hp]
  change _ = some (c ++ (if p = ["src".toList, moduleName, initName] then [version] else []) ++ additions later p)
  by_cases h1 : p = ["src".toList, moduleName, initName]
  · rw [if_pos h1, if_pos h1]
    by_cases h2 : additions later p = []
    · simp [h2]
    · simp [h2]
  · rw [if_neg h1, if_neg h1]
    by_cases h2 : additions later p = []
    · simp [h2]
    · simp [h2]

/-- **C138**: the package says its version, whatever was written to its `__init__.py` before. -/
theorem C138_version {moduleName version : Text} {later : List (Path × Text)} {ws : Writers} {files fs : Files} (hd : Distinct ws)
    (h : finish moduleName version later ws files = some fs) :
    ∃ c, fs ["src".toList, moduleName, "__init__.py".toList] = some c ∧ version ∈ c := by
  obtain ⟨ds, hds, hfs⟩ := finish_spec hd h ["src".toList, moduleName, initName]
  change ∃ c, fs ["src".toList, moduleName, initName] = some c ∧ version ∈ c
  rw [hfs, lookup_integrate, lookup_use, if_pos rfl]
  split
  · exact ⟨_, rfl, by simp⟩
  · exact ⟨_, rfl, by simp⟩

/-- **C138**: other files are left as they were: besides those, there are only the files `__init__.py` of such directories. -/
theorem C138_only {moduleName version : Text} {later : List (Path × Text)} {ws : Writers} {files fs : Files} (hd : Distinct ws)
    (h : finish moduleName version later ws files = some fs) {p : Path} (hp : ∀ c, (p, c) ∉ ws) (hl : additions later p = [])
    (hm : p ≠ ["src".toList, moduleName, "__init__.py".toList]) :
    fs p = files p ∨ fs p = some ["# Code generated by smithy-python-codegen DO NOT EDIT.\n".toList] ∧
      ∃ dir name c, p = dir ++ ["__init__.py".toList] ∧ (dir ++ [name], c) ∈ ws ∧ InPackage (dir ++ [name]) := by
  obtain ⟨ds, hds, hfs⟩ := finish_spec hd h p
  have hw : p ∉ ws.map (·.1) := by
    intro hw
    obtain ⟨⟨q, c⟩, hx, rfl⟩ := List.mem_map.1 hw
    exact hp c hx
  rw [lookup_integrate, if_pos hl, lookup_use, if_neg (show p ≠ ["src".toList, moduleName, initName] from hm), lookup_none.2 hw, Option.none_or] at hfs
  by_cases hx : (∃ d ∈ ds, p = d ++ [initName]) ∧ p ∉ ws.map (·.1)
  · rw [if_pos hx] at hfs
    obtain ⟨⟨d, hdm, rfl⟩, -⟩ := hx
    obtain ⟨q, hq, hk, hqd⟩ := (mem_directories hds).1 hdm
    obtain ⟨⟨q, c⟩, hqm, rfl⟩ := List.mem_map.1 hq
    dsimp only at hk hqd hqm
    have hne : q ≠ [] := by
      obtain ⟨r, -, hr⟩ := hk
      rcases hr with rfl | rfl <;> simp
    have hq' : d ++ [q.getLast hne] = q := by
      rw [← hqd]
      exact List.dropLast_append_getLast hne
    exact .inr ⟨hfs, d, q.getLast hne, c, rfl, by rw [hq']; exact hqm, by rw [hq']; exact hk⟩
  · rw [if_neg hx] at hfs
    exact .inl hfs

/-- **C138**: which names a module may have. -/
theorem C138_module (t : Text) : acceptsModule t = true ↔
    t ≠ [] ∧ ∀ c ∈ t, c ∈ "abcdefghijklmnopqrstuvwxyz_0123456789".toList := by
  have key : ∀ c : Char, (('a' ≤ c ∧ c ≤ 'z') ∨ c = '_' ∨ ('0' ≤ c ∧ c ≤ '9')) ↔
      c ∈ "abcdefghijklmnopqrstuvwxyz_0123456789".toList := by
    intro c
    constructor
    · intro h
      have hn : (97 ≤ c.toNat ∧ c.toNat ≤ 122) ∨ c.toNat = 95 ∨ (48 ≤ c.toNat ∧ c.toNat ≤ 57) := by
        rcases h with ⟨h1, h2⟩ | rfl | ⟨h1, h2⟩
        · exact .inl ⟨h1, h2⟩
        · exact .inr (.inl rfl)
        · exact .inr (.inr ⟨h1, h2⟩)
      have all : ∀ n < 128, ((97 ≤ n ∧ n ≤ 122) ∨ n = 95 ∨ (48 ≤ n ∧ n ≤ 57)) →
          Char.ofNat n ∈ "abcdefghijklmnopqrstuvwxyz_0123456789".toList := by decide +kernel
      have := all c.toNat (by omega) hn
      rwa [Char.ofNat_toNat] at this
    · have all : ∀ c ∈ "abcdefghijklmnopqrstuvwxyz_0123456789".toList,
          (('a' ≤ c ∧ c ≤ 'z') ∨ c = '_' ∨ ('0' ≤ c ∧ c ≤ '9')) := by decide +kernel
      exact all c
  unfold acceptsModule
  simp only [ne_eq, List.all_eq_true, decide_eq_true_eq, key]

/-- Not every name that is accepted can be imported. -/
theorem C138_module_fails : acceptsModule "3d".toList = true ∧ ¬ IsIdentifier "3d".toList ∧ acceptsModule "lambda".toList = true := by
  refine ⟨by decide +kernel, ?_, by decide +kernel⟩
  rintro ⟨c, cs, h, hc, -⟩
  have h' : "3d".toList = ['3', 'd'] := by decide +kernel
  rw [h'] at h
  cases h
  revert hc
  decide

/-- Those that do not begin with a digit are identifiers. -/
theorem C138_module_partial {c : Char} {cs : Text} (h : acceptsModule (c :: cs) = true) (hc : c.isDigit = false) :
    IsIdentifier (c :: cs) := by
  rw [C138_module] at h
  have all : ∀ c ∈ "abcdefghijklmnopqrstuvwxyz_0123456789".toList,
      (c.isAlphanum = true ∨ c = '_') ∧ (c.isDigit = false → c.isAlpha = true ∨ c = '_') := by decide +kernel
  exact ⟨c, cs, rfl, (all c (h.2 c (by simp))).2 hc, fun d hd => (all d (h.2 d (by simp [hd]))).1⟩

/-- A directory that only integrations write to is not made a package. -/
theorem C138_later_fails : ∃ fs, finish "weather".toList "__version__: str = \"1\"".toList
      [(["src".toList, "weather".toList, "plugins".toList, "retry.py".toList], "class Retry: ...".toList)]
      [(["src".toList, "weather".toList, "models.py".toList], ["class City: ...".toList])] (fun _ => none) = some fs ∧
    fs ["src".toList, "weather".toList, "plugins".toList, "retry.py".toList] ≠ none ∧
    fs ["src".toList, "weather".toList, "plugins".toList, "__init__.py".toList] = none ∧
    fs ["src".toList, "weather".toList, "__init__.py".toList] ≠ none := by
  refine ⟨_, rfl, ?_, ?_, ?_⟩ <;> decide +kernel

/-- Nor one that has only directories in it. -/
theorem C138_between_fails : ∃ fs, finish "weather".toList "__version__: str = \"1\"".toList []
      [(["tests".toList, "unit".toList, "client".toList, "test_city.py".toList], ["...".toList])] (fun _ => none) = some fs ∧
    fs ["tests".toList, "unit".toList, "client".toList, "__init__.py".toList] ≠ none ∧
    fs ["tests".toList, "unit".toList, "__init__.py".toList] = none := by
  refine ⟨_, rfl, ?_, ?_⟩ <;> decide +kernel

/-! ## Examples -/

private def example_ : Writers :=
  [(["src".toList, "weather".toList, "models.py".toList], ["class City: ...".toList]),
   (["src".toList, "weather".toList, "_private".toList, "schemas.py".toList], ["CITY = ...".toList]),
   (["tests".toList, "test_protocol.py".toList], ["...".toList])]

/-- The hypotheses of the theorems hold of the files of a client. -/
example : Distinct example_ ∧ (finish "weather".toList "1".toList [] example_ fun _ => none) ≠ none ∧
    (["src".toList, "weather".toList, "_private".toList] ++ ["schemas.py".toList], ["CITY = ...".toList]) ∈ example_ ∧
    InPackage (["src".toList, "weather".toList, "_private".toList] ++ ["schemas.py".toList]) := by
  refine ⟨by unfold Distinct; decide +kernel, ?_, by decide +kernel, _, by simp, .inl rfl⟩
  rw [C138_ends]
  have : ∀ w ∈ example_, 2 ≤ w.1.length := by decide +kernel
  exact fun p c h => this _ h

/-- A file without a directory. -/
example : finish "weather".toList "1".toList [] [(["README.md".toList], [])] (fun _ => none) = none := rfl

end Verif.InitFiles
