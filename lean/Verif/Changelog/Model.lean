import Verif.Json.Grammar
import Verif.Dict
import Verif.Text
import Verif.Common

/-!
# Entries, releases and the changelog (C124, C125)

Models scripts/changelog/new-entry.py, new-release.py, render.py and templates/PACKAGE.
Simplifications: the directories are there (without them there are no entries, and the scripts end in the same way); what is in
a file is a JSON value, or something that cannot be read or parsed, so writing a value and reading it is taken to give the same
value; what is printed is left out.  An exception that is not handled ends a script with code 1.
-/

set_option autoImplicit false

namespace Verif.Changelog

open Verif.Text Verif.Dict
open Verif.Json (Json)

abbrev Text := List Char

/-- What is in a file: JSON, or what cannot be read or parsed, such as one that was opened for writing and not written. -/
inductive File where
  | json (j : Json)
  | bad

/-- `.changes`: the files in `next-release`, and those of releases. -/
structure Disk where
  pending : List (Text × File)
  releases : List (Text × File)

/-- What Python and the system decide: the order of `os.listdir`, the files that cannot be removed, the value of a decimal digit
(`\d` and `int`), the numbers that are zero, and `str` of values that are not text. -/
structure Py where
  order : List Text → List Text
  stuck : Text → Bool
  digit : Char → Option Nat
  zero : Text → Bool
  show_ : Json → Text

/-! ## Model: names -/

/-- `entry_file.suffix == ".json"` (pathlib.py:631-642: the dot may not be the first character). -/
def isJson (name : Text) : Bool := ".json".toList.isSuffixOf name && decide (5 < name.length)

/-- What is before the end or before a line feed at the end, where `$` matches. -/
def beforeEnd (t : Text) : Text := if t.getLast? = some '\n' then t.dropLast else t

/-- `\d+` for all of a text. -/
def isDigits (py : Py) (t : Text) : Bool := !(t == []) && t.all fun c => (py.digit c).isSome

/-- `re.match(VERSION_PATTERN, version)` (new-release.py:17, 165). -/
def isVersion (py : Py) (t : Text) : Bool :=
  match split '.' (beforeEnd t) with
  | [a, b, c] => isDigits py a && isDigits py b && isDigits py c
  | _ => false

/-- `version_pattern.match(file.name)` (render.py:21, 26-31), and `file.stem` if it matches. -/
def versionOf (py : Py) (name : Text) : Option Text :=
  match split '.' (beforeEnd name) with
  | [a, b, c, e] =>
    if isDigits py a && isDigits py b && isDigits py c && e == "json".toList then some (join '.' [a, b, c]) else none
  | _ => none

/-- `int(x)` of digits. -/
def value (py : Py) (t : Text) : Nat := t.foldl (fun n c => 10 * n + (py.digit c).getD 0) 0

/-- `[int(x) for x in v.split(".")]` (render.py:34) of a version. -/
def key (py : Py) (v : Text) : List Nat := (split '.' v).map (value py)

/-- `<` of lists of numbers. -/
def less : List Nat → List Nat → Bool
  | _, [] => false
  | [], _ :: _ => true
  | a :: x, b :: y => decide (a < b) || (decide (a = b) && less x y)

/-! ## Model: sorting -/

/-- Insertion before what is not less, so that sorting from the end keeps the order of equals, as `list.sort` does. -/
def insert {α : Type} (lt : α → α → Bool) (x : α) : List α → List α
  | [] => [x]
  | y :: l => if lt y x then y :: insert lt x l else x :: y :: l

/-- `list.sort` -/
def sort {α : Type} (lt : α → α → Bool) : List α → List α
  | [] => []
  | x :: l => insert lt x (sort lt l)

/-! ## Model: entries -/

/-- `CHANGE_TYPES_ORDER` (new-release.py:18-25). -/
def typeOrder : List (Text × Nat) :=
  [("breaking".toList, 0), ("feature".toList, 1), ("enhancement".toList, 2), ("bugfix".toList, 3), ("dependency".toList, 4)]

/-- `bool(x)` -/
def truthy (py : Py) : Json → Bool
  | .null => false
  | .bool b => b
  | .num t => !py.zero t
  | .str t => !(t == [])
  | .arr xs => !xs.isEmpty
  | .obj es => !es.isEmpty

/-- The place of the type of a change, if it has one of the known types. -/
def typeIndex (j : Json) : Option Nat :=
  match j with
  | .obj es =>
    match es.lookup "type".toList with
    | some (.str t) => typeOrder.lookup t
    | _ => none
  | _ => none

/-- `validate_change_entry` (new-release.py:28-40). Values that are not objects end the script, here or by an exception. -/
def validEntry (py : Py) (j : Json) : Bool :=
  match j with
  | .obj es =>
    (typeIndex j).isSome &&
      match es.lookup "description".toList with
      | some d => truthy py d
      | none => false
  | _ => false

/-- `changes.sort(key=...)` (new-release.py:65). -/
def sortChanges (l : List Json) : List Json :=
  sort (fun a b => decide ((typeIndex a).getD 0 < (typeIndex b).getD 0)) l

/-! ## Model: the scripts, one operation on files after the other -/

inductive Proc where
  /-- `create_change_entry` before its file is opened -/
  | entry (name : Text) (j : Json)
  /-- the file is open, and empty -/
  | entryOpen (name : Text) (j : Json)
  /-- `create_new_release` before `next-release` is listed -/
  | release (version : Text) (dry : Bool)
  /-- the files that are still to be read, and what the others held -/
  | collecting (version : Text) (dry : Bool) (names : List Text) (got : List Json)
  /-- before `version_file.exists()` -/
  | checking (version : Text) (changes : List Json)
  /-- before the file is opened -/
  | opening (version : Text) (changes : List Json)
  /-- the file is open, and empty -/
  | writing (version : Text) (changes : List Json)
  /-- before `next-release` is listed again -/
  | listing
  /-- the files that are still to be removed -/
  | cleaning (names : List Text)
  | over (code : Nat)

/-- `create_change_entry` of a type and a description (new-entry.py:22-49, with the choices of 52-79): the name of the file has
the name of the package and a fresh id. -/
def entryName (package type id : Text) : Text := package ++ '-' :: type ++ '-' :: id ++ ".json".toList

def entryValue (type description : Text) : Json := .obj [("type".toList, .str type), ("description".toList, .str description)]

def newEntry (package type description id : Text) : Proc :=
  if type = "feature".toList ∨ type = "enhancement".toList ∨ type = "bugfix".toList ∨ type = "breaking".toList ∨
      type = "dependency".toList then .entry (entryName package type id) (entryValue type description)
  else .over 2

/-- `main` of new-release.py (148-173). -/
def newRelease (py : Py) (version : Text) (dry : Bool) : Proc :=
  if isVersion py version then .release version dry else .over 1

/-- The names that a loop over `next-release` goes through (new-release.py:49-50, 92-93). -/
def listed (py : Py) (d : Disk) : List Text := py.order ((d.pending.map Prod.fst).filter isJson)

def remove (files : List (Text × File)) (name : Text) : List (Text × File) := files.filter fun f => decide (f.1 ≠ name)

def versionFile (version : Text) : Text := version ++ ".json".toList

def versionValue (changes : List Json) : Json := .obj [("changes".toList, .arr changes)]

/-- One operation: new-entry.py:44-46; new-release.py:43-67 (collect), 70-86 (create), 89-100 (clean up), 103-145 (the rest). -/
def step (py : Py) (d : Disk) : Proc → Disk × Proc
  | .entry name j => ({ d with pending := put d.pending name .bad }, .entryOpen name j)
  | .entryOpen name j => ({ d with pending := put d.pending name (.json j) }, .over 0)
  | .release v dry => (d, .collecting v dry (listed py d) [])
  | .collecting v dry [] got =>
    if got.isEmpty then (d, .over 1)
    else if dry then (d, .over 0)
    else (d, .checking v (sortChanges got))
  | .collecting v dry (name :: names) got =>
    match d.pending.lookup name with
    | none => (d, .collecting v dry names got)
    | some .bad => (d, .over 1)
    | some (.json j) => if validEntry py j then (d, .collecting v dry names (got ++ [j])) else (d, .over 1)
  | .checking v changes => if (d.releases.lookup (versionFile v)).isSome then (d, .over 1) else (d, .opening v changes)
  | .opening v changes => ({ d with releases := put d.releases (versionFile v) .bad }, .writing v changes)
  | .writing v changes => ({ d with releases := put d.releases (versionFile v) (.json (versionValue changes)) }, .listing)
  | .listing => (d, .cleaning (listed py d))
  | .cleaning [] => (d, .over 0)
  | .cleaning (name :: names) =>
    if py.stuck name then (d, .cleaning names) else ({ d with pending := remove d.pending name }, .cleaning names)
  | .over c => (d, .over c)

/-- A script alone, for some number of operations. -/
def run (py : Py) : Nat → Disk × Proc → Disk × Proc
  | 0, s => s
  | n + 1, s => run py n (step py s.1 s.2)

/-- Scripts at the same time: which of them goes on next. -/
def together (py : Py) (schedule : List Nat) (s : Disk × List Proc) : Disk × List Proc :=
  schedule.foldl (fun s i =>
    match s.2[i]? with
    | none => s
    | some p =>
      let r := step py s.1 p
      (r.1, s.2.set i r.2)) s

/-! ## Model: rendering -/

/-- A change as the template has it. -/
structure Change where
  type : Json
  description : Json

/-- `formatted_changes` of a release (render.py:48-55); `none` is an exception that is not handled. -/
def changeOf : Json → Option Change
  | .obj es => some ⟨(es.lookup "type".toList).getD (.str "enhancement".toList), (es.lookup "description".toList).getD (.str [])⟩
  | _ => none

def changesOf : Json → Option (List Change)
  | .obj es =>
    match es.lookup "changes".toList with
    | none => some []
    | some (.arr xs) => xs.mapM changeOf
    | some (.str []) => some []
    | some (.obj []) => some []
    | some _ => none
  | _ => none

/-- `get_sorted_versions` (render.py:24-35). -/
def sortedVersions (py : Py) (d : Disk) : List Text :=
  sort (fun a b => less (key py a) (key py b)) ((py.order (d.releases.map Prod.fst)).filterMap (versionOf py))

/-- `load_package_releases` (render.py:38-64). A file that cannot be read is left out. -/
def loadReleases (d : Disk) : List Text → List (Text × List Change) → Option (List (Text × List Change))
  | [], r => some r
  | v :: vs, r =>
    match d.releases.lookup (versionFile v) with
    | some (.json j) =>
      match changesOf j with
      | none => none
      | some cs => loadReleases d vs (put r v cs)
    | _ => loadReleases d vs r

/-- `{{ x }}` -/
def shown (py : Py) : Json → Text
  | .str t => t
  | j => py.show_ j

/-- `x == "..."` in the template. -/
def isText (j : Json) (t : Text) : Bool :=
  match j with
  | .str s => s == t
  | _ => false

/-- The heading that is before the first change of a type (templates/PACKAGE:6-23; white space before `{%-` is dropped). -/
def heading (type : Text) : Text :=
  if type = "breaking".toList then "\n\n### Breaking Changes".toList
  else if type = "feature".toList then "\n\n### Features".toList
  else if type = "enhancement".toList then "\n\n### Enhancements".toList
  else if type = "bugfix".toList then "\n\n### Bug fixes".toList
  else if type = "dependency".toList then "\n\n### Dependencies".toList
  else []

/-- The loop over the changes of a type (templates/PACKAGE:5-25). -/
def changeLoop (py : Py) (type : Text) : Bool → List Change → Text
  | _, [] => []
  | first, c :: cs =>
    if isText c.type type then
      (if first then heading type else []) ++ "\n* ".toList ++ shown py c.description ++ changeLoop py type false cs
    else changeLoop py type first cs

/-- One release (templates/PACKAGE:2-27). -/
def releaseText (py : Py) (r : Text × List Change) : Text :=
  "\n## v".toList ++ r.1 ++
    ["breaking".toList, "feature".toList, "enhancement".toList, "bugfix".toList, "dependency".toList].flatMap
      (fun t => changeLoop py t true r.2) ++ "\n".toList

/-- `render_package_changelog` (render.py:67-121): the text, or `none` if there is none. -/
def render (py : Py) (d : Disk) : Option Text :=
  match loadReleases d (sortedVersions py d) [] with
  | none => none
  | some [] => none
  | some rs => some ("# Changelog\n".toList ++ rs.reverse.flatMap (releaseText py))

end Verif.Changelog
