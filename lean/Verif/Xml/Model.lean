import Verif.Json.Read

/-!
# The XML deserializer (C45): model and specification

Models `XMLShapeDeserializer`, `_AttributeDeserializer` (smithy_xml/_private/deserializers.py:26-380) and
`XMLEventReader` (smithy_xml/_private/readers.py:14-55), with the code generated for structures, unions,
lists and maps that uses them (codegen/core/src/main/java/software/amazon/smithy/python/codegen/generators:
StructureGenerator.java:402-428 and 502-519, UnionGenerator.java:160-200, ListGenerator.java:78-92,
MapGenerator.java:80-92, MemberDeserializerGenerator.java).

The parser is `xml.etree.ElementTree.iterparse` with start and end events; it is trusted to give the events
of the elements of a text in document order.  Simplifications: the event reader is the list of events not
yet taken; `elem.text` is part of the start event, the code reads it only after the end of the element; a
schema is what the deserializer asks of it (`View`), with references to other schemas so that schemas may
be recursive; enums are their plain values; a structure is the dict of the arguments of its constructor,
defaults of missing required members are left out; the conversions of texts to numbers and times are
parameters; the table of XML names is not cached.
-/

set_option autoImplicit false

namespace Verif.Xml

open Verif.Json (put Format)
open Verif.Scalars.Strict (Num)

abbrev Text := List Char

/-! ## Model: elements and events -/

/-- Tag (with the namespace in braces), attributes and text of an element. -/
structure Head where
  tag : Text
  attrs : List (Text × Text)
  text : Text
  deriving DecidableEq, Repr

/-- An element. -/
inductive Elem where
  | mk (head : Head) (children : List Elem)

/-- `XMLEvent` (readers.py:9-11). -/
inductive Ev where
  | start (h : Head)
  | stop
  deriving DecidableEq, Repr

mutual
/-- The events of an element. -/
def events : Elem → List Ev
  | .mk h cs => .start h :: (allEvents cs ++ [.stop])
termination_by structural e => e
/-- The events of elements one after another. -/
def allEvents : List Elem → List Ev
  | [] => []
  | c :: cs => events c ++ allEvents cs
end

/-! ## Model: schemas and values -/

/-- A member of a structure or union, with its XML traits. -/
structure Member where
  name : Text
  xmlName : Option Text
  isAttribute : Bool
  isFlattened : Bool
  deriving DecidableEq, Repr

/-- A structure or union. -/
structure Shape (S : Type) where
  union : Bool
  name : Text
  xmlName : Option Text
  members : List (Member × S)

/-- What the deserializer asks of a schema. -/
inductive View (S : Type) where
  | boolean | integer | float | bigDecimal | string | blob | document
  | timestamp (trait : Option Format)
  | struct (shape : Shape S)
  | list (element : S)
  | map (keyTag valueTag : Text) (value : S)

/-- Values of shapes. -/
inductive Val (D F T : Type) where
  | boolean (b : Bool)
  | integer (n : Int)
  | float (x : Num F)
  | bigDecimal (x : D)
  | string (s : Text)
  | blob (bs : List Base64.Byte)
  | timestamp (t : T)
  | struct (members : List (Text × Val D F T))
  | union (member : Text) (value : Val D F T)
  | list (elements : List (Val D F T))
  | map (entries : List (Text × Val D F T))

/-- Errors. -/
inductive XErr where
  /-- `XMLParseError` -/
  | parse
  /-- `StopIteration`: no event is left -/
  | stop
  /-- `SerializationError` of a union -/
  | union
  /-- an error of the conversion of a text -/
  | value
  /-- `NotImplementedError`: documents, and attributes of other shapes -/
  | unsupported
  /-- not in the code: the model's bound on steps -/
  | fuel
  deriving DecidableEq, Repr

/-- `XMLSettings`, the schemas, and the functions of the standard library; `none` if they raise. -/
structure Reader (S D F T : Type) where
  view : S → View S
  useTimestampFormat : Bool
  defaultFormat : Format
  int : Text → Option Int
  float : Text → Option (Num F)
  decimal : Text → Option D
  deserialize : Format → Text → Option T

/-- `XMLShapeDeserializer`: `_is_root`, `_preconsumed_start` and the events of `_reader`. -/
structure St where
  isRoot : Bool
  pre : Option Head
  evs : List Ev

section
variable {S D F T : Type}

/-! ## Model: reading -/

/-- `_local_name` (deserializers.py:26-30); tags with a namespace have a closing brace. -/
def localName (tag : Text) : Text :=
  if tag.head? = some '{' then (tag.dropWhile (· ≠ '}')).tail else tag

/-- `_expected_root_name` (deserializers.py:33-39) of structures and unions. -/
def Shape.rootName (sh : Shape S) : Text := sh.xmlName.getD sh.name

/-- `_xml_member_name` (deserializers.py:49-53). -/
def Member.xml (m : Member) : Text := m.xmlName.getD m.name

/-- `_get_xml_names` (deserializers.py:290-301): later members replace earlier ones. -/
def resolve (ms : List (Member × S)) (tag : Text) : Option (Member × S) :=
  (ms.filter fun m => !m.1.isAttribute).reverse.find? fun m => m.1.xml = tag

/-- `_consume_start_event` (deserializers.py:250-263). -/
def consumeStart (st : St) : Except XErr (Head × St) :=
  match st.pre with
  | some h => .ok (h, { st with pre := none })
  | none => match st.evs with
    | [] => .error .stop
    | .stop :: _ => .error .parse
    | .start h :: r => .ok (h, { st with evs := r })

/-- `_skip_to_end` (deserializers.py:265-273), from a depth. -/
def skipToEnd : Nat → List Ev → Except XErr (List Ev)
  | 0, r => .ok r
  | _ + 1, [] => .error .stop
  | d + 1, .start _ :: r => skipToEnd (d + 2) r
  | d + 1, .stop :: r => skipToEnd d r

/-- The loop of `_buffer_element` (deserializers.py:275-288): the events taken, and the ones left. -/
def bufferFrom : Nat → List Ev → Except XErr (List Ev × List Ev)
  | 0, r => .ok ([], r)
  | _ + 1, [] => .error .stop
  | d + 1, .start h :: r => (bufferFrom (d + 2) r).map fun x => (.start h :: x.1, x.2)
  | d + 1, .stop :: r => (bufferFrom d r).map fun x => (.stop :: x.1, x.2)

/-- `_read_text` (deserializers.py:243-248). -/
def readText (st : St) : Except XErr (Text × St) :=
  match consumeStart st with
  | .error err => .error err
  | .ok (h, st) => (skipToEnd 1 st.evs).map fun r => (h.text, { st with evs := r })

/-- `match text: case "true" …` (deserializers.py:107-113). -/
def readBoolean (t : Text) : Except XErr (Val D F T) :=
  if t = "true".toList then .ok (.boolean true)
  else if t = "false".toList then .ok (.boolean false)
  else .error .parse

/-- `_parse_xml_float` (deserializers.py:56-66). -/
def Reader.readFloat (rd : Reader S D F T) (t : Text) : Except XErr (Val D F T) :=
  if t = "NaN".toList then .ok (.float .nan)
  else if t = "Infinity".toList then .ok (.float (.inf false))
  else if t = "-Infinity".toList then .ok (.float (.inf true))
  else match rd.float t with
    | some x => .ok (.float x)
    | none => .error .value

/-- `some x` is a result, `none` an exception. -/
def orValue {A : Type} (f : A → Val D F T) : Option A → Except XErr (Val D F T)
  | some x => .ok (f x)
  | none => .error .value

/-- The shapes that are a text (deserializers.py:105-140). -/
def Reader.scalar (rd : Reader S D F T) : View S → Text → Except XErr (Val D F T)
  | .boolean, t => readBoolean t
  | .integer, t => orValue .integer (rd.int t)
  | .float, t => rd.readFloat t
  | .bigDecimal, t => orValue .bigDecimal (rd.decimal t)
  | .string, t => .ok (.string t)
  | .blob, t => orValue .blob (Base64.decode t)
  | .timestamp trait, t =>
    let format := if rd.useTimestampFormat then trait.getD rd.defaultFormat else rd.defaultFormat
    orValue .timestamp (rd.deserialize format t)
  | _, _ => .error .unsupported

/-- `_AttributeDeserializer` (deserializers.py:331-380). -/
def Reader.attrScalar (rd : Reader S D F T) : View S → Text → Except XErr (Val D F T)
  | .blob, _ => .error .unsupported
  | v, t => rd.scalar v t

/-- The consumer of a structure (`kwargs[name] = value`, StructureGenerator.java:510-513) or of a union
(`_set_result`, UnionGenerator.java:179-182). -/
def consume (union : Bool) (acc : List (Text × Val D F T)) (name : Text) (v : Val D F T) :
    Except XErr (List (Text × Val D F T)) :=
  if union then (if acc = [] then .ok [(name, v)] else .error .union)
  else .ok (put acc name v)

/-- What becomes of the members: a structure, or the one member of a union (UnionGenerator.java:164-171). -/
def finish (union : Bool) (acc : List (Text × Val D F T)) : Except XErr (Val D F T) :=
  if union then
    match acc with
    | [] => .error .union
    | e :: _ => .ok (.union e.1 e.2)
  else .ok (.struct acc)

/-- The attributes of a structure (deserializers.py:156-170). -/
def Reader.readAttributes (rd : Reader S D F T) (union : Bool) (attrs : List (Text × Text)) :
    List (Text × Val D F T) → List (Member × S) → Except XErr (List (Text × Val D F T))
  | acc, [] => .ok acc
  | acc, m :: ms =>
    if m.1.isAttribute then
      match attrs.find? fun a => localName a.1 = m.1.xml with
      | none => rd.readAttributes union attrs acc ms
      | some a =>
        match rd.attrScalar (rd.view m.2) a.2 with
        | .error err => .error err
        | .ok v =>
          match consume union acc m.1.name v with
          | .error err => .error err
          | .ok acc => rd.readAttributes union attrs acc ms
    else rd.readAttributes union attrs acc ms

/-- `flattened_buffers.setdefault(tag, []).extend(events)` (deserializers.py:186). -/
def addBuffer {A : Type} : List (Text × (Member × S) × List A) → Text → Member × S → List A →
    List (Text × (Member × S) × List A)
  | [], tag, m, evs => [(tag, m, evs)]
  | b :: bs, tag, m, evs =>
    if b.1 = tag then (tag, b.2.1, b.2.2 ++ evs) :: bs else b :: addBuffer bs tag m evs

/-- The elements of a structure (deserializers.py:182-194): the members, the buffers and what is left.
A buffer keeps its member, the code looks it up again by the tag (deserializers.py:197). -/
def readMembers (read : S → St → Except XErr (Val D F T × St)) (union : Bool) (ms : List (Member × S)) :
    Nat → List (Text × Val D F T) → List (Text × (Member × S) × List Ev) → St →
    Except XErr (List (Text × Val D F T) × List (Text × (Member × S) × List Ev) × St)
  | 0, _, _, _ => .error .fuel
  | n + 1, acc, bufs, st =>
    match st.evs with
    | [] => .error .stop
    | .stop :: r => .ok (acc, bufs, { st with evs := r })
    | .start h :: r =>
      match resolve ms (localName h.tag) with
      | some m =>
        if m.1.isFlattened then
          match bufferFrom 1 r with
          | .error err => .error err
          | .ok x => readMembers read union ms n acc
              (addBuffer bufs (localName h.tag) m (.start h :: x.1)) { st with evs := x.2 }
        else
          match read m.2 st with
          | .error err => .error err
          | .ok x =>
            match consume union acc m.1.name x.1 with
            | .error err => .error err
            | .ok acc => readMembers read union ms n acc bufs x.2
      | none =>
        match skipToEnd 1 r with
        | .error err => .error err
        | .ok r => readMembers read union ms n acc bufs { st with evs := r }

/-- The flattened members (deserializers.py:196-202): every buffer has a new deserializer. -/
def flush (read : S → St → Except XErr (Val D F T × St)) (union : Bool) :
    List (Text × Val D F T) → List (Text × (Member × S) × List Ev) → Except XErr (List (Text × Val D F T))
  | acc, [] => .ok acc
  | acc, b :: bs =>
    match read b.2.1.2 ⟨true, none, b.2.2⟩ with
    | .error err => .error err
    | .ok x =>
      match consume union acc b.2.1.1.name x.1 with
      | .error err => .error err
      | .ok acc => flush read union acc bs

/-- `read_struct` (deserializers.py:142-202), given how members and flattened members are read. -/
def Reader.readStruct (rd : Reader S D F T) (read flat : S → St → Except XErr (Val D F T × St)) (n : Nat)
    (sh : Shape S) (st : St) : Except XErr (Val D F T × St) :=
  match consumeStart st with
  | .error err => .error err
  | .ok (h, st1) =>
    if st.isRoot = true ∧ localName h.tag ≠ sh.rootName then .error .parse
    else
      match (if st.pre.isSome then .ok [] else rd.readAttributes sh.union h.attrs [] sh.members) with
      | .error err => .error err
      | .ok acc =>
        match readMembers read sh.union sh.members n acc [] { st1 with isRoot := false } with
        | .error err => .error err
        | .ok (acc, bufs, st2) =>
          match flush flat sh.union acc bufs with
          | .error err => .error err
          | .ok acc => (finish sh.union acc).map fun v => (v, st2)

/-- The loops of `read_list` (deserializers.py:204-219) with the generated `_read_value`
(ListGenerator.java:84-89); `is_null` is false. -/
def readElements (read : St → Except XErr (Val D F T × St)) (flat : Bool) :
    Nat → List (Val D F T) → St → Except XErr (List (Val D F T) × St)
  | 0, _, _ => .error .fuel
  | n + 1, acc, st =>
    let next : Except XErr (List (Val D F T) × St) :=
      match read st with
      | .error err => .error err
      | .ok x => readElements read flat n (acc ++ [x.1]) x.2
    match st.evs, flat with
    | [], true => .ok (acc, st)
    | [], false => .error .stop
    | .stop :: r, false => .ok (acc, { st with evs := r })
    | _, _ => next

/-- `_read_map_entry` after its first event (deserializers.py:312-328) with the generated `_read_value`
(MapGenerator.java:84-89). -/
def readEntry (read : St → Except XErr (Val D F T × St)) (keyTag valueTag : Text) :
    Nat → Option Text → List (Text × Val D F T) → St → Except XErr (List (Text × Val D F T) × St)
  | 0, _, _, _ => .error .fuel
  | n + 1, key, acc, st =>
    match st.evs with
    | [] => .error .stop
    | .stop :: r => .ok (acc, { st with evs := r })
    | .start h :: r =>
      if localName h.tag = keyTag then
        match readText st with
        | .error err => .error err
        | .ok x => readEntry read keyTag valueTag n (some x.1) acc x.2
      else if localName h.tag = valueTag then
        match key with
        | none => .error .parse
        | some k =>
          match read st with
          | .error err => .error err
          | .ok x => readEntry read keyTag valueTag n key (put acc k x.1) x.2
      else
        match skipToEnd 1 r with
        | .error err => .error err
        | .ok r => readEntry read keyTag valueTag n key acc { st with evs := r }

/-- The loops of `read_map` (deserializers.py:226-241). -/
def readEntries (read : St → Except XErr (Val D F T × St)) (keyTag valueTag : Text) (m : Nat) (flat : Bool) :
    Nat → List (Text × Val D F T) → St → Except XErr (List (Text × Val D F T) × St)
  | 0, _, _ => .error .fuel
  | n + 1, acc, st =>
    let next : Except XErr (List (Text × Val D F T) × St) :=
      match consumeStart st with
      | .error err => .error err
      | .ok (_, st1) =>
        match readEntry read keyTag valueTag m none acc st1 with
        | .error err => .error err
        | .ok x => readEntries read keyTag valueTag m flat n x.1 x.2
    match st.evs, flat with
    | [], true => .ok (acc, st)
    | [], false => .error .stop
    | .stop :: r, false => .ok (acc, { st with evs := r })
    | _, _ => next

/-- Reading a value of a shape: the value and the deserializer after it.  The flag is that the member has
the flattened trait.  The number bounds the steps. -/
def Reader.read (rd : Reader S D F T) : Nat → Bool → S → St → Except XErr (Val D F T × St)
  | 0, _, _, _ => .error .fuel
  | n + 1, flat, s, st =>
    match rd.view s with
    | .struct sh => rd.readStruct (rd.read n false) (rd.read n true) n sh st
    | .list s' =>
      if flat then (readElements (rd.read n false s') true n [] st).map fun x => (.list x.1, x.2)
      else
        match consumeStart st with
        | .error err => .error err
        | .ok (_, st) => (readElements (rd.read n false s') false n [] st).map fun x => (.list x.1, x.2)
    | .map keyTag valueTag s' =>
      if flat then (readEntries (rd.read n false s') keyTag valueTag n true n [] st).map fun x => (.map x.1, x.2)
      else
        match consumeStart st with
        | .error err => .error err
        | .ok (_, st) =>
          (readEntries (rd.read n false s') keyTag valueTag n false n [] st).map fun x => (.map x.1, x.2)
    | .document => .error .unsupported
    | v =>
      match readText st with
      | .error err => .error err
      | .ok x => (rd.scalar v x.1).map fun y => (y, x.2)

/-- The wrapper elements (deserializers.py:89-97). -/
def openWrappers : List Text → St → Except XErr St
  | [], st => .ok st
  | w :: ws, st =>
    match st.evs with
    | .start h :: r =>
      if localName h.tag = w then openWrappers ws { st with pre := some h, evs := r } else .error .parse
    | .stop :: _ => .error .parse
    | [] => .error .stop

/-- Reading a value of a shape from the events of a text.  There are enough steps: see `read_spec`. -/
def Reader.run (rd : Reader S D F T) (wrappers : List Text) (s : S) (evs : List Ev) :
    Except XErr (Val D F T) :=
  match openWrappers wrappers ⟨wrappers.isEmpty, none, evs⟩ with
  | .error err => .error err
  | .ok st => (rd.read (2 * evs.length + 2) false s st).map Prod.fst

/-! ## Specification -/

/-- The name of the elements or attributes of a member. -/
def elementName (m : Member) : Text :=
  match m.xmlName with
  | some n => n
  | none => m.name

/-- Within a structure, no two members have the same name and no two are the same element; flattened
members are lists or maps. -/
def Reader.Ok (rd : Reader S D F T) : Prop :=
  ∀ s sh, rd.view s = .struct sh →
    (sh.members.map fun e => e.1.name).Nodup ∧
    ((sh.members.filter fun e => !e.1.isAttribute).map fun e => elementName e.1).Nodup ∧
    ∀ m ∈ sh.members, m.1.isFlattened = true →
      (∃ s', rd.view m.2 = .list s') ∨ ∃ keyTag valueTag s', rd.view m.2 = .map keyTag valueTag s'

/-- The member an element of a structure is. -/
def memberOf (sh : Shape S) (tag : Text) : Option (Member × S) :=
  sh.members.find? fun m => !m.1.isAttribute && elementName m.1 = localName tag

mutual
/-- The element without the elements in it that are not modelled: in a structure the ones that are no
member, in the entry of a map the ones that are neither key nor value, and all in a scalar. -/
def Reader.strip (rd : Reader S D F T) (s : S) : Elem → Elem
  | .mk h cs => match rd.view s with
    | .struct sh => .mk h (rd.stripMembers sh cs)
    | .list s' => .mk h (rd.stripElements s' cs)
    | .map keyTag valueTag s' => .mk h (rd.stripEntries keyTag valueTag s' cs)
    | _ => .mk h []
termination_by structural e => e
def Reader.stripMembers (rd : Reader S D F T) (sh : Shape S) : List Elem → List Elem
  | [] => []
  | .mk h cs :: es => match memberOf sh h.tag with
    | none => rd.stripMembers sh es
    | some m => match m.1.isFlattened, rd.view m.2 with
      | true, .list s' => rd.strip s' (.mk h cs) :: rd.stripMembers sh es
      | true, .map keyTag valueTag s' => .mk h (rd.stripEntry keyTag valueTag s' cs) :: rd.stripMembers sh es
      | _, _ => rd.strip m.2 (.mk h cs) :: rd.stripMembers sh es
def Reader.stripElements (rd : Reader S D F T) (s : S) : List Elem → List Elem
  | [] => []
  | e :: es => rd.strip s e :: rd.stripElements s es
def Reader.stripEntries (rd : Reader S D F T) (keyTag valueTag : Text) (s : S) : List Elem → List Elem
  | [] => []
  | .mk h cs :: es => .mk h (rd.stripEntry keyTag valueTag s cs) :: rd.stripEntries keyTag valueTag s es
def Reader.stripEntry (rd : Reader S D F T) (keyTag valueTag : Text) (s : S) : List Elem → List Elem
  | [] => []
  | .mk h cs :: es =>
    if localName h.tag = keyTag then .mk h [] :: rd.stripEntry keyTag valueTag s es
    else if localName h.tag = valueTag then rd.strip s (.mk h cs) :: rd.stripEntry keyTag valueTag s es
    else rd.stripEntry keyTag valueTag s es
end

end

end Verif.Xml
