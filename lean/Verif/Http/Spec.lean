import Verif.Http.Model

/-!
# HTTP bindings: specification

Where a member goes is read off a list of traits in order of precedence; what a location holds is
what the members bound there were given, in the order written.
-/

set_option autoImplicit false

namespace Verif.Http

/-- The traits that bind a member of a request, strongest first. -/
def requestPrecedence : List ((Member → Bool) × Binding) :=
  [(fun m => m.label, .label), (fun m => m.query.isSome, .query),
   (fun m => m.queryParams, .queryParams), (fun m => m.header.isSome, .header),
   (fun m => m.prefixHeaders.isSome, .prefixHeaders), (fun m => m.payload, .payload),
   (fun m => m.hostLabel, .host)]

/-- The traits that bind a member of a response, strongest first. -/
def responsePrecedence : List ((Member → Bool) × Binding) :=
  [(fun m => m.responseCode, .status), (fun m => m.header.isSome, .header),
   (fun m => m.prefixHeaders.isSome, .prefixHeaders), (fun m => m.payload, .payload)]

/-- `b` is the location of `m`: the first entry whose trait `m` has, or the body if it has none. -/
def Located (prec : List ((Member → Bool) × Binding)) (m : Member) (b : Binding) : Prop :=
  (∃ pre t post, prec = pre ++ (t, b) :: post ∧ t m = true ∧ ∀ x ∈ pre, x.1 m = false) ∨
  (b = .body ∧ ∀ x ∈ prec, x.1 m = false)

/-- The named values that a value consists of, those without a name of their own under `key`. -/
def named (key : Text) (pre : Text) : Val → List (Text × Text)
  | .text t => [(key, t)]
  | .list ts => ts.map fun t => (key, t)
  | .map kvs => kvs.map fun kv => (pre ++ kv.1, kv.2)
  | .multimap kvs => kvs.flatMap fun kv => kv.2.map fun v => (pre ++ kv.1, v)
  | _ => []

/-- The headers that the writes `ws` ask for, `loc` saying where each member goes. -/
def headersOf (loc : Member → Binding) (ws : List (Member × Val)) : List (Text × Text) :=
  (ws.filter fun w => loc w.1 = .header ∨ loc w.1 = .prefixHeaders).flatMap fun w =>
    named (w.1.header.getD []) (w.1.prefixHeaders.getD []) w.2

/-- The query parameters that the writes ask for. -/
def queryOf (loc : Member → Binding) (ws : List (Member × Val)) : List (Text × Text) :=
  (ws.filter fun w => loc w.1 = .query ∨ loc w.1 = .queryParams).flatMap fun w =>
    named (w.1.query.getD []) [] w.2

/-- The path labels, or host labels, that the writes ask for. -/
def labelsOf (b : Binding) (loc : Member → Binding) (ws : List (Member × Val)) :
    List (Text × Text) :=
  (ws.filter fun w => loc w.1 = b).flatMap fun w => named w.1.name [] w.2

/-- The members that go into the message body; host labels go there as well. -/
def bodyOf (loc : Member → Binding) (ws : List (Member × Val)) : List (Member × Val) :=
  ws.filter fun w => loc w.1 = .body ∨ loc w.1 = .host ∨ loc w.1 = .payload

/-- The values of all headers of this name, whatever their casing. -/
def valuesOf (lower : Text → Text) (hs : List (Text × Text)) (name : Text) : List Text :=
  (hs.filter fun h => lower h.1 = lower name).map Prod.snd

/-- The values under this name in a collection of fields. -/
def fieldValues (lower : Text → Text) (fs : List (Fields.Field Text)) (name : Text) : List Text :=
  ((fs.filter fun f => lower f.name = lower name).flatMap fun f => f.values)

end Verif.Http
