import Verif.Generated.Structures
import Mathlib.Data.List.Induction

/-!
# Structures of a generated client: lemmas (C100, C101)
-/

set_option autoImplicit false

namespace Verif.Generated

open Verif.Dict

variable {V : Type}

theorem isRequired_iff (x : Member) : isRequired x = true ↔ Required x := by
  unfold isRequired Required
  cases x.nullable <;> cases x.default <;> simp

theorem isStream_iff (m : Model) (x : Member) : isStream m x = true ↔ m[x.target]? = some (.union true) := by
  unfold isStream
  simp

theorem isMessage_iff (s : Struct) (x : Member) : isMessage s x = true ↔
    (s.error.isSome = true ∧
      x.name.map Char.toLower ∈ ["errormessage".toList, "error_message".toList, "message".toList]) := by
  unfold isMessage
  rw [Bool.and_eq_true, List.contains_iff_mem, and_comm]

theorem mem_properties (m : Model) (s : Struct) (x : Member) : x ∈ properties m s ↔ IsProperty m s x := by
  unfold properties IsProperty
  rw [List.mem_filter, Ne, ← isMessage_iff, ← isStream_iff]
  cases isMessage s x <;> cases isStream m x <;> simp

/-! ## The generator -/

theorem every_spec (f : Nat → Option (Option (Expr V))) : ∀ xs : List Member,
    (∀ x ∈ xs, Required x → ∃ r, f x.target = some r) →
    (every f xs = some true ∧ ∀ x ∈ xs, Required x → ∃ e, f x.target = some (some e)) ∨
      (every f xs = some false ∧ ∃ x ∈ xs, Required x ∧ f x.target = some none)
  | [], _ => .inl ⟨rfl, fun x hx => by cases hx⟩
  | x :: xs, h => by
    have ih := every_spec f xs fun y hy => h y (List.mem_cons_of_mem _ hy)
    by_cases hr : isRequired x = true
    · obtain ⟨r, hx⟩ := h x (List.mem_cons_self ..) ((isRequired_iff x).1 hr)
      cases r with
      | none =>
        right
        refine ⟨by simp only [every, if_pos hr, hx], x, List.mem_cons_self .., (isRequired_iff x).1 hr, hx⟩
      | some e =>
        have he : every f (x :: xs) = every f xs := by simp only [every, if_pos hr, hx]
        rw [he]
        rcases ih with ⟨h1, h2⟩ | ⟨h1, y, hy, h2⟩
        · left
          refine ⟨h1, fun y hy hy' => ?_⟩
          rcases List.mem_cons.1 hy with rfl | hy
          · exact ⟨e, hx⟩
          · exact h2 y hy hy'
        · exact .inr ⟨h1, y, List.mem_cons_of_mem _ hy, h2⟩
    · have he : every f (x :: xs) = every f xs := by simp only [every, if_neg hr]
      rw [he]
      rcases ih with ⟨h1, h2⟩ | ⟨h1, y, hy, h2⟩
      · left
        refine ⟨h1, fun y hy hy' => ?_⟩
        rcases List.mem_cons.1 hy with rfl | hy
        · exact absurd ((isRequired_iff y).2 hy') hr
        · exact h2 y hy hy'
      · exact .inr ⟨h1, y, List.mem_cons_of_mem _ hy, h2⟩

/-- The expression is for a value that stands for the shape, or a call of `_smithy_default`. -/
def Fits (g : Gen) (m : Model) (id : Nat) (e : Expr V) : Prop :=
  (∃ v, e = .value v ∧ Corrected g m id v) ∨ (∃ s, m[id]? = some (.struct s) ∧ e = .smithyDefault id)

theorem stuck_struct {m : Model} {id : Nat} {s : Struct} (h : m[id]? = some (.struct s)) :
    Stuck m id ↔ ∃ x ∈ s.members, Required x ∧ Stuck m x.target := by
  constructor
  · intro hs
    cases hs with
    | blob h' => rw [h] at h'; cases h'
    | union h' => rw [h] at h'; cases h'
    | struct x h' hx hr ht => rw [h] at h'; cases h'; exact ⟨x, hx, hr, ht⟩
  · rintro ⟨x, hx, hr, ht⟩
    exact .struct x h hx hr ht

theorem not_stuck_simple {m : Model} {id : Nat} {k : Kind} (h : m[id]? = some k) (h1 : k ≠ .blob true)
    (h2 : k ≠ .union true) (h3 : ∀ s, k ≠ .struct s) : ¬ Stuck m id := by
  intro hs
  cases hs with
  | blob h' => rw [h] at h'; cases h'; exact h1 rfl
  | union h' => rw [h] at h'; cases h'; exact h2 rfl
  | struct x h' => rw [h] at h'; cases h'; exact h3 _ rfl

theorem visit_spec {g : Gen} {m : Model} {rank : Nat → Nat} (hv : Valid g m rank) : ∀ (n id : Nat),
    id < m.length → rank id < n →
    (Stuck m id ∧ (visit m n id : Option (Option (Expr V))) = some none) ∨
      (¬ Stuck m id ∧ ∃ e : Expr V, visit m n id = some (some e) ∧ Fits g m id e)
  | 0, _, _, h => absurd h (Nat.not_lt_zero _)
  | n + 1, id, hid, hn => by
    obtain ⟨k, hk⟩ : ∃ k, m[id]? = some k := ⟨m[id], List.getElem?_eq_getElem hid⟩
    have simple : ∀ v : Value V, k ≠ .blob true → k ≠ .union true → (∀ s, k ≠ .struct s) →
        (visit m (n + 1) id : Option (Option (Expr V))) = some (some (.value v)) → Corrected g m id v →
        (Stuck m id ∧ (visit m (n + 1) id : Option (Option (Expr V))) = some none) ∨
          (¬ Stuck m id ∧ ∃ e : Expr V, visit m (n + 1) id = some (some e) ∧ Fits g m id e) :=
      fun v h1 h2 h3 hvis hc => .inr ⟨not_stuck_simple hk h1 h2 h3, _, hvis, .inl ⟨v, rfl, hc⟩⟩
    cases k with
    | boolean => exact simple _ nofun nofun nofun (by simp only [visit, hk]) (.boolean hk)
    | integer => exact simple _ nofun nofun nofun (by simp only [visit, hk]) (.integer hk)
    | float => exact simple _ nofun nofun nofun (by simp only [visit, hk]) (.float hk)
    | bigDecimal => exact simple _ nofun nofun nofun (by simp only [visit, hk]) (.bigDecimal hk)
    | string => exact simple _ nofun nofun nofun (by simp only [visit, hk]) (.string hk)
    | timestamp => exact simple _ nofun nofun nofun (by simp only [visit, hk]) (.timestamp hk)
    | document => exact simple _ nofun nofun nofun (by simp only [visit, hk]) (.document hk)
    | list => exact simple _ nofun nofun nofun (by simp only [visit, hk]) (.list hk)
    | map => exact simple _ nofun nofun nofun (by simp only [visit, hk]) (.map hk)
    | enum => exact simple _ nofun nofun nofun (by simp only [visit, hk]) (.enum hk)
    | intEnum => exact simple _ nofun nofun nofun (by simp only [visit, hk]) (.intEnum hk)
    | blob streaming =>
      cases streaming with
      | true => exact .inl ⟨.blob hk, by simp only [visit, hk, if_true]⟩
      | false => exact simple _ nofun nofun nofun (by simp only [visit, hk]; rfl) (.blob hk)
    | union streaming =>
      cases streaming with
      | true => exact .inl ⟨.union hk, by simp only [visit, hk, if_true]⟩
      | false => exact simple _ nofun nofun nofun (by simp only [visit, hk]; rfl) (.union hk)
    | struct s =>
      have ih : ∀ x ∈ s.members, Required x →
          (Stuck m x.target ∧ (visit m n x.target : Option (Option (Expr V))) = some none) ∨
            (¬ Stuck m x.target ∧ ∃ e : Expr V, visit m n x.target = some (some e) ∧ Fits g m x.target e) :=
        fun x hx hr => visit_spec hv n x.target (hv.targets id s x hk hx)
          (by have := hv.acyclic id s x hk hx hr; omega)
      rcases every_spec (visit m n : Nat → Option (Option (Expr V))) s.members (fun x hx hr => by
        rcases ih x hx hr with ⟨_, h⟩ | ⟨_, e, h, _⟩
        · exact ⟨_, h⟩
        · exact ⟨_, h⟩) with ⟨h1, h2⟩ | ⟨h1, x, hx, hr, h2⟩
      · right
        refine ⟨?_, .smithyDefault id, by simp only [visit, hk, h1], .inr ⟨s, hk, rfl⟩⟩
        rw [stuck_struct hk]
        rintro ⟨x, hx, hr, ht⟩
        obtain ⟨e, he⟩ := h2 x hx hr
        rcases ih x hx hr with ⟨_, h⟩ | ⟨h, _⟩
        · rw [h] at he; cases he
        · exact h ht
      · left
        refine ⟨(stuck_struct hk).2 ⟨x, hx, hr, ?_⟩, by simp only [visit, hk, h1]⟩
        rcases ih x hx hr with ⟨h, _⟩ | ⟨_, e, h, _⟩
        · exact h
        · rw [h] at h2; cases h2

theorem corrections_spec (f : Nat → Option (Option (Expr V))) : ∀ xs : List (Text × Nat),
    (∀ x ∈ xs, ∃ r, f x.2 = some r) →
    ∃ cs, corrections f xs = some cs ∧ ∀ name e, (name, e) ∈ cs ↔ ∃ t, (name, t) ∈ xs ∧ f t = some (some e)
  | [], _ => ⟨[], rfl, fun name e => ⟨(fun h => by cases h), (fun ⟨t, h, _⟩ => by cases h)⟩⟩
  | (a, t) :: xs, h => by
    obtain ⟨cs, h1, h2⟩ := corrections_spec f xs fun y hy => h y (List.mem_cons_of_mem _ hy)
    obtain ⟨r, hr⟩ := h (a, t) (List.mem_cons_self ..)
    simp only at hr
    cases r with
    | none =>
      refine ⟨cs, by simp only [corrections, hr, h1], fun name e => ?_⟩
      rw [h2 name e]
      constructor
      · rintro ⟨t', ht, hf⟩
        exact ⟨t', List.mem_cons_of_mem _ ht, hf⟩
      · rintro ⟨t', ht, hf⟩
        rcases List.mem_cons.1 ht with he | ht
        · cases he; rw [hr] at hf; cases hf
        · exact ⟨t', ht, hf⟩
    | some e' =>
      refine ⟨(a, e') :: cs, by simp only [corrections, hr, h1], fun name e => ?_⟩
      rw [List.mem_cons, h2 name e]
      constructor
      · rintro (he | ⟨t', ht, hf⟩)
        · cases he; exact ⟨t, List.mem_cons_self .., hr⟩
        · exact ⟨t', List.mem_cons_of_mem _ ht, hf⟩
      · rintro ⟨t', ht, hf⟩
        rcases List.mem_cons.1 ht with he | ht
        · cases he; rw [hr] at hf; cases hf; exact .inl rfl
        · exact .inr ⟨t', ht, hf⟩

/-! ## Fields -/

theorem lookup_annotate (fields : List (Text × Option (Value V))) (a : Text × Option (Value V)) (k : Text) :
    (annotate fields a).lookup k = if k = a.1 then some (a.2.or (fields.lookup a.1).join) else fields.lookup k := by
  unfold annotate
  rw [lookup_put]

theorem lookup_annotations (k : Text) : ∀ (own base : List (Text × Option (Value V))), Keys own →
    (own.foldl annotate base).lookup k =
      match own.lookup k with
      | some d => some (d.or (base.lookup k).join)
      | none => base.lookup k
  | [], base, _ => rfl
  | (a, d) :: own, base, h => by
    simp only [Keys, List.map_cons, List.nodup_cons] at h
    rw [List.foldl_cons, lookup_annotations k own _ h.2, lookup_annotate, lookup_cons]
    by_cases hk : k = a
    · subst hk
      have : own.lookup k = none := (lookup_eq_none k own).2 h.1
      simp only [this, if_true]
    · simp only [if_neg hk]

theorem keys_annotations : ∀ (own base : List (Text × Option (Value V))), Keys base → Keys (own.foldl annotate base)
  | [], _, h => h
  | a :: own, base, h => keys_annotations own _ (keys_put a.1 _ base h)

/-- The fields that a class has before those of its members. -/
def baseFields (s : Struct) : List (Text × Option (Value V)) :=
  match s.error with
  | none => []
  | some t => (errorAnnotations t).foldl annotate errorFields

theorem baseFields_error (s : Struct) (t : ErrorTraits) (h : s.error = some t) :
    (baseFields s : List (Text × Option (Value V))) =
      [("fault".toList, some (.str t.fault)), ("message".toList, some (.str [])),
        ("is_retry_safe".toList, some (match t.retryable with | none => .none | some _ => .bool true)),
        ("retry_after".toList, some .none),
        ("is_throttling_error".toList, some (.bool (match t.retryable with | some true => true | _ => false))),
        ("is_timeout_error".toList, some (.bool false))] := by
  obtain ⟨fault, retryable⟩ := t
  unfold baseFields
  rw [h]
  rcases retryable with _ | _ | _ <;> rfl

theorem keys_baseFields (s : Struct) : Keys (baseFields s : List (Text × Option (Value V))) := by
  cases h : s.error with
  | none => unfold baseFields; rw [h]; exact List.nodup_nil
  | some t =>
    rw [baseFields_error s t h]
    unfold Keys
    simp only [List.map_cons, List.map_nil]
    decide

theorem baseFields_some (s : Struct) (k : Text) (d : Option (Value V)) (h : (baseFields s).lookup k = some d) :
    d.isSome = true := by
  cases ht : s.error with
  | none => unfold baseFields at h; rw [ht] at h; cases h
  | some t =>
    rw [baseFields_error s t ht] at h
    simp only [lookup_cons, List.lookup_nil] at h
    repeat' split at h
    all_goals first | (cases h; rfl) | cases h

theorem baseFields_names (s : Struct) (k : Text) (h : (baseFields s : List (Text × Option (Value V))).lookup k ≠ none) :
    s.error.isSome = true ∧
      k ∈ ["fault", "message", "is_retry_safe", "retry_after", "is_throttling_error", "is_timeout_error"].map String.toList := by
  cases ht : s.error with
  | none => unfold baseFields at h; rw [ht] at h; exact absurd rfl h
  | some t =>
    refine ⟨rfl, ?_⟩
    rw [baseFields_error s t ht] at h
    by_contra hk
    apply h
    rw [lookup_eq_none]
    exact hk

section
variable {g : Gen} {m : Model} {rank : Nat → Nat}

theorem nodup_properties (hv : Valid g m rank) {id : Nat} {s : Struct} (hs : m[id]? = some (.struct s)) :
    ((properties m s).map (g.pyName s)).Nodup := by
  refine (hv.names id s hs).sublist (List.Sublist.map _ ?_)
  have : properties m s = (s.members.filter fun x => !isStream m x).filter fun x => !isMessage s x := by
    unfold properties
    rw [List.filter_filter]
  rw [this]
  exact List.filter_sublist

theorem annotations_keys (hv : Valid g m rank) {id : Nat} {s : Struct} (hs : m[id]? = some (.struct s)) :
    Keys (g.annotations m s : List (Text × Option (Value V))) := by
  unfold Keys Gen.annotations
  rw [List.map_append, List.map_map, List.map_map]
  have hp : ((properties m s).filter isRequired ++ (properties m s).filter fun x => !isRequired x).Perm (properties m s) :=
    List.filter_append_perm isRequired (properties m s)
  have := (hp.map (g.pyName s)).nodup_iff.2 (nodup_properties hv hs)
  rw [List.map_append] at this
  exact this

theorem lookup_of_mem {K W : Type} [BEq K] [LawfulBEq K] [DecidableEq K] (k : K) (w : W) : ∀ d : List (K × W), Keys d → (k, w) ∈ d →
    d.lookup k = some w
  | [], _, h => by cases h
  | (a, b) :: d, hk, h => by
    simp only [Keys, List.map_cons, List.nodup_cons] at hk
    rw [lookup_cons]
    rcases List.mem_cons.1 h with he | he
    · cases he; rw [if_pos rfl]
    · have : k ≠ a := fun e => hk.1 (List.mem_map.2 ⟨(k, w), he, e⟩)
      rw [if_neg this]
      exact lookup_of_mem k w d hk.2 he

theorem mem_of_lookup {K W : Type} [BEq K] [LawfulBEq K] [DecidableEq K] (k : K) (w : W) : ∀ d : List (K × W), d.lookup k = some w →
    (k, w) ∈ d
  | [], h => by cases h
  | (a, b) :: d, h => by
    rw [lookup_cons] at h
    by_cases he : k = a
    · rw [if_pos he] at h; cases h; rw [he]; exact List.mem_cons_self ..
    · rw [if_neg he] at h; exact List.mem_cons_of_mem _ (mem_of_lookup k w d h)

theorem annotations_property (hv : Valid g m rank) {id : Nat} {s : Struct} (hs : m[id]? = some (.struct s)) {x : Member}
    (hx : IsProperty m s x) :
    (g.annotations m s : List (Text × Option (Value V))).lookup (g.pyName s x) =
      some (if isRequired x then none else some (g.optional m x)) := by
  refine lookup_of_mem _ _ _ (annotations_keys hv hs) ?_
  unfold Gen.annotations
  rw [List.mem_append]
  have hx := (mem_properties m s x).2 hx
  cases hr : isRequired x with
  | true => exact .inl (List.mem_map.2 ⟨x, List.mem_filter.2 ⟨hx, hr⟩, rfl⟩)
  | false => exact .inr (List.mem_map.2 ⟨x, List.mem_filter.2 ⟨hx, by rw [hr]; rfl⟩, rfl⟩)

theorem annotations_other (s : Struct) (k : Text) (h : ∀ x, IsProperty m s x → g.pyName s x ≠ k) :
    (g.annotations m s : List (Text × Option (Value V))).lookup k = none := by
  rw [lookup_eq_none]
  unfold Gen.annotations
  rw [List.map_append, List.map_map, List.map_map, List.mem_append]
  rintro (hk | hk)
  · obtain ⟨x, hx, he⟩ := List.mem_map.1 hk
    exact h x ((mem_properties m s x).1 (List.mem_filter.1 hx).1) he
  · obtain ⟨x, hx, he⟩ := List.mem_map.1 hk
    exact h x ((mem_properties m s x).1 (List.mem_filter.1 hx).1) he

theorem fields_eq (s : Struct) : (g.fields m s : List (Text × Option (Value V))) =
    (g.annotations m s).foldl annotate (baseFields s) := rfl

theorem keys_fields (s : Struct) : Keys (g.fields m s : List (Text × Option (Value V))) := by
  rw [fields_eq]
  exact keys_annotations _ _ (keys_baseFields s)

theorem fields_property (hv : Valid g m rank) {id : Nat} {s : Struct} (hs : m[id]? = some (.struct s)) {x : Member}
    (hx : IsProperty m s x) :
    (g.fields m s : List (Text × Option (Value V))).lookup (g.pyName s x) =
      some (if isRequired x then none else some (g.optional m x)) := by
  have hb : (baseFields s : List (Text × Option (Value V))).lookup (g.pyName s x) = none := by
    by_contra h
    obtain ⟨h1, h2⟩ := baseFields_names s _ h
    exact hv.errors id s x hs h1 hx h2
  rw [fields_eq, lookup_annotations _ _ _ (annotations_keys hv hs), annotations_property hv hs hx, hb]
  simp

theorem fields_other (hv : Valid g m rank) {id : Nat} {s : Struct} (hs : m[id]? = some (.struct s)) (k : Text)
    (h : ∀ x, IsProperty m s x → g.pyName s x ≠ k) :
    (g.fields m s : List (Text × Option (Value V))).lookup k = (baseFields s).lookup k := by
  rw [fields_eq, lookup_annotations _ _ _ (annotations_keys hv hs), annotations_other s k h]

/-- Fields without a default are required members. -/
theorem fields_none (hv : Valid g m rank) {id : Nat} {s : Struct} (hs : m[id]? = some (.struct s)) (k : Text)
    (h : (g.fields m s : List (Text × Option (Value V))).lookup k = some none) :
    ∃ x, IsProperty m s x ∧ Required x ∧ g.pyName s x = k := by
  by_cases hk : ∀ x, IsProperty m s x → g.pyName s x ≠ k
  · rw [fields_other hv hs k hk] at h
    have := baseFields_some s k none h
    cases this
  · push Not at hk
    obtain ⟨x, hx, rfl⟩ := hk
    rw [fields_property hv hs hx] at h
    refine ⟨x, hx, ?_, rfl⟩
    rw [← isRequired_iff]
    by_contra hr
    rw [if_neg hr] at h
    cases h

end

/-! ## Generated code -/

theorem lookup_map_snd {K A B : Type} [BEq K] [LawfulBEq K] [DecidableEq K] (k : K) (f : K × A → B) : ∀ d : List (K × A),
    (d.map fun e => (e.1, f e)).lookup k = (d.lookup k).map fun a => f (k, a)
  | [] => rfl
  | (a, b) :: d => by
    rw [List.map_cons, lookup_cons, lookup_cons]
    by_cases h : k = a
    · subst h; simp
    · rw [if_neg h, if_neg h]; exact lookup_map_snd k f d

theorem construct_ok (cls : Nat) (fields : List (Text × Option (Value V))) (kwargs : List (Text × Value V))
    (hk : Keys fields) (h1 : ∀ k, kwargs.lookup k ≠ none → fields.lookup k ≠ none)
    (h2 : ∀ k, fields.lookup k = some none → kwargs.lookup k ≠ none) :
    ∃ fs, construct cls fields kwargs = .ok (.object cls fs) ∧
      ∀ k, fs.lookup k = (fields.lookup k).map fun d => (kwargs.lookup k).getD (d.getD .none) := by
  have e1 : (kwargs.any fun k => (fields.lookup k.1).isNone) = false := by
    rw [List.any_eq_false]
    intro x hx hn
    have : kwargs.lookup x.1 ≠ none := by
      rw [Ne, lookup_eq_none]
      exact fun h => h (List.mem_map.2 ⟨x, hx, rfl⟩)
    have := h1 _ this
    rw [Option.isNone_iff_eq_none] at hn
    exact this hn
  have e2 : (fields.any fun f => f.2.isNone && (kwargs.lookup f.1).isNone) = false := by
    rw [List.any_eq_false]
    intro f hf hn
    rw [Bool.and_eq_true, Option.isNone_iff_eq_none, Option.isNone_iff_eq_none] at hn
    obtain ⟨a, b⟩ := f
    simp only at hn
    refine h2 a ?_ hn.2
    rw [lookup_of_mem a b fields hk hf, hn.1]
  refine ⟨_, by unfold construct; rw [e1, e2]; rfl, fun k => ?_⟩
  rw [lookup_map_snd k (fun f : Text × Option (Value V) => (kwargs.lookup f.1).getD (f.2.getD .none))]

theorem construct_error (cls : Nat) (fields : List (Text × Option (Value V))) (kwargs : List (Text × Value V)) (k : Text)
    (h1 : fields.lookup k = some none) (h2 : kwargs.lookup k = none) :
    construct cls fields kwargs = .error .typeError := by
  have e2 : (fields.any fun f => f.2.isNone && (kwargs.lookup f.1).isNone) = true := by
    rw [List.any_eq_true]
    exact ⟨(k, none), mem_of_lookup k none fields h1, by simp only [h2]; rfl⟩
  unfold construct
  rw [e2]
  split <;> rfl

theorem evalArgs_spec (f : Expr V → Except Err (Value V)) : ∀ args : List (Text × Expr V),
    (∀ a ∈ args, ∃ v, f a.2 = .ok v) →
    ∃ vs, evalArgs f args = .ok vs ∧ vs.map Prod.fst = args.map Prod.fst ∧
      ∀ name v, (name, v) ∈ vs → ∃ e, (name, e) ∈ args ∧ f e = .ok v
  | [], _ => ⟨[], rfl, rfl, fun _ _ h => by cases h⟩
  | (a, e) :: args, h => by
    obtain ⟨vs, h1, h2, h3⟩ := evalArgs_spec f args fun y hy => h y (List.mem_cons_of_mem _ hy)
    obtain ⟨v, hv⟩ := h (a, e) (List.mem_cons_self ..)
    refine ⟨(a, v) :: vs, by simp only [evalArgs, hv, h1], by simp [h2], fun name w hw => ?_⟩
    rcases List.mem_cons.1 hw with he | hw
    · cases he; exact ⟨e, List.mem_cons_self .., hv⟩
    · obtain ⟨e', he, hf⟩ := h3 name w hw
      exact ⟨e', List.mem_cons_of_mem _ he, hf⟩

theorem correct_spec (f : Expr V → Except Err (Value V)) : ∀ (cs : List (Text × Expr V)) (kw : List (Text × Value V)),
    (∀ c ∈ cs, ∃ v, f c.2 = .ok v) →
    ∃ kw', correct f cs kw = .ok kw' ∧
      (∀ k v, kw.lookup k = some v → kw'.lookup k = some v) ∧
      (∀ k, kw.lookup k = none → k ∉ cs.map Prod.fst → kw'.lookup k = none) ∧
      (∀ k, kw.lookup k = none → k ∈ cs.map Prod.fst → ∃ e v, (k, e) ∈ cs ∧ f e = .ok v ∧ kw'.lookup k = some v)
  | [], kw, _ => ⟨kw, rfl, fun _ _ h => h, fun _ h _ => h, fun _ _ h => by cases h⟩
  | (a, e) :: cs, kw, h => by
    have h' : ∀ c ∈ cs, ∃ v, f c.2 = .ok v := fun c hc => h c (List.mem_cons_of_mem _ hc)
    by_cases hs : (kw.lookup a).isSome = true
    · obtain ⟨kw', h1, h2, h3, h4⟩ := correct_spec f cs kw h'
      refine ⟨kw', by simp only [correct, if_pos hs, h1], h2, fun k hk hn => ?_, fun k hk hm => ?_⟩
      · exact h3 k hk fun hm => hn (List.mem_cons_of_mem _ hm)
      · rw [List.map_cons, List.mem_cons] at hm
        rcases hm with rfl | hm
        · rw [hk] at hs; cases hs
        · obtain ⟨e', v, he, hf, hl⟩ := h4 k hk hm
          exact ⟨e', v, List.mem_cons_of_mem _ he, hf, hl⟩
    · obtain ⟨v, hv⟩ := h (a, e) (List.mem_cons_self ..)
      obtain ⟨kw', h1, h2, h3, h4⟩ := correct_spec f cs (put kw a v) h'
      have hn : kw.lookup a = none := by
        cases hl : kw.lookup a with
        | none => rfl
        | some w => rw [hl] at hs; exact absurd rfl hs
      simp only at hv
      refine ⟨kw', by simp only [correct, if_neg hs, hv, h1], fun k w hw => ?_, fun k hk hm => ?_, fun k hk hm => ?_⟩
      · have hka : k ≠ a := fun he => by rw [he, hn] at hw; cases hw
        exact h2 k w (by rw [lookup_put, if_neg hka]; exact hw)
      · rw [List.map_cons, List.mem_cons, not_or] at hm
        exact h3 k (by rw [lookup_put, if_neg hm.1]; exact hk) hm.2
      · by_cases hka : k = a
        · subst hka
          exact ⟨e, v, List.mem_cons_self .., hv, h2 k v (by rw [lookup_put, if_pos rfl])⟩
        · rw [List.map_cons, List.mem_cons] at hm
          obtain ⟨e', w, he, hf, hl⟩ := h4 k (by rw [lookup_put, if_neg hka]; exact hk) (hm.resolve_left hka)
          exact ⟨e', w, List.mem_cons_of_mem _ he, hf, hl⟩

theorem consume_append (consumer : List (Option Text)) (reads : List (Nat × V)) (r : Nat × V) :
    consume consumer (reads ++ [r]) =
      match consumer[r.1]? with
      | some (some name) => put (consume consumer reads) name (.read r.2)
      | _ => consume consumer reads := by
  unfold consume
  rw [List.foldl_append]
  rfl

theorem lastRead_append (reads : List (Nat × V)) (r : Nat × V) (i : Nat) :
    lastRead (reads ++ [r]) i = if i = r.1 then some r.2 else lastRead reads i := by
  unfold lastRead
  rw [List.reverse_append]
  exact lookup_cons i r.1 r.2 _

theorem consume_other (consumer : List (Option Text)) (k : Text) (h : some k ∉ consumer) (reads : List (Nat × V)) :
    (consume consumer reads).lookup k = none := by
  induction reads using List.reverseRecOn with
  | nil => rfl
  | append_singleton reads r ih =>
    rw [consume_append]
    split
    · next name hn =>
      rw [lookup_put, if_neg, ih]
      rintro rfl
      exact h (List.mem_of_getElem? hn)
    · exact ih

theorem consume_index (consumer : List (Option Text)) (i : Nat) (k : Text) (hi : consumer[i]? = some (some k))
    (huniq : ∀ j, consumer[j]? = some (some k) → j = i) (reads : List (Nat × V)) :
    (consume consumer reads).lookup k = (lastRead reads i).map .read := by
  induction reads using List.reverseRecOn with
  | nil => rfl
  | append_singleton reads r ih =>
    rw [consume_append, lastRead_append]
    by_cases hr : i = r.1
    · rw [if_pos hr, ← hr, hi]
      simp only
      rw [lookup_put, if_pos rfl]
      rfl
    · rw [if_neg hr]
      split
      · next name hn =>
        rw [lookup_put, if_neg, ih]
        rintro rfl
        exact hr (huniq _ hn).symm
      · exact ih

end Verif.Generated
