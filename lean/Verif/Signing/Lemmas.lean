import Verif.Signing.Model
import Verif.Fields.Lemmas

/-! # Signing and lists of fields -/

set_option autoImplicit false

namespace Verif.Signing

open Verif.Uri Verif.Text Verif.Fields

variable {lib : Lib}

/-- The collection at address `c` holds the fields `fs`. -/
structure Holds (lib : Lib) (w : World) (c : Nat) (fs : List (Field Bytes)) : Prop where
  there : c < w.colls.length
  rep : Rep lib.lower w.objs (w.coll c) fs

theorem coll_of {w : World} {c : Nat} {d : Dict Bytes} (h : w.colls[c]? = some d) : w.coll c = d := by
  simp [World.coll, h]

theorem Holds.fields {w : World} {c : Nat} {fs : List (Field Bytes)} (h : Holds lib w c fs) :
    w.fields c = fs := forall2_fields h.rep.all

theorem Holds.distinct {w : World} {c : Nat} {fs : List (Field Bytes)} (h : Holds lib w c fs) :
    Distinct lib.lower fs := h.rep.distinct

theorem Holds.contains {w : World} {c : Nat} {fs : List (Field Bytes)} (h : Holds lib w c fs)
    (name : Bytes) : w.contains lib c name = (lookup lib.lower fs name).isSome :=
  get_isSome h.rep.all name

theorem Holds.get {w : World} {c : Nat} {fs : List (Field Bytes)} (h : Holds lib w c fs)
    (name : Bytes) : w.get lib c name = lookup lib.lower fs name := by
  have := get_lookup h.rep.all name
  unfold World.get
  cases hg : (w.coll c).get (lib.lower name) with
  | none => rw [hg] at this; simp only at this; rw [this]; rfl
  | some a =>
    rw [hg] at this
    obtain ⟨f, h1, h2, _⟩ := this
    rw [h1]
    exact h2

theorem coll_modify (w : World) (c : Nat) (u : Dict Bytes → Dict Bytes) (hc : c < w.colls.length)
    (objs : Heap Bytes) :
    World.coll { w with objs := objs, colls := w.colls.modify c u } c = u (w.coll c) := by
  simp only [World.coll, List.getElem?_modify, if_true]
  rw [List.getElem?_eq_getElem hc]
  rfl

theorem Holds.setField {w : World} {c : Nat} {fs : List (Field Bytes)} (h : Holds lib w c fs)
    (name : Bytes) (values : List Bytes) :
    Holds lib (w.setField lib c name values) c (put lib.lower fs ⟨name, values, .header⟩) := by
  refine ⟨by simpa [World.setField] using h.there, ?_⟩
  have hr := rep_append h.rep [(⟨name, values, .header⟩ : Field Bytes)]
  have := rep_put hr ⟨name, values, .header⟩ w.objs.length (by simp) ?_
  · rw [World.setField, coll_modify w c _ h.there]
    exact this
  · intro hm
    have := rep_lt h.rep _ hm
    omega

/-! ## What stays -/

/-- Nothing that was there has changed, except for the collection `c`. -/
structure Keeps (c : Nat) (w w' : World) : Prop where
  objs : ∀ (a : Nat) f, w.objs[a]? = some f → w'.objs[a]? = some f
  colls : ∀ (k : Nat) d, k ≠ c → w.colls[k]? = some d → w'.colls[k]? = some d

theorem Keeps.refl (c : Nat) (w : World) : Keeps c w w := ⟨fun _ _ h => h, fun _ _ _ h => h⟩

theorem Keeps.trans {c : Nat} {u v w : World} (h1 : Keeps c u v) (h2 : Keeps c v w) : Keeps c u w :=
  ⟨fun a f h => h2.objs a f (h1.objs a f h), fun k d hk h => h2.colls k d hk (h1.colls k d hk h)⟩

theorem get_append {α : Type} (l m : List α) (a : Nat) (x : α) (h : l[a]? = some x) :
    (l ++ m)[a]? = some x := by
  have : a < l.length := by
    by_contra hc
    rw [List.getElem?_eq_none (by omega)] at h
    cases h
  rw [List.getElem?_append_left this, h]

theorem modify_same {α : Type} (l : List α) (b : Nat) (f : α → α) :
    (l.modify b f)[b]? = (l[b]?).map f := by
  rw [List.getElem?_modify]
  simp

theorem modify_other {α : Type} (l : List α) (b i : Nat) (f : α → α) (h : b ≠ i) :
    (l.modify b f)[i]? = l[i]? := by
  rw [List.getElem?_modify]
  simp [h]

theorem keeps_setField (w : World) (c : Nat) (name : Bytes) (values : List Bytes) :
    Keeps c w (w.setField lib c name values) := by
  refine ⟨fun a f h => get_append _ _ _ _ h, fun k d hk h => ?_⟩
  rw [World.setField, modify_other _ _ _ _ (Ne.symm hk)]
  exact h

theorem setField_bodies (w : World) (c : Nat) (name : Bytes) (values : List Bytes) :
    (w.setField lib c name values).bodies = w.bodies := rfl

/-! ## Copying -/

theorem copyFields_spec (d : Dict Bytes) : ∀ (objs : Heap Bytes) (fs : List (Field Bytes)),
    List.Forall₂ (Match lib.lower objs) d fs →
    (∀ (a : Nat) f, objs[a]? = some f → (copyFields objs d).1[a]? = some f) ∧
    List.Forall₂ (Match lib.lower (copyFields objs d).1) (copyFields objs d).2 fs ∧
    (copyFields objs d).2.map Prod.fst = d.map Prod.fst ∧
    ((copyFields objs d).2.map Prod.snd).Nodup ∧
    ∀ a ∈ (copyFields objs d).2.map Prod.snd, objs.length ≤ a := by
  induction d with
  | nil =>
    intro objs fs h
    cases h
    exact ⟨fun _ _ h => h, .nil, rfl, .nil, by simp [copyFields]⟩
  | cons x d ih =>
    intro objs fs h
    cases h with
    | @cons _ f _ fs h1 h2 =>
      obtain ⟨k, a⟩ := x
      have h2' : List.Forall₂ (Match lib.lower (objs ++ [f])) d fs :=
        h2.imp fun _ _ h => ⟨get_append _ _ _ _ h.1, h.2⟩
      obtain ⟨i1, i2, i3, i4, i5⟩ := ih (objs ++ [f]) fs h2'
      have he : copyFields objs ((k, a) :: d) =
          ((copyFields (objs ++ [f]) d).1, (k, objs.length) :: (copyFields (objs ++ [f]) d).2) := by
        simp only [copyFields, h1.1]
      rw [he]
      refine ⟨fun b g hb => i1 b g (get_append _ _ _ _ hb), ?_, ?_, ?_, ?_⟩
      · refine .cons ⟨i1 _ _ (by simp), h1.2⟩ i2
      · simp only [List.map_cons, i3]
      · simp only [List.map_cons, List.nodup_cons]
        refine ⟨fun hm => ?_, i4⟩
        have := i5 _ hm
        simp at this
        omega
      · intro b hb
        simp only [List.map_cons, List.mem_cons] at hb
        rcases hb with rfl | hb
        · exact Nat.le_refl _
        · have := i5 b hb
          simp at this; omega

theorem copyFields_keeps (d : Dict Bytes) : ∀ (objs : Heap Bytes) (a : Nat) f,
    objs[a]? = some f → (copyFields objs d).1[a]? = some f := by
  induction d with
  | nil => intro objs a f h; exact h
  | cons x d ih =>
    intro objs a f h
    obtain ⟨k, b⟩ := x
    simp only [copyFields]
    cases objs[b]? with
    | none => exact ih objs a f h
    | some g => exact ih _ a f (get_append _ _ _ _ h)

theorem copy_holds {w : World} {r : Request} {fs : List (Field Bytes)}
    (h : Holds lib w r.fields fs) :
    Holds lib (copyRequest w r).1 (copyRequest w r).2.fields fs := by
  obtain ⟨_, i2, i3, i4, _⟩ := copyFields_spec (w.coll r.fields) w.objs fs h.rep.all
  refine ⟨by simp [copyRequest], ?_⟩
  have hc : (copyRequest w r).1.coll (copyRequest w r).2.fields =
      (copyFields w.objs (w.coll r.fields)).2 := by
    simp [copyRequest, World.coll]
  rw [hc]
  exact ⟨i2, by rw [i3]; exact h.rep.keys, i4⟩

theorem copy_keeps (w : World) (r : Request) :
    Keeps (copyRequest w r).2.fields w (copyRequest w r).1 :=
  ⟨fun a f h => copyFields_keeps _ _ a f h, fun _ _ _ h => get_append _ _ _ _ h⟩

/-! ## Required fields -/

/-- `_apply_required_fields` on a list of fields. -/
def required (lib : Lib) (date : Bytes) (ident : Identity) (fs : List (Field Bytes)) :
    List (Field Bytes) :=
  let fs := if (lookup lib.lower fs (asc "Date")).isSome || (lookup lib.lower fs (asc "X-Amz-Date")).isSome
    then fs else put lib.lower fs ⟨asc "X-Amz-Date", [date], .header⟩
  match ident.token with
  | none => fs
  | some token => if (lookup lib.lower fs (asc "X-Amz-Security-Token")).isSome then fs
    else put lib.lower fs ⟨asc "X-Amz-Security-Token", [token], .header⟩

theorem required_spec {w : World} {c : Nat} {fs : List (Field Bytes)} (h : Holds lib w c fs)
    (date : Bytes) (ident : Identity) :
    Holds lib (applyRequired lib w c date ident) c (required lib date ident fs) := by
  unfold applyRequired required
  simp only [h.contains]
  generalize hw : (if (lookup lib.lower fs (asc "Date")).isSome ||
      (lookup lib.lower fs (asc "X-Amz-Date")).isSome then w
    else w.setField lib c (asc "X-Amz-Date") [date]) = w1
  generalize hf : (if (lookup lib.lower fs (asc "Date")).isSome ||
      (lookup lib.lower fs (asc "X-Amz-Date")).isSome then fs
    else put lib.lower fs ⟨asc "X-Amz-Date", [date], .header⟩) = fs1
  have h1 : Holds lib w1 c fs1 := by
    subst hw hf
    split
    · exact h
    · exact h.setField _ _
  cases ident.token with
  | none => exact h1
  | some token =>
    simp only [h1.contains]
    split
    · exact h1
    · exact h1.setField _ _

theorem required_keeps (w : World) (c : Nat) (date : Bytes) (ident : Identity) :
    Keeps c w (applyRequired lib w c date ident) ∧
      (applyRequired lib w c date ident).bodies = w.bodies := by
  unfold applyRequired
  generalize hw : (if w.contains lib c (asc "Date") || w.contains lib c (asc "X-Amz-Date") then w
    else w.setField lib c (asc "X-Amz-Date") [date]) = w1
  have h1 : Keeps c w w1 ∧ w1.bodies = w.bodies := by
    subst hw
    split
    · exact ⟨Keeps.refl _ _, rfl⟩
    · exact ⟨keeps_setField _ _ _ _, rfl⟩
  cases ident.token with
  | none => exact h1
  | some token =>
    simp only
    split
    · exact h1
    · exact ⟨h1.1.trans (keeps_setField _ _ _ _), h1.2⟩

/-! ## Payload -/

/-- The body of a request. -/
def bodyOf (w : World) (r : Request) : Option Body := r.body.map fun b => (w.bodies[b]?).getD .foreign

/-- The hash of a body. -/
def bodyHash (lib : Lib) (dest : Destination) (p : Properties) (body : Option Body) :
    Except Error Bytes :=
  if dest.scheme = asc "https" && !p.payloadSigning.getD true then .ok unsignedPayload
  else match body with
    | none => .ok emptyHash
    | some .foreign => .error .typeError
    | some b => .ok (lib.sha256 b.pending)

/-- The hash to use without looking at the body, and the fields then. -/
def presetPayload (lib : Lib) (v : Variant) (fs : List (Field Bytes)) :
    Option (Bytes × List (Field Bytes)) :=
  match v with
  | .sync => none
  | .async =>
    match (lookup lib.lower fs (asc "X-Amz-Content-SHA256")).map Field.values with
    | some [hash] => some (hash, fs)
    | _ =>
      if (lookup lib.lower fs (asc "Content-Type")).map (fun f => asString f.values) =
          some eventStreamType then
        some (eventStreamHash, put lib.lower fs ⟨asc "X-Amz-Content-SHA256", [eventStreamHash], .header⟩)
      else none

/-- `_format_canonical_payload` on a list of fields: hash and fields. -/
def payloadSpec (lib : Lib) (v : Variant) (dest : Destination) (p : Properties)
    (fs : List (Field Bytes)) (body : Option Body) : Except Error (Bytes × List (Field Bytes)) :=
  match presetPayload lib v fs with
  | some x => .ok x
  | none =>
    match bodyHash lib dest p body with
    | .error e => .error e
    | .ok hash => .ok (hash, if p.contentChecksum.getD false then
        put lib.lower fs ⟨asc "X-Amz-Content-SHA256", [hash], .header⟩ else fs)

/-- What happens to bodies: only the iterator of the request is consumed. -/
structure Bodies (w : World) (r : Request) (w' : World) (r' : Request) : Prop where
  keep : ∀ (b : Nat) body, w.bodies[b]? = some body →
    (r.body ≠ some b ∨ ∀ rest, body ≠ .iterator rest) → w'.bodies[b]? = some body
  same : (bodyOf w' r').map Body.pending = (bodyOf w r).map Body.pending
  foreign : bodyOf w' r' = some .foreign ↔ bodyOf w r = some .foreign

theorem Bodies.refl (w : World) (r : Request) : Bodies w r w r := ⟨fun _ _ h _ => h, rfl, Iff.rfl⟩

/-- A step of the signer: text of the payload, and what it does to the objects. -/
structure Step (lib : Lib) (w : World) (r : Request) (w' : World) (r' : Request)
    (fs' : List (Field Bytes)) : Prop where
  holds : Holds lib w' r.fields fs'
  dest : r'.destination = r.destination
  method : r'.method = r.method
  fields : r'.fields = r.fields
  keeps : Keeps r.fields w w'
  bodies : Bodies w r w' r'

theorem modify_self {α : Type} (l : List α) (b : Nat) (f : α → α)
    (h : ∀ x, l[b]? = some x → f x = x) : l.modify b f = l := by
  apply List.ext_getElem?
  intro i
  by_cases hi : b = i
  · subst hi
    rw [modify_same]
    cases hx : l[b]? with
    | none => rfl
    | some x => rw [Option.map_some, h x hx]
  · rw [modify_other _ _ _ _ hi]

theorem modify_modify {α : Type} (l : List α) (b : Nat) (f g : α → α) :
    (l.modify b f).modify b g = l.modify b (g ∘ f) := by
  apply List.ext_getElem?
  intro i
  by_cases hi : b = i
  · subst hi
    rw [modify_same, modify_same, modify_same, Option.map_map]
  · rw [modify_other _ _ _ _ hi, modify_other _ _ _ _ hi, modify_other _ _ _ _ hi]

theorem payloadHash_spec (v : Variant) {w : World} {r : Request} {fs : List (Field Bytes)}
    (h : Holds lib w r.fields fs) (p : Properties) :
    match bodyHash lib r.destination p (bodyOf w r) with
    | .error e => payloadHash lib v w r p = (w, .error e)
    | .ok hash => ∃ w' r', payloadHash lib v w r p = (w', .ok (r', hash)) ∧ Step lib w r w' r' fs := by
  unfold bodyHash payloadHash
  by_cases hs : (r.destination.scheme = asc "https" && !p.payloadSigning.getD true) = true
  · rw [if_pos hs, if_pos hs]
    exact ⟨w, r, rfl, h, rfl, rfl, rfl, Keeps.refl _ _, Bodies.refl _ _⟩
  · rw [if_neg hs, if_neg hs]
    cases hb : r.body with
    | none =>
      simp only [bodyOf, hb, Option.map_none]
      exact ⟨w, r, rfl, h, rfl, rfl, rfl, Keeps.refl _ _, Bodies.refl _ _⟩
    | some b =>
      simp only [bodyOf, hb, Option.map_some]
      cases hx : w.bodies[b]? with
      | none => simp
      | some body =>
        have hlt : b < w.bodies.length := by
          by_contra hc
          rw [List.getElem?_eq_none (by omega)] at hx
          cases hx
        have newBody : body ≠ .foreign → (∀ c x, body ≠ .file c x) →
            Step lib w r
              { w with bodies := w.bodies.modify b Body.drain ++ [bufferOf v body.pending] }
              { r with body := some (w.bodies.modify b Body.drain).length } fs := by
          intro hnf hne
          refine ⟨⟨h.there, h.rep⟩, rfl, rfl, rfl, ⟨fun _ _ h => h, fun _ _ _ h => h⟩, ?_⟩
          have hnew : bodyOf
              { w with bodies := w.bodies.modify b Body.drain ++ [bufferOf v body.pending] }
              { r with body := some (w.bodies.modify b Body.drain).length } =
              some (bufferOf v body.pending) := by
            simp [bodyOf]
          have hold : bodyOf w r = some body := by simp [bodyOf, hb, hx]
          refine ⟨?_, ?_, ?_⟩
          · intro c x hc hor
            apply get_append
            by_cases he : b = c
            · subst he
              rw [hx] at hc
              cases hc
              rcases hor with hor | hor
              · exact absurd hb hor
              · rw [modify_same, hx]
                cases body with
                | file c x => exact absurd rfl (hne c x)
                | iterator rest => exact absurd rfl (hor rest)
                | chunks all => rfl
                | foreign => rfl
            · rw [modify_other _ _ _ _ he]; exact hc
          · rw [hnew, hold]
            cases v <;> simp [bufferOf, Body.pending]
          · rw [hnew, hold]
            cases v <;> simp [bufferOf, hnf]
        cases body with
        | foreign => simp
        | file content pos =>
          simp only [Option.getD_some]
          refine ⟨_, _, rfl, ?_⟩
          have : (w.bodies.modify b Body.drain).modify b (Body.seek pos) = w.bodies := by
            rw [modify_modify]
            apply modify_self
            intro x hx'
            rw [hx] at hx'
            cases hx'
            rfl
          rw [this]
          exact ⟨⟨h.there, h.rep⟩, rfl, rfl, rfl, ⟨fun _ _ h => h, fun _ _ _ h => h⟩,
            Bodies.refl _ _⟩
        | iterator rest =>
          simp only [Option.getD_some]
          exact ⟨_, _, rfl, newBody (by simp) (by simp)⟩
        | chunks all =>
          simp only [Option.getD_some]
          exact ⟨_, _, rfl, newBody (by simp) (by simp)⟩

theorem Step.setField {w w' : World} {r r' : Request} {fs' : List (Field Bytes)}
    (h : Step lib w r w' r' fs') (name : Bytes) (values : List Bytes) :
    Step lib w r (w'.setField lib r'.fields name values) r'
      (put lib.lower fs' ⟨name, values, .header⟩) := by
  rw [h.fields]
  exact ⟨h.holds.setField _ _, h.dest, h.method, h.fields, h.keeps.trans (keeps_setField _ _ _ _),
    ⟨h.bodies.keep, h.bodies.same, h.bodies.foreign⟩⟩

theorem Step.refl {w : World} {r : Request} {fs : List (Field Bytes)}
    (h : Holds lib w r.fields fs) : Step lib w r w r fs :=
  ⟨h, rfl, rfl, rfl, Keeps.refl _ _, Bodies.refl _ _⟩

theorem hashedPayload_spec (v : Variant) {w : World} {r : Request} {fs : List (Field Bytes)}
    (h : Holds lib w r.fields fs) (p : Properties) :
    match bodyHash lib r.destination p (bodyOf w r) with
    | .error e => hashedPayload lib v w r p = (w, .error e)
    | .ok hash => ∃ w' r', hashedPayload lib v w r p = (w', .ok (r', hash)) ∧
        Step lib w r w' r' (if p.contentChecksum.getD false then
          put lib.lower fs ⟨asc "X-Amz-Content-SHA256", [hash], .header⟩ else fs) := by
  have := payloadHash_spec v h p
  unfold hashedPayload
  cases hb : bodyHash lib r.destination p (bodyOf w r) with
  | error e => rw [hb] at this; simp only at this; rw [this]
  | ok hash =>
    rw [hb] at this
    obtain ⟨w', r', h1, h2⟩ := this
    simp only [h1]
    refine ⟨_, _, rfl, ?_⟩
    by_cases hc : p.contentChecksum.getD false = true
    · rw [if_pos hc, if_pos hc]; exact h2.setField _ _
    · rw [if_neg hc, if_neg hc]; exact h2

theorem canonicalPayload_spec (v : Variant) {w : World} {r : Request} {fs : List (Field Bytes)}
    (h : Holds lib w r.fields fs) (p : Properties) :
    match payloadSpec lib v r.destination p fs (bodyOf w r) with
    | .error e => canonicalPayload lib v w r p = (w, .error e)
    | .ok (hash, fs') => ∃ w' r', canonicalPayload lib v w r p = (w', .ok (r', hash)) ∧
        Step lib w r w' r' fs' := by
  have hp := hashedPayload_spec v h p
  have key : ∀ (out : World × Except Error (Request × Bytes)),
      out = hashedPayload lib v w r p →
      match (match bodyHash lib r.destination p (bodyOf w r) with
        | .error e => Except.error e
        | .ok hash => .ok (hash, if p.contentChecksum.getD false then
          put lib.lower fs ⟨asc "X-Amz-Content-SHA256", [hash], .header⟩ else fs)) with
      | .error e => out = (w, .error e)
      | .ok (hash, fs') => ∃ w' r', out = (w', .ok (r', hash)) ∧ Step lib w r w' r' fs' := by
    rintro out rfl
    cases hb : bodyHash lib r.destination p (bodyOf w r) with
    | error e => rw [hb] at hp; exact hp
    | ok hash => rw [hb] at hp; exact hp
  unfold payloadSpec presetPayload canonicalPayload
  cases v with
  | sync => exact key _ rfl
  | async =>
    simp only [h.get]
    generalize hl : (lookup lib.lower fs (asc "X-Amz-Content-SHA256")).map Field.values = l
    generalize hc : (lookup lib.lower fs (asc "Content-Type")).map (fun f => asString f.values) = ct
    have ev : ∀ (out : World × Except Error (Request × Bytes)),
        out = (if ct = some eventStreamType then
          (w.setField lib r.fields (asc "X-Amz-Content-SHA256") [eventStreamHash],
            .ok (r, eventStreamHash))
          else hashedPayload lib .async w r p) →
        match (match (if ct = some eventStreamType then
            some (eventStreamHash,
              put lib.lower fs ⟨asc "X-Amz-Content-SHA256", [eventStreamHash], .header⟩)
            else none : Option (Bytes × List (Field Bytes))) with
          | some x => Except.ok x
          | none => match bodyHash lib r.destination p (bodyOf w r) with
            | .error e => Except.error e
            | .ok hash => .ok (hash, if p.contentChecksum.getD false then
              put lib.lower fs ⟨asc "X-Amz-Content-SHA256", [hash], .header⟩ else fs)) with
        | .error e => out = (w, .error e)
        | .ok (hash, fs') => ∃ w' r', out = (w', .ok (r', hash)) ∧ Step lib w r w' r' fs' := by
      rintro out rfl
      by_cases he : ct = some eventStreamType
      · rw [if_pos he, if_pos he]
        exact ⟨_, _, rfl, (Step.refl h).setField _ _⟩
      · rw [if_neg he, if_neg he]
        exact key _ rfl
    match l with
    | none => exact ev _ rfl
    | some [] => exact ev _ rfl
    | some [hash] => exact ⟨_, _, rfl, Step.refl h⟩
    | some (a :: b :: t) => exact ev _ rfl

/-! ## The whole -/

/-- The value of the authorization field for a list of fields. -/
def authValue (lib : Lib) (date : Bytes) (ident : Identity) (p : Properties) (dest : Destination)
    (method : Bytes) (fs : List (Field Bytes)) (hash : Bytes) : Bytes :=
  authorization (ident.accessKey ++ [ch '/'] ++ scope date p)
    ((signingFields lib dest fs).map Prod.fst)
    (signature lib ident.secretKey date p
      (stringToSign lib date p (canonicalText lib dest method fs p hash)))

/-- Nothing that was there has changed, except that the iterator of the request is consumed. -/
structure Untouched (w : World) (r : Request) (w' : World) : Prop where
  objs : ∀ (a : Nat) f, w.objs[a]? = some f → w'.objs[a]? = some f
  colls : ∀ (k : Nat) d, w.colls[k]? = some d → w'.colls[k]? = some d
  bodies : ∀ (b : Nat) body, w.bodies[b]? = some body →
    (r.body ≠ some b ∨ ∀ rest, body ≠ .iterator rest) → w'.bodies[b]? = some body

theorem untouched_of {w w' : World} {r : Request} (h : Keeps w.colls.length w w')
    (hb : ∀ (b : Nat) body, w.bodies[b]? = some body →
      (r.body ≠ some b ∨ ∀ rest, body ≠ .iterator rest) → w'.bodies[b]? = some body) :
    Untouched w r w' := by
  refine ⟨h.objs, fun k d hk => h.colls k d ?_ hk, hb⟩
  rintro rfl
  rw [List.getElem?_eq_none (Nat.le_refl _)] at hk
  cases hk

theorem sign_spec (v : Variant) (now : Bytes) {w : World} {r : Request} {fs : List (Field Bytes)}
    (h : Holds lib w r.fields fs) (ident : Identity) (p : Properties) (he : ident.expired = false) :
    match payloadSpec lib v r.destination p (required lib (p.date.getD now) ident fs) (bodyOf w r) with
    | .error e => ∃ w', sign lib v now w r ident p = (w', .error e) ∧ Untouched w r w'
    | .ok (hash, fs') => ∃ w' r', sign lib v now w r ident p = (w', .ok r') ∧ Untouched w r w' ∧
        r'.destination = r.destination ∧ r'.method = r.method ∧ r'.fields = w.colls.length ∧
        (bodyOf w' r').map Body.pending = (bodyOf w r).map Body.pending ∧
        (bodyOf w' r' = some .foreign ↔ bodyOf w r = some .foreign) ∧
        Holds lib w' r'.fields (put lib.lower fs' ⟨asc "Authorization",
          [authValue lib (p.date.getD now) ident p r.destination r.method fs' hash], .header⟩) := by
  have h1 := copy_holds h
  have k1 := copy_keeps w r
  have h2 := required_spec h1 (p.date.getD now) ident
  obtain ⟨k2, b2⟩ := required_keeps (lib := lib) (copyRequest w r).1 (copyRequest w r).2.fields
    (p.date.getD now) ident
  have h3 := canonicalPayload_spec v h2 p
  have hbody : bodyOf (applyRequired lib (copyRequest w r).1 (copyRequest w r).2.fields
      (p.date.getD now) ident) (copyRequest w r).2 = bodyOf w r := by
    simp only [bodyOf, b2]
    rfl
  have hbodies : (applyRequired lib (copyRequest w r).1 (copyRequest w r).2.fields
      (p.date.getD now) ident).bodies = w.bodies := b2
  rw [hbody] at h3
  have hd : (copyRequest w r).2.destination = r.destination := rfl
  have hf : (copyRequest w r).2.fields = w.colls.length := rfl
  rw [hd] at h3
  unfold sign
  simp only [he, Bool.false_eq_true, if_false, canonicalRequest]
  generalize hps : payloadSpec lib v r.destination p (required lib (p.date.getD now) ident fs)
    (bodyOf w r) = ps at h3 ⊢
  cases ps with
  | error e =>
    simp only at h3
    simp only [h3]
    refine ⟨_, rfl, untouched_of (k1.trans k2) ?_⟩
    intro b body hb _
    rw [hbodies]; exact hb
  | ok x =>
    obtain ⟨hash, fs'⟩ := x
    obtain ⟨w', r', e1, st⟩ := h3
    simp only [e1]
    have hfields : w'.fields r'.fields = fs' := by rw [st.fields]; exact st.holds.fields
    have hm : r'.method = r.method := st.method
    have hdest : r'.destination = r.destination := st.dest
    have hrf : r'.fields = w.colls.length := st.fields
    have hp2 : ∀ x, bodyOf (w'.setField lib r'.fields (asc "Authorization") x) r' = bodyOf w' r' :=
      fun _ => rfl
    refine ⟨_, _, rfl, untouched_of ?_ ?_, hdest, hm, hrf, ?_, ?_, ?_⟩
    · have := st.keeps
      rw [hf] at this
      have k3 := keeps_setField (lib := lib) w' r'.fields (asc "Authorization")
        [authValue lib (p.date.getD now) ident p r.destination r.method fs' hash]
      rw [hrf] at k3
      rw [hf] at k1 k2
      rw [hfields, hm, hdest, hrf]
      exact ((k1.trans k2).trans this).trans k3
    · intro b body hb hor
      exact st.bodies.keep b body (by rw [hbodies]; exact hb) hor
    · rw [hp2, st.bodies.same, hbody]
    · rw [hp2, st.bodies.foreign, hbody]
    · have := (st.holds.setField (asc "Authorization")
        [authValue lib (p.date.getD now) ident p r.destination r.method fs' hash])
      rw [hfields, hm, hdest, st.fields]
      exact this

theorem sign_expired (v : Variant) (now : Bytes) (w : World) (r : Request) (ident : Identity)
    (p : Properties) (he : ident.expired = true) :
    sign lib v now w r ident p = (w, .error .valueError) := by
  simp [sign, he]

/-! ## Lists of fields -/

theorem lookup_iff {lower : Bytes → Bytes} {fs : List (Field Bytes)} (hd : Distinct lower fs)
    (name : Bytes) (f : Field Bytes) :
    lookup lower fs name = some f ↔ f ∈ fs ∧ lower f.name = lower name := by
  induction fs with
  | nil => simp [lookup]
  | cons g fs ih =>
    rw [lookup_cons]
    obtain ⟨h1, h2⟩ := List.pairwise_cons.1 hd
    by_cases hs : lower g.name = lower name
    · rw [if_pos (by simpa [same] using hs)]
      constructor
      · intro e; cases e; exact ⟨by simp, hs⟩
      · rintro ⟨hm, he⟩
        rcases List.mem_cons.1 hm with rfl | hm
        · rfl
        · exact absurd (hs.trans he.symm) (h1 f hm)
    · rw [if_neg (by simpa [same] using hs), ih h2]
      constructor
      · rintro ⟨hm, he⟩; exact ⟨by simp [hm], he⟩
      · rintro ⟨hm, he⟩
        rcases List.mem_cons.1 hm with rfl | hm
        · exact absurd he hs
        · exact ⟨hm, he⟩

theorem lookup_none_iff {lower : Bytes → Bytes} {fs : List (Field Bytes)} (name : Bytes) :
    lookup lower fs name = none ↔ ∀ f ∈ fs, lower f.name ≠ lower name := by
  simp [lookup, same]

/-- A field as far as its casing does not matter. -/
def key (lib : Lib) (f : Field Bytes) : Bytes × List Bytes := (lib.lower f.name, f.values)

theorem lookup_key {fs : List (Field Bytes)} (hd : Distinct lib.lower fs) (name : Bytes)
    (vs : List Bytes) : (lookup lib.lower fs name).map Field.values = some vs ↔
      (lib.lower name, vs) ∈ fs.map (key lib) := by
  constructor
  · intro h
    obtain ⟨f, hf, rfl⟩ := Option.map_eq_some_iff.1 h
    obtain ⟨h1, h2⟩ := (lookup_iff hd _ _).1 hf
    exact List.mem_map.2 ⟨f, h1, by simp [key, h2]⟩
  · intro h
    obtain ⟨f, hf, e⟩ := List.mem_map.1 h
    obtain ⟨e1, rfl⟩ := Prod.mk.inj e
    rw [(lookup_iff hd name f).2 ⟨hf, e1⟩]
    rfl

theorem lookup_perm {fs gs : List (Field Bytes)} (hf : Distinct lib.lower fs)
    (hg : Distinct lib.lower gs) (h : (fs.map (key lib)).Perm (gs.map (key lib))) (name : Bytes) :
    (lookup lib.lower fs name).map Field.values = (lookup lib.lower gs name).map Field.values := by
  apply Option.ext
  intro vs
  rw [lookup_key hf, lookup_key hg]
  exact h.mem_iff

theorem put_distinct {fs : List (Field Bytes)} (hd : Distinct lib.lower fs) (f : Field Bytes) :
    Distinct lib.lower (put lib.lower fs f) := by
  unfold put
  by_cases h : (lookup lib.lower fs f.name).isSome = true
  · rw [if_pos h, Distinct, List.pairwise_map]
    refine hd.imp fun {a b} hab => ?_
    by_cases ha : lib.lower a.name = lib.lower f.name <;>
      by_cases hb : lib.lower b.name = lib.lower f.name
    · exact absurd (ha.trans hb.symm) hab
    · rw [if_pos (by simpa [same] using ha), if_neg (by simpa [same] using hb)]; exact Ne.symm hb
    · rw [if_neg (by simpa [same] using ha), if_pos (by simpa [same] using hb)]; exact ha
    · rw [if_neg (by simpa [same] using ha), if_neg (by simpa [same] using hb)]; exact hab
  · rw [if_neg h, Distinct, List.pairwise_append]
    have hn : lookup lib.lower fs f.name = none := by simpa using h
    refine ⟨hd, List.pairwise_singleton _ _, fun a ha b hb => ?_⟩
    rw [List.mem_singleton.1 hb]
    exact (lookup_none_iff _).1 hn a ha

theorem put_perm {fs : List (Field Bytes)} (hd : Distinct lib.lower fs) (f : Field Bytes) :
    (put lib.lower fs f).Perm (f :: fs.filter fun g => !same lib.lower g.name f.name) := by
  unfold put
  cases hl : lookup lib.lower fs f.name with
  | none =>
    have := (lookup_none_iff _).1 hl
    rw [if_neg (by simp), List.filter_eq_self.2 (fun g hg => by simpa [same] using this g hg)]
    exact List.perm_append_singleton f fs
  | some g =>
    rw [if_pos (by simp)]
    obtain ⟨hg, hn⟩ := (lookup_iff hd _ _).1 hl
    obtain ⟨a, b, rfl⟩ := List.append_of_mem hg
    obtain ⟨_, h2, h3⟩ := List.pairwise_append.1 hd
    have ha : ∀ x ∈ a, same lib.lower x.name f.name = false := fun x hx => by
      have := h3 x hx g (by simp)
      simp only [same, decide_eq_false_iff_not]
      rw [← hn]; exact this
    have hb : ∀ x ∈ b, same lib.lower x.name f.name = false := fun x hx => by
      have := (List.pairwise_cons.1 h2).1 x hx
      simp only [same, decide_eq_false_iff_not]
      rw [← hn]; exact Ne.symm this
    have hgs : same lib.lower g.name f.name = true := by simp [same, hn]
    rw [List.map_append, List.map_cons, map_none a f.name (fun _ => f) ha,
      map_none b f.name (fun _ => f) hb, if_pos hgs, List.filter_append, List.filter_cons_of_neg (by simp [hgs]),
      List.filter_eq_self.2 (fun x hx => by simp [ha x hx]),
      List.filter_eq_self.2 (fun x hx => by simp [hb x hx])]
    exact List.perm_middle

theorem mem_put {fs : List (Field Bytes)} (hd : Distinct lib.lower fs) (f g : Field Bytes) :
    g ∈ put lib.lower fs f ↔ g = f ∨ (g ∈ fs ∧ lib.lower g.name ≠ lib.lower f.name) := by
  rw [(put_perm hd f).mem_iff]
  simp [same]

theorem lookup_put {fs : List (Field Bytes)} (hd : Distinct lib.lower fs) (f : Field Bytes)
    (name : Bytes) : lookup lib.lower (put lib.lower fs f) name =
      if lib.lower f.name = lib.lower name then some f else lookup lib.lower fs name := by
  apply Option.ext
  intro g
  rw [lookup_iff (put_distinct hd f), mem_put hd]
  by_cases h : lib.lower f.name = lib.lower name
  · rw [if_pos h]
    constructor
    · rintro ⟨rfl | ⟨_, h2⟩, h3⟩
      · rfl
      · exact absurd (h3.trans h.symm) h2
    · intro e; cases e; exact ⟨Or.inl rfl, h⟩
  · rw [if_neg h, lookup_iff hd]
    constructor
    · rintro ⟨rfl | ⟨h1, _⟩, h3⟩
      · exact absurd h3 h
      · exact ⟨h1, h3⟩
    · rintro ⟨h1, h2⟩
      exact ⟨Or.inr ⟨h1, fun e => h (e.symm.trans h2)⟩, h2⟩

theorem put_same {fs : List (Field Bytes)} (hd : Distinct lib.lower fs) (f : Field Bytes)
    (h : lookup lib.lower fs f.name = some f) : put lib.lower fs f = fs := by
  unfold put
  rw [h, if_pos (by simp)]
  conv_rhs => rw [← List.map_id fs]
  apply List.map_congr_left
  intro g hg
  by_cases hs : lib.lower g.name = lib.lower f.name
  · rw [if_pos (by simpa [same] using hs)]
    have := (lookup_iff hd f.name g).2 ⟨hg, hs⟩
    rw [h] at this
    exact Option.some.inj this
  · rw [if_neg (by simpa [same] using hs)]
    rfl

/-- Fields of other names stay as they are, in their order. -/
theorem put_filter (fs : List (Field Bytes)) (f : Field Bytes) (keep : Bytes → Bool)
    (hf : keep (lib.lower f.name) = false) :
    (put lib.lower fs f).filter (fun g => keep (lib.lower g.name)) =
      fs.filter (fun g => keep (lib.lower g.name)) := by
  unfold put
  split
  · clear * - hf
    induction fs with
    | nil => rfl
    | cons g fs ih =>
      rw [List.map_cons]
      by_cases hs : lib.lower g.name = lib.lower f.name
      · rw [if_pos (by simpa [same] using hs), List.filter_cons_of_neg (by simp [hf]),
          List.filter_cons_of_neg (by simp [hs, hf]), ih]
      · rw [if_neg (by simpa [same] using hs), List.filter_cons, List.filter_cons, ih]
  · simp [hf]

theorem put_key_perm {fs gs : List (Field Bytes)} (hf : Distinct lib.lower fs)
    (hg : Distinct lib.lower gs) (h : (fs.map (key lib)).Perm (gs.map (key lib))) (f : Field Bytes) :
    ((put lib.lower fs f).map (key lib)).Perm ((put lib.lower gs f).map (key lib)) := by
  have step : ∀ l : List (Field Bytes),
      (l.filter fun g => !same lib.lower g.name f.name).map (key lib) =
        (l.map (key lib)).filter fun x => x.1 ≠ lib.lower f.name := by
    intro l
    rw [List.filter_map]
    congr 1
    apply List.filter_congr
    intro x _
    by_cases hx : lib.lower x.name = lib.lower f.name <;> simp [same, key, hx]
  have h1 := (put_perm hf f).map (key lib)
  have h2 := (put_perm hg f).map (key lib)
  rw [List.map_cons, step] at h1 h2
  exact h1.trans (((h.filter _).cons _).trans h2.symm)

end Verif.Signing
