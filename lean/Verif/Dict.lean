/-!
# Python dictionaries as lists of pairs

Keys are in the order in which they were first assigned.
-/

set_option autoImplicit false

namespace Verif.Dict

section
variable {K V : Type} [DecidableEq K]

/-- `d[k] = v`. -/
def put : List (K × V) → K → V → List (K × V)
  | [], k, v => [(k, v)]
  | e :: d, k, v => if e.1 = k then (k, v) :: d else e :: put d k v

/-- `d.update(e)`. -/
def update (d e : List (K × V)) : List (K × V) := e.foldl (fun d x => put d x.1 x.2) d

end

variable {K V : Type} [BEq K] [LawfulBEq K] [DecidableEq K]

theorem lookup_cons (k k' : K) (v : V) (d : List (K × V)) :
    ((k', v) :: d).lookup k = if k = k' then some v else d.lookup k := by
  by_cases h : k = k'
  · simp [h]
  · have h1 : (k == k') = false := by simp [h]
    simp only [List.lookup_cons, h1, if_neg h]

theorem lookup_put (k k' : K) (v : V) : ∀ d : List (K × V),
    (put d k v).lookup k' = if k' = k then some v else d.lookup k'
  | [] => by simp only [put, lookup_cons]
  | (a, b) :: d => by
    simp only [put]
    by_cases he : a = k
    · rw [if_pos he, lookup_cons, lookup_cons, he]
      by_cases h : k' = k <;> simp [h]
    · rw [if_neg he, lookup_cons, lookup_cons, lookup_put k k' v d]
      by_cases h2 : k' = a
      · subst h2; simp [he]
      · simp [h2]

theorem put_put (k : K) (v w : V) : ∀ d : List (K × V), put (put d k v) k w = put d k w
  | [] => by simp [put]
  | e :: d => by
    simp only [put]
    by_cases h : e.1 = k
    · simp [h, put]
    · simp [h, put, put_put k v w d]

theorem put_self (k : K) (v : V) : ∀ d : List (K × V), d.lookup k = some v → put d k v = d
  | [], h => by simp at h
  | (a, b) :: d, h => by
    rw [lookup_cons] at h
    simp only [put]
    by_cases hk : k = a
    · rw [if_pos hk] at h
      cases h
      simp [hk]
    · rw [if_neg hk] at h
      rw [if_neg (Ne.symm hk), put_self k v d h]

/-- The last assignment wins. -/
theorem lookup_update (k : K) : ∀ (e d : List (K × V)),
    (update d e).lookup k = (e.reverse.lookup k).or (d.lookup k)
  | [], d => by simp [update]
  | (a, b) :: e, d => by
    have ih := lookup_update k e (put d a b)
    simp only [update, List.foldl_cons] at ih ⊢
    rw [ih, lookup_put, List.reverse_cons, List.lookup_append, lookup_cons]
    cases e.reverse.lookup k with
    | some v => rfl
    | none => by_cases h : k = a <;> simp [h]

/-- Keys of a dictionary differ. -/
def Keys (d : List (K × V)) : Prop := (d.map Prod.fst).Nodup

theorem mem_keys_put (k : K) (v : V) : ∀ (d : List (K × V)) (k' : K),
    k' ∈ (put d k v).map Prod.fst ↔ k' = k ∨ k' ∈ d.map Prod.fst
  | [], k' => by simp [put]
  | e :: d, k' => by
    simp only [put]
    by_cases h : e.1 = k
    · simp [h]
    · rw [if_neg h, List.map_cons, List.mem_cons, mem_keys_put k v d k', List.map_cons, List.mem_cons]
      constructor
      · rintro (h | h | h) <;> simp [h]
      · rintro (h | h | h) <;> simp [h]

theorem keys_put (k : K) (v : V) : ∀ d : List (K × V), Keys d → Keys (put d k v)
  | [], _ => by simp [put, Keys]
  | e :: d, h => by
    simp only [Keys, List.map_cons, List.nodup_cons] at h
    simp only [put]
    by_cases he : e.1 = k
    · rw [if_pos he]
      simp only [Keys, List.map_cons, List.nodup_cons]
      exact ⟨by rw [← he]; exact h.1, h.2⟩
    · rw [if_neg he]
      simp only [Keys, List.map_cons, List.nodup_cons]
      refine ⟨fun hm => ?_, keys_put k v d h.2⟩
      rcases (mem_keys_put k v d e.1).1 hm with hm | hm
      · exact he hm
      · exact h.1 hm

theorem keys_update : ∀ (e d : List (K × V)), Keys d → Keys (update d e)
  | [], _, h => h
  | (a, b) :: e, d, h => keys_update e (put d a b) (keys_put a b d h)

theorem lookup_eq_none (k : K) : ∀ d : List (K × V), d.lookup k = none ↔ k ∉ d.map Prod.fst
  | [] => by simp
  | (a, b) :: d => by
    rw [lookup_cons, List.map_cons, List.mem_cons]
    by_cases h : k = a
    · simp [h]
    · rw [if_neg h, lookup_eq_none k d]; simp [h]

/-- With distinct keys it does not matter from which end one looks. -/
theorem lookup_reverse (k : K) : ∀ d : List (K × V), Keys d → d.reverse.lookup k = d.lookup k
  | [], _ => rfl
  | (a, b) :: d, h => by
    simp only [Keys, List.map_cons, List.nodup_cons] at h
    rw [List.reverse_cons, List.lookup_append, lookup_reverse k d h.2, lookup_cons, lookup_cons]
    by_cases hk : k = a
    · subst hk
      rw [(lookup_eq_none k d).2 h.1]; simp
    · simp [hk]

end Verif.Dict
