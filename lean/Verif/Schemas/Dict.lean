import Mathlib.Tactic.Common
import Verif.Common

/-!
# Python dicts

A `dict` as the list of its entries in order of insertion.
-/

set_option autoImplicit false

namespace Verif.Schemas

variable {K V : Type} [DecidableEq K]

/-- A dict. -/
abbrev Dict (K V : Type) := List (K × V)

/-- `d.get(k)`. -/
def Dict.get (d : Dict K V) (k : K) : Option V := (d.find? fun e => e.1 = k).map Prod.snd

/-- `d[k] = v`: an existing key keeps its place. -/
def Dict.set (d : Dict K V) (k : K) (v : V) : Dict K V :=
  if d.any (fun e => e.1 = k) then d.map fun e => if e.1 = k then (k, v) else e else d ++ [(k, v)]

/-- `del d[k]`, of a dict that has the key. -/
def Dict.del (d : Dict K V) (k : K) : Dict K V := d.filter fun e => e.1 ≠ k

/-- `d.update(items)`, and `{k: v for ...}` from the empty dict. -/
def Dict.update (d : Dict K V) (items : List (K × V)) : Dict K V :=
  items.foldl (fun d e => d.set e.1 e.2) d

theorem get_any (d : Dict K V) (k : K) : (d.get k).isSome = d.any fun e => e.1 = k := by
  induction d with
  | nil => rfl
  | cons e d ih =>
    simp only [Dict.get, List.find?_cons, List.any_cons] at ih ⊢
    by_cases h : e.1 = k <;> simp_all

theorem get_set (d : Dict K V) (k : K) (v : V) (j : K) :
    (d.set k v).get j = if j = k then some v else d.get j := by
  unfold Dict.set
  split
  · rename_i hany
    induction d with
    | nil => simp at hany
    | cons e d ih =>
      simp only [Dict.get, List.map_cons, List.find?_cons] at ih ⊢
      by_cases he : e.1 = k
      · simp only [he, if_true]
        by_cases hj : j = k
        · simp [hj]
        · have hk : ¬k = j := fun h => hj h.symm
          simp only [hj, hk, decide_false, if_false]
          by_cases hd : d.any (fun e => e.1 = k) = true
          · rw [ih hd, if_neg hj]
          · congr 1
            have : ∀ x ∈ d, x.1 ≠ k := by
              intro x hx hxk
              exact hd (List.any_eq_true.2 ⟨x, hx, by simp [hxk]⟩)
            clear ih hany hd
            induction d with
            | nil => rfl
            | cons y d ih2 =>
              rw [List.map_cons, if_neg (this y (by simp)), List.find?_cons, List.find?_cons,
                ih2 fun x hx => this x (by simp [hx])]
      · have hd : d.any (fun e => e.1 = k) = true := by simpa [he] using hany
        simp only [he, if_false]
        by_cases hej : e.1 = j
        · have : ¬j = k := fun h => he (hej.trans h)
          simp [hej, this]
        · simp only [hej, decide_false]
          exact ih hd
  · rename_i hany
    have hno : d.get k = none := by
      have := get_any d k
      rw [Bool.eq_false_iff.2 hany] at this
      simpa using this
    simp only [Dict.get, List.find?_append, Option.map_or] at hno ⊢
    by_cases hj : j = k
    · subst hj
      rw [if_pos rfl]
      simp only [Option.map_eq_none_iff] at hno
      simp [hno]
    · have hk : ¬k = j := fun h => hj h.symm
      simp [hj, hk]

theorem keys_set (d : Dict K V) (k : K) (v : V) :
    (d.set k v).map Prod.fst = if d.any (fun e => e.1 = k) then d.map Prod.fst
      else d.map Prod.fst ++ [k] := by
  unfold Dict.set
  split
  · rw [List.map_map]
    apply List.map_congr_left
    intro e _
    simp only [Function.comp]
    split
    · rename_i h; exact h.symm
    · rfl
  · simp

/-- What is found after an update: the last of the new values, or the old one. -/
theorem get_update (items : List (K × V)) (d : Dict K V) (k : K) :
    (d.update items).get k = ((items.reverse.find? fun e => e.1 = k).map Prod.snd).or (d.get k) := by
  induction items generalizing d with
  | nil => simp [Dict.update]
  | cons e items ih =>
    rw [show d.update (e :: items) = (d.set e.1 e.2).update items from rfl, ih, get_set,
      List.reverse_cons, List.find?_append]
    cases items.reverse.find? fun e => e.1 = k with
    | some x => simp
    | none =>
      by_cases h : k = e.1
      · simp [h]
      · have h' : ¬e.1 = k := fun x => h x.symm
        simp [h, h']

end Verif.Schemas
