import Verif.Model.Py
/-!
# Python dictionaries

A `dict` is an insertion-ordered list of key/value pairs with distinct keys.  `d[k] = v` keeps the
position of an existing key.
-/
namespace Acltk

/-- A Python `dict`, in iteration order. -/
abbrev Dict (α β : Type) := List (α × β)

/-- `d[k] = v` -/
def dSet {α β : Type} [DecidableEq α] : Dict α β → α → β → Dict α β
  | [], k, v => [(k, v)]
  | (k', v') :: t, k, v => if k' = k then (k, v) :: t else (k', v') :: dSet t k v

/-- `d.get(k)` -/
def dGet {α β : Type} [DecidableEq α] : Dict α β → α → Option β
  | [], _ => none
  | (k', v') :: t, k => if k' = k then some v' else dGet t k

/-- `d.values()` -/
def dVals {α β : Type} (d : Dict α β) : List β := d.map (·.2)

/-- `d.keys()` -/
def dKeys {α β : Type} (d : Dict α β) : List α := d.map (·.1)

variable {α β : Type} [DecidableEq α]

theorem dGet_dSet_same (d : Dict α β) (k : α) (v : β) : dGet (dSet d k v) k = some v := by
  induction d with
  | nil => simp [dSet, dGet]
  | cons p t ih =>
    obtain ⟨k', v'⟩ := p
    by_cases h : k' = k
    · simp [dSet, h, dGet]
    · simp [dSet, h, dGet, ih]

theorem dGet_dSet_other (d : Dict α β) {k k' : α} (v : β) (h : k' ≠ k) :
    dGet (dSet d k v) k' = dGet d k' := by
  induction d with
  | nil => simp [dSet, dGet, Ne.symm h]
  | cons p t ih =>
    obtain ⟨a, b⟩ := p
    by_cases ha : a = k
    · subst ha; simp [dSet, dGet, Ne.symm h]
    · simp [dSet, ha, dGet, ih]

theorem dGet_dSet (d : Dict α β) (k k' : α) (v : β) :
    dGet (dSet d k v) k' = if k' = k then some v else dGet d k' := by
  by_cases h : k' = k
  · subst h; simp [dGet_dSet_same]
  · simp [h, dGet_dSet_other d v h]

theorem dGet_isSome_iff (d : Dict α β) (k : α) : (dGet d k).isSome ↔ k ∈ dKeys d := by
  induction d with
  | nil => simp [dGet, dKeys]
  | cons p t ih =>
    obtain ⟨a, b⟩ := p
    by_cases h : a = k
    · simp [dGet, dKeys, h]
    · simp only [dGet, h, if_false, ih]
      simp [dKeys, Ne.symm h]

theorem dKeys_dSet (d : Dict α β) (k : α) (v : β) :
    dKeys (dSet d k v) = if k ∈ dKeys d then dKeys d else dKeys d ++ [k] := by
  induction d with
  | nil => simp [dSet, dKeys]
  | cons p t ih =>
    obtain ⟨a, b⟩ := p
    by_cases h : a = k
    · subst h; simp [dSet, dKeys]
    · simp only [dKeys, dSet, h, if_false, List.map_cons, List.mem_cons, Ne.symm h, false_or] at ih ⊢
      rw [ih]
      by_cases hm : k ∈ t.map (·.1) <;> simp [hm]

end Acltk
