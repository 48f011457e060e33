/-!
# Python exceptions as values

The subset of Python exceptions that the modelled code can raise.
-/
namespace Acltk

/-- The exception classes that occur in the modelled code. -/
inductive PyErr where
  | recursion   -- RecursionError: the frame budget is used up
  | assertion   -- AssertionError
  | value       -- ValueError (and its subclasses AddressValueError, NetmaskValueError)
  | type        -- TypeError
  | key         -- KeyError
  | attribute   -- AttributeError
  | index       -- IndexError
  deriving DecidableEq, Repr

/-- The outcome of a Python call: a value or an exception. -/
abbrev Py (α : Type) := Except PyErr α

instance {α : Type} [DecidableEq α] : DecidableEq (Py α) := fun a b =>
  match a, b with
  | .ok x, .ok y => if h : x = y then isTrue (by rw [h]) else isFalse (by simpa using h)
  | .error x, .error y => if h : x = y then isTrue (by rw [h]) else isFalse (by simpa using h)
  | .ok _, .error _ => isFalse (by simp)
  | .error _, .ok _ => isFalse (by simp)

/-- `for i in l: if f(i): return True` followed by `return False`; an exception in the
body propagates.  (Shape of aclObjects.py:376-380, 669-673, cafObjects.py:133-136.) -/
def loopAny {α : Type} (f : α → Py Bool) : List α → Py Bool
  | [] => .ok false
  | x :: xs =>
    match f x with
    | .error e => .error e
    | .ok true => .ok true
    | .ok false => loopAny f xs

theorem loopAny_ok {α : Type} (f : α → Py Bool) (g : α → Bool) (l : List α)
    (h : ∀ x ∈ l, f x = .ok (g x)) : loopAny f l = .ok (l.any g) := by
  induction l with
  | nil => rfl
  | cons x xs ih =>
    have hx := h x (by simp)
    have hxs := ih (fun y hy => h y (by simp [hy]))
    unfold loopAny
    rw [hx]
    cases hg : g x <;> simp [hg, hxs]

theorem loopAny_congr {α : Type} (f g : α → Py Bool) (l : List α)
    (h : ∀ x ∈ l, f x = g x) : loopAny f l = loopAny g l := by
  induction l with
  | nil => rfl
  | cons x xs ih =>
    have hx := h x (by simp)
    have hxs := ih (fun y hy => h y (by simp [hy]))
    unfold loopAny
    rw [hx, hxs]

theorem loopAny_append {α : Type} (f : α → Py Bool) (l₁ l₂ : List α) :
    loopAny f (l₁ ++ l₂) =
      match loopAny f l₁ with
      | .error e => .error e
      | .ok true => .ok true
      | .ok false => loopAny f l₂ := by
  induction l₁ with
  | nil => rfl
  | cons x xs ih =>
    simp only [List.cons_append, loopAny]
    cases hfx : f x with
    | error e => rfl
    | ok b => cases b <;> simp [ih]

end Acltk
