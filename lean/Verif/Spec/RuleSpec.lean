import Verif.Model.Rule
import Verif.Spec.HostSpec
import Verif.Spec.Glob
/-!
# Specification of rule matching
-/
namespace Acltk

/-- An id that counts as present. -/
def Present (a : Option String) : Prop := ∃ s, a = some s ∧ s ≠ ""

/-- `s` is `/body/` with a non-empty body. -/
def IsPattern (s body : String) : Prop := s = "/" ++ body ++ "/" ∧ body ≠ ""

/-- Both ids present, and the ids decide (the pair is not trivially compatible):
* the left one is a pattern and matches the right one, or
* the left one is not made of slashes only, the right one is a pattern and the left one not,
  and the right one matches the left one, or
* no pattern applies and they are equal. -/
inductive IdOk : String → String → Prop
  | left {a b body} : IsPattern a body → Glob.Matches body.toList b.toList → IdOk a b
  | right {a b body} : (∀ x, ¬ IsPattern a x) → a ≠ "/" → a ≠ "//" → IsPattern b body →
      Glob.Matches body.toList a.toList → IdOk a b
  | equal {a b} : (∀ x, ¬ IsPattern a x) → (a ≠ "/" → a ≠ "//" → ∀ x, ¬ IsPattern b x) → a = b →
      IdOk a b

/-- Ids are compatible: one of them is missing or empty, or `IdOk`. -/
def IdsCompatible (a b : Option String) : Prop :=
  ¬ Present a ∨ ¬ Present b ∨ ∃ x y, a = some x ∧ b = some y ∧ IdOk x y

/-- The patterns among two ids use no degenerate bracket (see C09). -/
def SaneId (a : Option String) : Prop := ∀ s body, a = some s → IsPattern s body → Glob.Sane body.toList

/-- A rule side as it occurs in a configuration. -/
def OrdinaryRule (r : Rule) : Prop := Ordinary r.src.host ∧ Ordinary r.dst.host

end Acltk
