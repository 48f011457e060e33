import Verif.Spec.AclTextSpec
/-!
# The rule lines of a configuration

Independent of the parser: which lines of a text are access-list rule lines, in order.
-/
namespace Acltk.FwsmText
open Acltk Acltk.AclText

/-- The line begins with `access-list ID KIND ACTION` followed by a blank. -/
def Header (l : List Char) (i k m : String) : Prop :=
  IdWord i ∧ k ∈ ["extended", "standard", "webtype"] ∧ m ∈ ["permit", "deny"] ∧
    ∃ hd b u, Spaced ["access-list", i, k, m] hd ∧ (b = ' ' ∨ b = '\t') ∧ l = hd ++ (b :: u)

/-- The line begins with `access-list ID remark` or `access-list ID ethertype`. -/
def Aside (l : List Char) : Prop :=
  ∃ i w hd u, IdWord i ∧ w ∈ ["remark", "ethertype"] ∧ Spaced ["access-list", i, w] hd ∧ l = hd ++ u

/-- The line is no access-list line, or a remark or an ethertype line. -/
def Other (l : List Char) : Prop := ¬ "access-list".toList <+: l ∨ Aside l

/-- The list (name, kind, action) of the rule lines of a text, in order. -/
inductive RuleLines : List Char → List (String × String × String) → Prop
  /-- what stands behind the last line end -/
  | last (l) : '\n' ∉ l → (∀ i k m, ¬ Header l i k m) → RuleLines l []
  | lastRule (l i k m) : '\n' ∉ l → Header l i k m → RuleLines l [(i, k, m)]
  | rule (l t i k m hs) : '\n' ∉ l → Header l i k m → RuleLines t hs → RuleLines (l ++ '\n' :: t) ((i, k, m) :: hs)
  | other (l t hs) : '\n' ∉ l → (∀ i k m, ¬ Header l i k m) → RuleLines t hs → RuleLines (l ++ '\n' :: t) hs

/-- The same, where a rule line behind blanks may be listed or not, and every other line is no access-list line, or a
remark or an ethertype line. -/
inductive RuleLinesIndented : List Char → List (String × String × String) → Prop
  | last (l) : '\n' ∉ l → Other l → RuleLinesIndented l []
  | rule (l t i k m hs) : '\n' ∉ l → Header l i k m → RuleLinesIndented t hs →
      RuleLinesIndented (l ++ '\n' :: t) ((i, k, m) :: hs)
  | indented (b l t i k m hs) : (b ≠ [] ∧ ∀ c ∈ b, c = ' ') → '\n' ∉ l → Header l i k m → RuleLinesIndented t hs →
      RuleLinesIndented (b ++ l ++ '\n' :: t) ((i, k, m) :: hs)
  | other (l t hs) : '\n' ∉ l → Other l → RuleLinesIndented t hs →
      RuleLinesIndented (l ++ '\n' :: t) hs

end Acltk.FwsmText
