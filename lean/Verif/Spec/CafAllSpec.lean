import Verif.Spec.CafSpec
/-!
# Specification: filters of every accepted shape
-/
namespace Acltk.Caf
open Acltk

mutual
/-- The ids written in a filter. -/
def chainIds : Chain → List (Option String)
  | .one s => setIds s
  | .more s _ c => setIds s ++ chainIds c
def setIds : SetSyn → List (Option String)
  | .mk id objs => id :: itemsIds objs
def itemsIds : Items → List (Option String)
  | .nil => []
  | .comment r => itemsIds r
  | .ip _ _ r => itemsIds r
  | .paren c r => chainIds c ++ itemsIds r
end

/-- A NAT entry has both sides (a rule always has). -/
def BothSides : Entry → Prop
  | .rule _ => True
  | .nat n => n.real.isSome ∧ n.mapped.isSome

/-- The id of an entry is no pattern with degenerate brackets. -/
def SaneEntry : Entry → Prop
  | .rule r => SaneId r.id
  | .nat _ => True

end Acltk.Caf
