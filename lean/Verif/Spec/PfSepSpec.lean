import Verif.Spec.PfsenseSpec
/-!
# Specification: pfSense separators
-/
namespace Acltk.Pf
open Acltk

/-- How many of the rules directly before rule `j` belong to the same list as rule `j`. -/
def runIndex (ids : List (Option String)) (j : Nat) : Nat :=
  ((ids.take j).reverse.takeWhile (fun x => some x == ids[j]?)).length

/-- The captions for a row of a list, in document order. -/
def captionsAt (l : List (Option String × Int × Caption)) (id : Option String) (row : Nat) : List Caption :=
  (l.filter (fun x => x.1 == id && x.2.1 == (row : Int))).map (fun x => x.2.2)

/-- What a separator element says: interface, row and caption. -/
inductive SepMeans {T : Type} (v : Env T) (t : Tables) (e : Elem) : Option String × Int × Caption → Prop
  | mk (n row : Int) (ci cr cc ct : Elem) (r s : String) : pyInt (e.tag.toList.drop 3) = some n →
      lastChild e "if" = some ci → lastChild e "row" = some cr → lastChild e "color" = some cc →
      lastChild e "text" = some ct → cr.text = some r → pyInt (r.toList.drop 2) = some row →
      ct.text = some s →
      SepMeans v t e
        (if ci.text = some "floatingrules" then some "floating" else ci.text.map t.mapped,
          row, ⟨v.unesc s, cc.text⟩)

/-- The head a list of separator elements gives to the rule in row `row` of list `id`: the captions of
the last element that has some for it. -/
def headOf {T : Type} (v : Env T) (t : Tables) (seps : List Elem) (id : Option String) (row : Nat) :
    Option (List Caption) :=
  (seps.filterMap (fun e =>
    match mapPy (parseSep v t) (e.children.flatMap Elem.children) with
    | .error _ => none
    | .ok l => if captionsAt l id row = [] then none else some (captionsAt l id row))).getLast?

end Acltk.Pf
