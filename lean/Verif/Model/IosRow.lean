import Verif.Model.Row
import Verif.Model.IosText
/-!
# The row of an IOS rule

The same table (static.jinja2:846-864) for the rules the IOS parser builds; their options are texts or None.
-/
namespace Acltk.Cells
open Acltk Acltk.AclText

/-- The fields of an IOS rule the columns but the last one show (static.jinja2:853-862); both parsers make an `ACLRule`. -/
def asRule (r : IosText.IRule) : PRule :=
  { id := r.id, extended := r.extended.getD "", mode := r.mode, protocol := r.protocol, src := r.src, dst := r.dst, icmp := r.icmp }

/-- The macro `options` for texts and None (static.jinja2:79-104, `{{ k }}:{{ i }} &nbsp;`); the space behind is left out.  `sort` of jinja compares without case; the keys are in lower case. -/
def iosOptionCells (d : Dict String (Option String)) : List Cell :=
  ((dKeys d).mergeSort (fun a b => decide (a ≤ b))).map (fun k => .text (k.toList ++ ':' :: printed ((dGet d k).getD none)))

/-- The row of a rule (static.jinja2:852-864). -/
def iosRow (nm : Nat → String) (s t : Option String) (r : IosText.IRule) : RowCells :=
  { row nm s t (asRule r) with options := iosOptionCells r.options }

end Acltk.Cells
