import Verif.Model.NetSection
import Verif.Spec.SectionSpec
/-!
# Specification for C121: what somebody who sees the section of a name, a network object or a network group takes it for
-/
namespace Acltk.Cells
open Acltk Acltk.FwsmText

inductive NetKind where
  | alias
  | object
  | group
  deriving DecidableEq

/-- What the links to a section start with (`hostCell`). -/
def NetKind.prefix : NetKind → String
  | .alias => "name_alias_"
  | .object => "network_object_"
  | .group => "network_group_"

/-- What a section says; no description is an empty one. -/
structure NetSecShown where
  kind : NetKind
  name : String
  hosts : List Shown
  description : List Char

/-- The anchor tells the kind, the heading the name, and each cell a host. -/
structure ReadsNet (s : NetSection) (x : NetSecShown) : Prop where
  anchor : s.anchor = x.kind.prefix ++ x.name
  heading : s.heading = x.name.toList
  hosts : Each Reads s.cells x.hosts
  description : s.description = x.description

/-- The definition is what is shown: the same kind, name, hosts in the same order, and description. -/
inductive NetSecIs : Item → NetSecShown → Prop
  | alias (n a d) : NetSecIs (.name n a d) ⟨.alias, n, [.address a], d.getD []⟩
  | object {n l nat d xs} : Each Is l xs → NetSecIs (.netObj n l nat d) ⟨.object, n, xs, d.getD []⟩
  | group {n l d xs} : Each Is l xs → NetSecIs (.netGroup n l d) ⟨.group, n, xs, d.getD []⟩

/-- The definitions with a section here. -/
inductive NetSectioned : Item → Prop
  | alias (n a d) : NetSectioned (.name n a d)
  | object (n l nat d) : NetSectioned (.netObj n l nat d)
  | group (n l d) : NetSectioned (.netGroup n l d)

end Acltk.Cells
