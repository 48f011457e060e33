import Verif.Model.Cells
/-!
# Specification for C115: what somebody who sees a cell of a page takes it for
-/
namespace Acltk.Cells
open Acltk

/-- What a cell can show. -/
inductive Shown where
  | address (a : Addr)
  | network (n : Net)
  | wildcard (address wildcard : Addr)
  | any
  | any4
  | any6
  | group (name : String)
  | object (name : String)
  | interface (name : String)

/-- The text of a cell, with or without a link to a name. -/
inductive Written : Cell → List Char → Prop
  | plain (s) : Written (.text s) s
  | name (t : String) (s) : Written (.link ("name_alias_" ++ t) s) s

/-- What a cell of a host is read as: an address as a user would type it, a network as a user would type it (with a slash), one of the three words, a wildcard behind the word `VERIFY`, or a link to
the section of groups, objects or interfaces. -/
inductive Reads : Cell → Shown → Prop
  | address {c s a} : Written c s → ipAddress s = .ok a → Reads c (.address a)
  | network {c s n} : Written c s → '/' ∈ s → ' ' ∉ s → ipNetwork s = .ok n → Reads c (.network n)
  | wildcard {s t a w} : '/' ∉ s → '/' ∉ t → ipAddress s = .ok a → ipAddress t = .ok w → Reads (.text ("VERIFY ".toList ++ s ++ '/' :: t)) (.wildcard a w)
  | any : Reads (.text "any".toList) .any
  | any4 : Reads (.text "any4".toList) .any4
  | any6 : Reads (.text "any6".toList) .any6
  | group (n : String) : Reads (.link ("network_group_" ++ n) n.toList) (.group n)
  | object (n : String) : Reads (.link ("network_object_" ++ n) n.toList) (.object n)
  | interface (n : String) : Reads (.link ("interface_" ++ n) n.toList) (.interface n)

/-- A host of a configuration is what is shown. -/
inductive Is : Host → Shown → Prop
  | address (a) : Is (.host a) (.address a)
  | network (n) : Is (.net n) (.network n)
  | wildcard (a w : Nat) : Is (.wild a w) (.wildcard ⟨.v4, a⟩ ⟨.v4, w⟩)
  | any : Is .any .any
  | any4 : Is .any4 .any4
  | any6 : Is .any6 .any6
  | group (n l) : Is (.group n l) (.group n)
  | object (n l) : Is (.obj n l) (.object n)
  | interface (n) : Is (.iface n) (.interface n)

/-- The host has a cell in the section of groups or objects where `h` is listed, or where `h` stands. -/
inductive InCell : Host → Host → Prop
  | self (h) : InCell h h
  | member (n l h) : h ∈ l → InCell (.group n l) h
  | address (n l h) : h ∈ l → InCell (.obj n l) h

/-- What a cell of a port can be read as: nothing, an operator with a number or service, or a range. -/
inductive ReadsPort : Cell → Option PortLeaf → Prop
  | nothing : ReadsPort (.text []) none
  | single (op num : String) : ' ' ∉ op.toList → ReadsPort (.text (op.toList ++ ' ' :: num.toList)) (some (.port ⟨some op, some num⟩))
  | range (a b : String) : ' ' ∉ a.toList → ' ' ∉ b.toList → ReadsPort (.text (a.toList ++ '-' :: b.toList)) (some (.range a b))

end Acltk.Cells
