import Verif.Model.Iface
import Verif.Spec.NetSpec
/-!
# Specification for C45 and C56: reading an interface block line by line
-/
namespace Acltk.Ifc
open Acltk

/-- The trunk commands of a block, in order. -/
def trunkOf : Line → Option Switch
  | .switch (.trunkSet l) => some (.trunkSet l)
  | .switch (.trunkAdd l) => some (.trunkAdd l)
  | _ => none

/-- The VLANs of the `add` commands. -/
def addedOf : Switch → List Vlan
  | .trunkAdd l => l
  | _ => []

/-- No command is a plain `allowed vlan` list. -/
def AllAdds (l : List Switch) : Prop := ∀ c ∈ l, ∃ v, c = .trunkAdd v

/-- The trunk list of an interface; None when there is no switchport command or no list. -/
def Intf.trunk (i : Intf) : Option (List Vlan) := i.switchport.bind (·.trunk)

/-- The switchport mode commands. -/
def modeOf : Line → Option String
  | .switch (.mode m) => some m
  | _ => none

/-- The address lines: address text and mask text; an IPv6 address without prefix length is a host. -/
def addressOf : Line → Option (String × String)
  | .ip a m => some (a, m)
  | .ipv6 a none => some (a, "128")
  | .ipv6 a (some p) => some (a, p)
  | _ => none

/-- The access group lines: key, name and direction. -/
def groupOf : Line → Option (String × (String × String))
  | .ipAccessGroup n d => some ("ip-" ++ d, (n, d))
  | .ipv6Filter n d => some ("ipv6-" ++ d, (n, d))
  | _ => none

def nameifOf : Line → Option String
  | .nameif v => some v
  | _ => none

def descriptionOf : Line → Option String
  | .description v => some v
  | _ => none

end Acltk.Ifc
