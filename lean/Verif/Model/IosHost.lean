import Verif.Model.Mask
import Verif.Model.Host
/-!
# IOS hosts (iosSemantics.py)
-/
namespace Acltk

/-- `NetworkWildcard.__init__`, aclObjects.py:433-435 on two address objects (`ip_address` of the
text of an address).  The integers are kept; the version of both is IPv4 for every caller
(iosSemantics.py:26 via `ip4`, ip.bnf:1). -/
def mkWildcard (a w : Addr) : Py Host :=
  match ipAddress a.text with
  | .error e => .error e
  | .ok a' =>
    match ipAddress w.text with
    | .error e => .error e
    | .ok w' => .ok (.wild a'.ip w'.ip)

/-- `iosSemantics.ios_host` with `type == "wildcard"`, iosSemantics.py:21-26: `Network(address,
wildcard)`, and `NetworkWildcard(address, wildcard)` if that raises anything.  The arguments are
address objects (`ip4`, aclSemantics.py:196-197). -/
def iosWildcardHost (a w : Addr) : Py Host :=
  match mkNetwork a.text w.text with
  | .ok n => .ok (.net n)
  | .error _ => mkWildcard a w

/-- `NetworkHost.__init__`, aclObjects.py:566-571. -/
def mkHost (a : Addr) : Py Host :=
  match ipAddress a.text with
  | .error e => .error e
  | .ok x => .ok (.host x)

/-- `iosSemantics.ios_ipv6_host`, iosSemantics.py:39-45: `address/prefix`, `any`, or a host.  The
prefix is a text of digits, non-empty if present (`int`, acl.bnf:7), hence truthy. -/
def iosIpv6Host (address : Option Addr) (pfx : Option (List Char)) : Py Host :=
  match address with
  | none => .ok .any
  | some a =>
    match pfx with
    | some p =>
      match mkNetwork a.text p with
      | .ok n => .ok (.net n)
      | .error e => .error e
    | none => mkHost a

end Acltk
