import Verif.Model.RouteRow
/-!
# Specification for C124: what somebody who sees the row of a route takes it for
-/
namespace Acltk.Cells
open Acltk

/-- Where a route leads to. -/
inductive GatewayShown where
  | address (a : Addr)
  | interface (alias : String)

/-- `10.0.0.1`, or `Interface Gi1` -/
inductive ReadsGateway : List Char → GatewayShown → Prop
  | address {s a} : ipAddress s = .ok a → ReadsGateway s (.address a)
  | interface (n : String) : ReadsGateway ("Interface ".toList ++ n.toList) (.interface n)

/-- `10.0.0.0/8 via …`: a network in the notation of the module ipaddress, and the gateway. -/
structure ReadsRoute (s : List Char) (n : Net) (g : GatewayShown) : Prop where
  parts : ∃ t u, s = t ++ ' ' :: ("via ".toList ++ u) ∧ ' ' ∉ t ∧ '/' ∈ t ∧ ipNetwork t = .ok n ∧ ReadsGateway u g

/-- The gateway is what is shown. -/
inductive GatewayIs : IosText.Gateway → GatewayShown → Prop
  | address (a) : GatewayIs (.addr a) (.address a)
  | interface (i : Ifc.Intf) : GatewayIs (.iface i) (.interface i.alias)

end Acltk.Cells
