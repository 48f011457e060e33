import Verif.Model.IosText
import Verif.Model.Cells
/-!
# The row of a route

The rows of routes in the section of an interface (examples/render/tpl/static.jinja2:287-299).  Which routes an interface has is in `Acltk.Config`; the order of the rows of routes to the same network is not modelled (`obj.routes` is a set).
-/
namespace Acltk.Cells
open Acltk

/-- `{{ route.gw }}`: an address, or `repr` of an interface (aclObjects.py:99-100). -/
def gatewayText : IosText.Gateway → List Char
  | .addr a => a.text
  | .iface i => "Interface ".toList ++ i.alias.toList

/-- `{{ route.network }} via {{ route.gw }}` (static.jinja2:296) -/
def routeText (r : IosText.Route) : List Char := netText r.net ++ ' ' :: ("via ".toList ++ gatewayText r.gw)

end Acltk.Cells
