import Verif.Spec.HostSpec
/-!
# The leaves of a host in the order they are written
-/
namespace Acltk

mutual
/-- What a host consists of, in the order of the configuration: the members of groups and network objects, at any depth. -/
def Host.leaves : Host → List Host
  | .obj _ l => Host.leavesList l
  | .group _ l => Host.leavesList l
  | h => [h]
/-- The leaves of the members, one member after the other. -/
def Host.leavesList : List Host → List Host
  | [] => []
  | h :: t => h.leaves ++ Host.leavesList t
end

end Acltk
