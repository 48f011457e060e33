import Verif.Model.Iface
/-!
# The lines of an ASA/FWSM interface block (fwsm.bnf:31-38, acl.bnf:27-29)

A line is given by its words.  The recognisers of the tokens `ip4`, `ip6`, `int` and `identifier` are
parameters: for every word, whether the token matches the whole word.
-/
namespace Acltk.Ifc
open Acltk

/-- The token recognisers. -/
structure Tokens where
  ip4 : String → Bool
  ip6 : String → Bool
  int : String → Bool
  ident : String → Bool

/-- `interface_detail` of fwsm.bnf:31-38: the first alternative that matches the whole line.  The last
two take any line (a line with the word `no` in front, or not) as a detail without type.  The
description is the rest of the line; here blanks between its words are single. -/
def fwsmLine (t : Tokens) : List String → Line
  | "description" :: w :: ws => .description (" ".intercalate (w :: ws))
  | ["nameif", n] => if t.ident n then .nameif n else .ignored
  | ["ip", "address", a, m, "standby", s] =>
    if t.ip4 a && t.ip4 m && t.ip4 s then .ip a m else .ignored
  | ["ipv6", "address", ap, "standby", s] =>
    match splitOn '/' ap.toList with
    | [a, p] =>
      if t.ip6 (String.ofList a) && t.int (String.ofList p) && t.ip6 s then
        .ipv6 (String.ofList a) (some (String.ofList p))
      else .ignored
    | _ => .ignored
  | _ => .ignored

/-- An interface block (acl.bnf:27-29, aclSemantics.py:65-71). -/
def fwsmInterface (t : Tokens) (alias : String) (lines : List (List String)) : Py Intf :=
  interfaceOf alias (lines.map (fwsmLine t))

end Acltk.Ifc
