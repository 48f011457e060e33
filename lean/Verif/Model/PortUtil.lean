import Verif.Model.Port
/-!
# `PortUtil`: the table of service names

The multi-line string `PortUtil._servnames` (aclObjects.py:761-847) is copied line by line; splitting
the text into these lines (`split("\n")`) is not modelled.
-/
namespace Acltk

open Lean in
/-- `chars! "abc"` is the list of characters `['a', 'b', 'c']` (quicker for the kernel than decoding
a string literal). -/
macro "chars!" s:str : term => do
  let cs := s.getString.toList.map (fun c => Syntax.mkCharLit c)
  `([$(cs.toArray),*])

/-- The lines of `PortUtil._servnames`, aclObjects.py:761-847, verbatim. -/
def servnames : List (List Char) := [
  chars! "",
  chars! "\taol\t\t\t|\tTCP      \t|\t5190 \t|\tAmerica Online",
  chars! "\tbgp\t\t\t|\tTCP      \t|\t179  \t|\tBorder Gateway Protocol, RFC 1163",
  chars! "\tbiff\t\t\t|\tUDP      \t|\t512  \t|\tUsed by mail system to notify users that new mail is received",
  chars! "\tbootpc\t\t\t|\tUDP      \t|\t68   \t|\tBootstrap Protocol Client",
  chars! "\tbootps\t\t\t|\tUDP      \t|\t67   \t|\tBootstrap Protocol Server",
  chars! "\tchargen\t\t\t|\tTCP      \t|\t19   \t|\tCharacter Generator",
  chars! "\tcitrix-ica\t\t|\tTCP      \t|\t1494 \t|\tCitrix Independent Computing Architecture (ICA) protocol",
  chars! "\tcmd\t\t\t|\tTCP      \t|\t514  \t|\tSimilar to exec except that cmd has automatic authentication",
  chars! "\tctiqbe\t\t\t|\tTCP      \t|\t2748 \t|\tComputer Telephony Interface Quick Buffer Encoding",
  chars! "\tdaytime\t\t\t|\tTCP      \t|\t13   \t|\tDay time, RFC 867",
  chars! "\tdiscard\t\t\t|\tTCP,UDP  \t|\t9    \t|\tDiscard",
  chars! "\tdomain\t\t\t|\tTCP,UDP  \t|\t53   \t|\tDNS",
  chars! "\tdnsix\t\t\t|\tUDP      \t|\t195  \t|\tDNSIX Session Management Module Audit Redirector",
  chars! "\techo\t\t\t|\tTCP,UDP  \t|\t7    \t|\tEcho",
  chars! "\texec\t\t\t|\tTCP      \t|\t512  \t|\tRemote process execution",
  chars! "\tfinger\t\t\t|\tTCP      \t|\t79   \t|\tFinger",
  chars! "\tftp\t\t\t|\tTCP      \t|\t21   \t|\tFile Transfer Protocol (control port)",
  chars! "\tftp-data\t\t|\tTCP      \t|\t20   \t|\tFile Transfer Protocol (data port)",
  chars! "\tgopher\t\t\t|\tTCP      \t|\t70   \t|\tGopher",
  chars! "\thttps\t\t\t|\tTCP      \t|\t443  \t|\tHTTP over SSL",
  chars! "\th323              \t|\tTCP      \t|\t1720 \t|\tH.323 call signalling",
  chars! "\thostname          \t|\tTCP      \t|\t101  \t|\tNIC Host Name Server",
  chars! "\tident             \t|\tTCP      \t|\t113  \t|\tIdent authentication service",
  chars! "\timap4             \t|\tTCP      \t|\t143  \t|\tInternet Message Access Protocol, version 4",
  chars! "\tirc               \t|\tTCP      \t|\t194  \t|\tInternet Relay Chat protocol",
  chars! "\tisakmp            \t|\tUDP      \t|\t500  \t|\tInternet Security Association and Key Management Protocol",
  chars! "\tkerberos          \t|\tTCP,UDP  \t|\t750  \t|\tKerberos",
  chars! "\tklogin            \t|\tTCP      \t|\t543  \t|\tKLOGIN",
  chars! "\tkshell            \t|\tTCP      \t|\t544  \t|\tKorn Shell",
  chars! "\tldap              \t|\tTCP      \t|\t389  \t|\tLightweight Directory Access Protocol",
  chars! "\tldaps             \t|\tTCP      \t|\t636  \t|\tLightweight Directory Access Protocol (SSL)",
  chars! "\tlpd               \t|\tTCP      \t|\t515  \t|\tLine Printer Daemon - printer spooler",
  chars! "\tlogin             \t|\tTCP      \t|\t513  \t|\tRemote login",
  chars! "\tlotusnotes        \t|\tTCP      \t|\t1352 \t|\tIBM Lotus Notes",
  chars! "\tmobile-ip         \t|\tUDP      \t|\t434  \t|\tMobileIP-Agent",
  chars! "\tnameserver        \t|\tUDP      \t|\t42   \t|\tHost Name Server",
  chars! "\tnetbios-ns        \t|\tUDP      \t|\t137  \t|\tNetBIOS Name Service",
  chars! "\tnetbios-dgm       \t|\tUDP      \t|\t138  \t|\tNetBIOS Datagram Service",
  chars! "\tnetbios-ssn       \t|\tTCP      \t|\t139  \t|\tNetBIOS Session Service",
  chars! "\tnntp              \t|\tTCP      \t|\t119  \t|\tNetwork News Transfer Protocol",
  chars! "\tntp               \t|\tUDP      \t|\t123  \t|\tNetwork Time Protocol",
  chars! "\tpcanywhere-status \t|\tUDP      \t|\t5632 \t|\tpcAnywhere status",
  chars! "\tpcanywhere-data   \t|\tTCP      \t|\t5631 \t|\tpcAnywhere data",
  chars! "\tpim-auto-rp       \t|\tTCP,UDP  \t|\t496  \t|\tProtocol Independent Multicast, reverse path flooding, dense mode",
  chars! "\tpop2              \t|\tTCP      \t|\t109  \t|\tPost Office Protocol - Version 2",
  chars! "\tpop3              \t|\tTCP      \t|\t110  \t|\tPost Office Protocol - Version 3",
  chars! "\tpptp              \t|\tTCP      \t|\t1723 \t|\tPoint-to-Point Tunneling Protocol",
  chars! "\tradius            \t|\tUDP      \t|\t1645 \t|\tRemote Authentication Dial-In User Service",
  chars! "\tradius-acct       \t|\tUDP      \t|\t1646 \t|\tRemote Authentication Dial-In User Service (accounting)",
  chars! "\trip               \t|\tUDP      \t|\t520  \t|\tRouting Information Protocol",
  chars! "\tsecureid-udp      \t|\tUDP      \t|\t5510 \t|\tSecureID over UDP",
  chars! "\tsmtp              \t|\tTCP      \t|\t25   \t|\tSimple Mail Transport Protocol",
  chars! "\tsnmp              \t|\tUDP      \t|\t161  \t|\tSimple Network Management Protocol",
  chars! "\tsnmptrap          \t|\tUDP      \t|\t162  \t|\tSimple Network Management Protocol - Trap",
  chars! "\tsqlnet       \t\t|\tTCP      \t|\t1521 \t|\tStructured Query Language Network",
  chars! "\tssh          \t\t|\tTCP      \t|\t22   \t|\tSecure Shell",
  chars! "\tsunrpc (rpc) \t\t|\tTCP,UDP  \t|\t111  \t|\tSun Remote Procedure Call",
  chars! "\tsyslog       \t\t|\tUDP      \t|\t514  \t|\tSystem Log",
  chars! "\ttacacs       \t\t|\tTCP,UDP  \t|\t49   \t|\tTerminal Access Controller Access Control System Plus",
  chars! "\ttalk         \t\t|\tTCP,UDP  \t|\t517  \t|\tTalk",
  chars! "\ttelnet       \t\t|\tTCP      \t|\t23   \t|\tRFC 854 Telnet",
  chars! "\ttftp         \t\t|\tUDP      \t|\t69   \t|\tTrivial File Transfer Protocol",
  chars! "\ttime         \t\t|\tUDP      \t|\t37   \t|\tTime",
  chars! "\tuucp         \t\t|\tTCP      \t|\t540  \t|\tUNIX-to-UNIX Copy Program",
  chars! "\twho          \t\t|\tUDP      \t|\t513  \t|\tWho",
  chars! "\twhois        \t\t|\tTCP      \t|\t43   \t|\tWho Is",
  chars! "\twww          \t\t|\tTCP      \t|\t80  \t|\tWorld Wide Web",
  chars! "\txdmcp        \t\t|\tUDP      \t|\t177  \t|\tX Display Manager Control Protocol",
  chars! "\techo\t\t\t|\tICMP\t\t|\t8\t|",
  chars! "\techo-reply\t\t| \tICMP \t\t| \t0 \t|",
  chars! "\tinformation-reply \t| \tICMP \t\t| \t16 \t|",
  chars! "\tinformation-request\t| \tICMP \t\t| \t15 \t|",
  chars! "\tmask-reply\t\t| \tICMP \t\t|  \t18 \t|",
  chars! "\tmask-request \t\t| \tICMP\t\t|  \t17 \t|",
  chars! "\tmobile-redirect \t| \tICMP\t\t|  \t32 \t|",
  chars! "\tparameter-problem \t|\tICMP\t\t|  \t12 \t|",
  chars! "\tredirect\t\t|\tICMP\t\t|  \t5 \t|",
  chars! "\trouter-advertisement\t|\tICMP\t\t|  \t9 \t|",
  chars! "\trouter-solicitation\t|\tICMP\t\t|  \t10 \t|",
  chars! "\tsource-quench\t\t|\tICMP\t\t|  \t4 \t|",
  chars! "\ttime-exceeded\t\t|\tICMP\t\t|  \t11 \t|",
  chars! "\ttimestamp-reply \t|\tICMP\t\t|  \t14 \t|",
  chars! "\ttimestamp-request \t|\tICMP\t\t|  \t13 \t|",
  chars! "\tunreachable \t\t|\tICMP\t\t|  \t3 \t|",
  chars! "\ttraceroute\t\t|\tICMP\t\t| \t30\t|",
  chars! "\t"]

/-- One entry of the table, aclObjects.py:848. -/
structure Serv where
  name : List Char
  protocol : List Char
  port : Int
  deriving DecidableEq

/-- The body of the loop of `PortUtil.services`, aclObjects.py:859-865, for one line: nothing for a
blank line, ValueError unless there are four columns and the third is an integer, else one entry per
protocol, named by the first word of the first column.  (The description is left out.) -/
def servLine (line : List Char) : Py (List Serv) :=
  if strip line = [] then .ok []
  else match (splitOn '|' (strip line)).map strip with
    | [name, protocol, port, _] =>
      -- `int(port)` is evaluated for every protocol; there is at least one
      match pyInt port with
      | none => .error .value
      | some n => .ok ((splitOn ',' protocol).map (fun p => ⟨(splitOn ' ' name).headD [], p, n⟩))
    | _ => .error .value

/-- The loop of `getservbyname` (851-855) over the entries of one line: the first entry with the
name; `proto.toupper()` is an AttributeError (there is no such method of `str`), evaluated only if
the name matches and a protocol is given. -/
def servSearch (name : List Char) (proto : Option (List Char)) : List Serv → Py (Option Int)
  | [] => .ok none
  | s :: t =>
    if s.name = name then
      match proto with
      | none => .ok (some s.port)
      | some _ => .error .attribute
    else servSearch name proto t

/-- `PortUtil.getservbyname(name, proto)`, aclObjects.py:850-855, over the (lazily generated)
entries of the lines. -/
def getservbyname (name : List Char) (proto : Option (List Char)) : List (List Char) → Py (Option Int)
  | [] => .ok none
  | l :: t =>
    match servLine l with
    | .error e => .error e
    | .ok ss =>
      match servSearch name proto ss with
      | .error e => .error e
      | .ok (some p) => .ok (some p)
      | .ok none => getservbyname name proto t

end Acltk
