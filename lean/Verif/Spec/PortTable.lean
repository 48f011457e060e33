import Verif.Model.PortUtil
/-!
# Specification: the documented service names

Service name, protocol, port; in the order of the table in the source.
-/
namespace Acltk

/-- Name, protocol and port of the known services. -/
def knownServices : List (List Char × List Char × Nat) := [
  (chars! "aol", chars! "TCP", 5190),
  (chars! "bgp", chars! "TCP", 179),
  (chars! "biff", chars! "UDP", 512),
  (chars! "bootpc", chars! "UDP", 68),
  (chars! "bootps", chars! "UDP", 67),
  (chars! "chargen", chars! "TCP", 19),
  (chars! "citrix-ica", chars! "TCP", 1494),
  (chars! "cmd", chars! "TCP", 514),
  (chars! "ctiqbe", chars! "TCP", 2748),
  (chars! "daytime", chars! "TCP", 13),
  (chars! "discard", chars! "TCP", 9),
  (chars! "discard", chars! "UDP", 9),
  (chars! "domain", chars! "TCP", 53),
  (chars! "domain", chars! "UDP", 53),
  (chars! "dnsix", chars! "UDP", 195),
  (chars! "echo", chars! "TCP", 7),
  (chars! "echo", chars! "UDP", 7),
  (chars! "exec", chars! "TCP", 512),
  (chars! "finger", chars! "TCP", 79),
  (chars! "ftp", chars! "TCP", 21),
  (chars! "ftp-data", chars! "TCP", 20),
  (chars! "gopher", chars! "TCP", 70),
  (chars! "https", chars! "TCP", 443),
  (chars! "h323", chars! "TCP", 1720),
  (chars! "hostname", chars! "TCP", 101),
  (chars! "ident", chars! "TCP", 113),
  (chars! "imap4", chars! "TCP", 143),
  (chars! "irc", chars! "TCP", 194),
  (chars! "isakmp", chars! "UDP", 500),
  (chars! "kerberos", chars! "TCP", 750),
  (chars! "kerberos", chars! "UDP", 750),
  (chars! "klogin", chars! "TCP", 543),
  (chars! "kshell", chars! "TCP", 544),
  (chars! "ldap", chars! "TCP", 389),
  (chars! "ldaps", chars! "TCP", 636),
  (chars! "lpd", chars! "TCP", 515),
  (chars! "login", chars! "TCP", 513),
  (chars! "lotusnotes", chars! "TCP", 1352),
  (chars! "mobile-ip", chars! "UDP", 434),
  (chars! "nameserver", chars! "UDP", 42),
  (chars! "netbios-ns", chars! "UDP", 137),
  (chars! "netbios-dgm", chars! "UDP", 138),
  (chars! "netbios-ssn", chars! "TCP", 139),
  (chars! "nntp", chars! "TCP", 119),
  (chars! "ntp", chars! "UDP", 123),
  (chars! "pcanywhere-status", chars! "UDP", 5632),
  (chars! "pcanywhere-data", chars! "TCP", 5631),
  (chars! "pim-auto-rp", chars! "TCP", 496),
  (chars! "pim-auto-rp", chars! "UDP", 496),
  (chars! "pop2", chars! "TCP", 109),
  (chars! "pop3", chars! "TCP", 110),
  (chars! "pptp", chars! "TCP", 1723),
  (chars! "radius", chars! "UDP", 1645),
  (chars! "radius-acct", chars! "UDP", 1646),
  (chars! "rip", chars! "UDP", 520),
  (chars! "secureid-udp", chars! "UDP", 5510),
  (chars! "smtp", chars! "TCP", 25),
  (chars! "snmp", chars! "UDP", 161),
  (chars! "snmptrap", chars! "UDP", 162),
  (chars! "sqlnet", chars! "TCP", 1521),
  (chars! "ssh", chars! "TCP", 22),
  (chars! "sunrpc", chars! "TCP", 111),
  (chars! "sunrpc", chars! "UDP", 111),
  (chars! "syslog", chars! "UDP", 514),
  (chars! "tacacs", chars! "TCP", 49),
  (chars! "tacacs", chars! "UDP", 49),
  (chars! "talk", chars! "TCP", 517),
  (chars! "talk", chars! "UDP", 517),
  (chars! "telnet", chars! "TCP", 23),
  (chars! "tftp", chars! "UDP", 69),
  (chars! "time", chars! "UDP", 37),
  (chars! "uucp", chars! "TCP", 540),
  (chars! "who", chars! "UDP", 513),
  (chars! "whois", chars! "TCP", 43),
  (chars! "www", chars! "TCP", 80),
  (chars! "xdmcp", chars! "UDP", 177),
  (chars! "echo", chars! "ICMP", 8),
  (chars! "echo-reply", chars! "ICMP", 0),
  (chars! "information-reply", chars! "ICMP", 16),
  (chars! "information-request", chars! "ICMP", 15),
  (chars! "mask-reply", chars! "ICMP", 18),
  (chars! "mask-request", chars! "ICMP", 17),
  (chars! "mobile-redirect", chars! "ICMP", 32),
  (chars! "parameter-problem", chars! "ICMP", 12),
  (chars! "redirect", chars! "ICMP", 5),
  (chars! "router-advertisement", chars! "ICMP", 9),
  (chars! "router-solicitation", chars! "ICMP", 10),
  (chars! "source-quench", chars! "ICMP", 4),
  (chars! "time-exceeded", chars! "ICMP", 11),
  (chars! "timestamp-reply", chars! "ICMP", 14),
  (chars! "timestamp-request", chars! "ICMP", 13),
  (chars! "unreachable", chars! "ICMP", 3),
  (chars! "traceroute", chars! "ICMP", 30)]

/-- The port of the first service of that name. -/
def portOfName (name : List Char) : Option Nat :=
  (knownServices.find? (fun r => r.1 == name)).map (fun r => r.2.2)

end Acltk
