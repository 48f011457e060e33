/-!
# Specification: the words of the configuration language

The names a device configuration may use, copied from the grammar (acl.bnf), and the calendar.
-/
namespace Acltk.Words

/-- Names of ports. -/
def ports : List String :=
  ["xdmcp", "www", "whois", "who", "uucp", "time", "tftp", "telnet", "talk", "tacacs", "syslog", "sunrpc",
   "ssh", "sqlnet", "snmptrap", "snmp", "smtp", "sip", "secureid-udp", "rtsp", "rsh", "rpc", "rip",
   "radius-acct", "radius", "pptp", "pop3", "pop2", "pim-auto-rp", "pcanywhere-status", "pcanywhere-data",
   "ntp", "non500-isakmp", "nntp", "nfs", "netbios-ssn", "netbios-ss", "netbios-ns", "netbios-dgm",
   "nameserver", "mobile-ip", "lpd", "lotusnotes", "login", "ldaps", "ldap", "kshell", "klogin", "kerberos",
   "isakmp", "irc", "imap4", "ident", "https", "http", "hostname", "h323", "gopher", "ftp-data", "ftp",
   "finger", "exec", "echo", "domain", "dnsix", "discard", "daytime", "ctiqbe", "cmd", "citrix-ica", "chargen",
   "bootps", "bootpc", "biff", "bgp", "aol"]

/-- Names of protocols. -/
def protocols : List String :=
  ["udp", "tcp", "snp", "pptp", "pim", "pcp", "ospf", "nos", "ipsec", "ipinip", "ip", "ipv6", "igrp", "igmp",
   "icmp6", "icmpv6", "icmp", "gre", "esp", "eigrp", "ahp", "ah"]

/-- Names of ICMP types. -/
def icmpTypes : List String :=
  ["unreachable", "ttl-exceeded", "traceroute", "timestamp-request", "timestamp-reply", "time-exceeded",
   "source-route-failed", "source-quench", "router-solicitation", "router-renumbering", "router-advertisement",
   "redirect", "reassembly-timeout", "protocol-unreachable", "precedence-unreachable", "port-unreachable",
   "parameter-problem", "packet-too-big", "option-missing", "no-room-for-option", "network-unknown",
   "net-unreachable", "net-tos-unreachable", "net-tos-redirect", "net-redirect", "neighbor-solicitation",
   "neighbor-redirect", "neighbor-advertisement", "mobile-redirect", "membership-report",
   "membership-reduction", "membership-query", "mask-request", "mask-reply", "information-request",
   "information-reply", "host-unreachable", "host-unknown", "host-tos-unreachable", "host-tos-redirect",
   "host-redirect", "host-precedence-unreachable", "host-isolated", "general-parameter-problem",
   "echo-request", "echo-reply", "echo", "dod-net-prohibited", "dod-host-prohibited",
   "destination-unreachable", "conversion-error", "alternate-address", "administratively-prohibited",
   "address-mask-request", "address-mask-reply"]

/-- The days of the week. -/
def weekdays : List String :=
  ["Monday", "Tuesday", "Wednesday", "Thursday", "Friday", "Saturday", "Sunday"]

/-- The months. -/
def months : List String :=
  ["January", "February", "March", "April", "May", "June", "July", "August", "September", "October",
   "November", "December"]

/-- A leap year of the Gregorian calendar: divisible by 4, but of the centuries only those divisible by 400. -/
def LeapYear (y : Nat) : Prop := (y % 4 = 0 ∧ y % 100 ≠ 0) ∨ y % 400 = 0

/-- The lengths of the months of a year, beginning with January. -/
inductive MonthLength (y : Nat) : Nat → Nat → Prop
  | long (m : Nat) : m ∈ [1, 3, 5, 7, 8, 10, 12] → MonthLength y m 31
  | short (m : Nat) : m ∈ [4, 6, 9, 11] → MonthLength y m 30
  | february : ¬ LeapYear y → MonthLength y 2 28
  | leap : LeapYear y → MonthLength y 2 29

end Acltk.Words
