# id | model | proof and result
C01|Host|`meet` on host trees; induction on the frame budget, network containment reduced to intervals
C02|Host|corollary of C01, the empty group spelled out
C03|Host|bitwise: `Nat.testBit` extensionality, explicit witness address
C04|Host|false of the code: witness; true outside ::/96
C05|Host|false for wildcard & wildcard (divergence for every budget); otherwise the sum of the depths suffices
C06|Host|induction over the host tree
C07|Rule|case analysis against a separate id-compatibility relation
C08|Rule|case analysis over the forms of both ids
C09|Fnmatch|leftmost greedy matching of the fixed chunks between stars is complete (the atomic groups lose nothing)
C10|Rule|induction over the rule list
C11|Caf|structural induction over the expression
C12|Caf|both reduction loops equal folds; relation to an unambiguous grammar derivation
C13|Caf|from C01 on the groups the clauses build
C14|Caf|false: witnesses; true without an id or with several items
C15|Caf|C05 lifted to filters, which hold no wildcards
C16|CafComment|leftmost, greedy, backtracking match of the comment expression; false for bodies ending in stars, exact otherwise
C17|Rule|case analysis over the nodes present
C18|Rule|from C10 and C17
C19|Mask, Addr|mask-shape lemmas for prefix, netmask and hostmask
C20|IosHost|false for wildcards shaped like a netmask; exact otherwise
C21|Summarize|loop invariant of `summarize_address_range`
C22|Summarize|work-list measure and covering invariant
C23|Group|structural induction; flattening specification
C24|Group|from C01 and C23
C25|GroupHeap|groups as a heap with sharing; rank induction, any schedule
C26|Collapse|the result equals the maximal blocks inside the union (canonical form)
C27|Collapse|false: witnesses for IPv6, mixed versions, any; true for IPv4 networks
C28|Sort|stable merge sort against permutation + order + stability
C29|Sort|order on the keys
C30|Sort|false for service, protocol and all-network groups; true for the rest
C31|Port|lexicographic order on strings
C32|Port|false: identity hash; exact statement of what holds
C33|Port|false for different numbers of digits; exact for equal ones
C34|Port|digit strings, all four checks
C35|Config|induction over the parse result
C36|Config|dictionary as a list of updates
C37|Learn|history induction; false for redefinitions, exact binding for every history
C38|Config|induction over the parse result
C39|Config|first match over interfaces, last write wins
C40|Lookup|PEG token choice in descending order + nameguard/lookahead
C41|Detect|case analysis over three arbitrary parsers
C42|Config|fold over routes × interfaces
C43|Resolve|closure invariant for an arbitrary schedule, measure on undone items
C44|Resolve|false (TypeError); exact condition for raising
C45|Iface|fold over trunk commands
C46|Banner|regular expression with a backreference; false for ^^C and non-ASCII delimiters
C47|Pfsense|case analysis over the elements of a rule
C48|Pfsense|specification by run and row number
C49|Pfsense|false (IndexError); interfaces without a static address exact
C50|Nat|false: both sides carry the real port; everything else of the command exact
C51|Nat|false for dynamic NAT; static exact
C52|PortUtil|first match in the table; false with a protocol argument
C53|Port|false: number dropped; ranges exact
C54|Nat, Learn|false when the nat line has its own block; exact within one block
C55|FwsmIface|false without `standby`; exact with it
C56|Iface|fold over the lines of the block, acceptance characterised
C57|Lookup|false for names starting with `any-`; exact otherwise
C58|Pfsense|false for described optional interfaces
C59|Pfsense|false when an interface is described by the tag of another one
C60|Pfsense|false for host aliases with a word that is no address; others exact
C61|Pfsense|induction over the document
C62|Nat|case analysis over the command
C63|Config|false: trailing dot, pfSense; scalars exact
C64|Addr, Text|reader against the RFC 4291 grammar, both directions
C65|Py|`int(str)` against a grammar of integer texts
C66|Peg, AclText|the PEG of one access-list line on every printed line (forward reading lemmas per word)
C67|AclText|remark closure; false for remarks of another list and CR LF
C68|AclText|false: six families of witnesses
C69|AclText|inversion of the PEG: what any success consumed
C70|FwsmText|inversion of every command of the file grammar; the rule lines of the text equal the rules of the result
C71|FwsmText|forward reading of every command form, state updates included
C72|FwsmText|induction over the commands with the tables as state
C73|CafText|forward reading of the words of every production, composed with C15
C74|CafText|inversion of every production, for arbitrary nameguards
C75|CafText|C73 for both texts and invariance of the meaning under removal of comments; the property fails, with witnesses
C76|CafText|fails, with a witness; C74 is what holds
C77|CafFilter|C73, C72, C35 composed
C78|FwsmText|fails: no accepted text has a periodic entry with more than one day, and lines with two days are refused; single days are C71
C79|CafFilter, FwsmText|C72 extended by the NAT commands, composed with C38; the meaning of the values is C61, C62
C80|IosText|a relation between texts and items command by command (IosSpec), the parser follows it; induction over the commands
C81|IosText|the lists that are read are part of C80; all other numbers are refused, so the property fails for 1400-1999
C82|IosConfig, Config|C80 and C42 composed, with an invariant over the commands for the interface a name refers to; fails for routes with further words or undefined interfaces
C83|IosConfig|C73, C80, C35 composed
C84|IosText|kept with the rule that follows; fails for remarks at the end of a list
C85|IosConfig, Config|C80 and C39 composed
C86|DetectText, Detect, FwsmText, IosText|every line that begins at column 0 with no `a` begins a command of the FWSM parser, so a version line, a rule of a numbered list or a named list with entries is refused by it; then C72 and C80; fails for IOS texts without any of these
C87|DetectText|C86, C77, C83 composed
C88|ConfigFilter, DetectText, Nat, Caf|C72, C73, C79 composed: the two runs of the filter, on the rules and on the NAT entries, and their union
C89|PfFilter, Pfsense, DetectText, ConfigFilter|C86 (text beginning with `<`), C61 and C47 (the rules), C73 (the filter) composed
C90|Render, ConfigFilter, Resolve, Config|C88 composed with C43 and C44; the table of access groups by C39 and C85
C91|IosText, IosLineLogic, IosLines|line-wise reading of the text specified on its own (IosLinesSpec); a Hoare logic over the position in the line for every parser of the grammar, induction over the commands
C92|GroupHeap, Groups, Caf, ExpandSpec|the relation `Expands` between a host before and after; same leaves and same group leaves (mutual induction); C25 (the heap of groups) gives `Expands`; C18 on both sides
C93|the parsers, the detection, `cafBlock.run`/`cafOp.run` and `ACLConfig.filter` as in C74, C86, C88, C89|from an accepted filter text the shape of its syntax tree (C74); running needs no condition on ids; from an accepted configuration text the ids and NAT sides (C94)
C94|the parsers of C70-C91|an invariant of the symbol tables kept by every command, and what it gives for the hosts built by each semantic action
C95|FileText (the UTF-8 decoder, `utf-8-sig`), DetectText, ConfigFilter, CafText|the decoder inverts Lean's own `String.utf8EncodeChar` (case analysis on the lead byte, `omega`); C93 for the texts
C96|Host|loops over members diverge at the first member that does not return False; from members to leaves by induction on the depth; C05 for everything but wildcards
C97|Web (examples/render/dynamic.py: requests, answers, the shelf), FileText, Dict|induction on the sequence of requests from its end; C95 for what an upload is
C98|Web, ExpandFilter, Resolve, Render|C93 and C92 for the selection, C43 and C44 for its completion
C99|Web|case analysis; C95
C100|Page (static.jinja2: the loop over the rules)|induction over the rules with the state of the loop
C101|Page (the sections), Resolve|a named object of the closure brings the label of its section; membership in the sorted, filtered tables
C102|Page (the macros that make links), Resolve|each link comes from an object the row refers to, and the closure is closed under these
C103|Page (static.py --sort: sortAll), Sort, Config|pySorted is a sorted permutation or raises; invariant over the groups that only the order of members changed
C104|Static (static.py: main), Web, Page|composition of C93, C92, C90, C100, C101, C103 along main; case analysis for the agreement with /show
C105|FwsmText, IosText, DetectText, CafFilter, ConfigFilter, FileText|two-run simulation through every rule of both grammars: related positions give related outcomes; then the constructor and the filter do not look at what differs
C106|CafText|the same simulation, with white space skipped on both sides; induction on the nesting of the filter
C107|FwsmText (parser tables, all commands)|invariant over the commands read so far: the tables of the parser are the first/last definitions among the elements returned; every reference goes through a table
C108|Static, Page, FwsmText, Resolve|the objects of a text are specified element by element (HeapSpec); with the invariant of C107 every reference is listed, so the hypotheses of C100–C104 hold if and only if every reference is to the definition that is kept; existence of such objects for every accepted text
C109|AclFilter (examples/acl-filter.py)|evaluation of main on every accepted configuration; the count by the theorem that the rules of a configuration are those of the text
C110|WebConc (the view functions as programs over the shelf, their interleavings)|invariant over the events: every unanswered request is at its start or has seen its configuration, and keys are never removed, so its last operation is its linearization point; the order of the answers
C111|Static, Page, PfFilter, Pfsense, Resolve|the objects of a parse result are specified rule by rule (PfHeapSpec); every reference of an accepted rule is the last alias of its name (invariant of the alias tables), hence listed; the hypotheses of C100–C104 follow; existence of such objects for every result
C112|IosText (parser tables, all commands)|invariant over the commands read so far, as for C107; the elements of an IOS result are of the kinds of its grammar, so that no reference is to an object or a time range
C113|Static, Page, IosText, IosConfig, Resolve|the objects of a parse result are specified element by element and rule by rule (IosHeapSpec); by C112 a reference is the last definition in front of it, in a settled text the one that is kept; the hypotheses of C100–C104 follow; existence of such objects for every accepted text; the converse of settledness
C114|PageExpand, GroupHeap, Static, Page|the groups of one class are a heap in the sense of C25 (every group gets its leaves, in whatever order); one class after the other keeps an invariant (`Partly`); a text refers backwards only (C107, C112), so no group contains itself; whatever an expanded object refers to was below the old one or is plain, so the hypotheses of C100–C104 stay true
C115|Cells (the macros host and port, the printing of addresses)|the text of an address or network is read back by the model of ipaddress (C19); the kinds of cells are told apart by slash, blank and link; C94 for the hosts of accepted texts
C116|Row (the row of a rule, macros port, protocol, icmp, options)|the kinds of port cells are told apart by blank and hyphen, two services in a range because no service is named like the end of another one behind a hyphen; the words of accepted rules by an invariant of the parser; hosts by C115
C117|IosRow (the row of an IOS rule, options as texts)|the columns by C116; the lines of the options are split at the first colon, which no keyword of the grammar has; the words of accepted rules by an invariant of the parser
C118|Section (the sections of services, ports, icmp types and protocols)|a service is read back from its cells: ports by C116, type and code are split at the first slash, which no icmp type has; groups member by member; the words of accepted definitions by an invariant of both parsers
C119|PfRow (the row of a pfSense rule)|column by column: hosts by C115; a range is told from a single port by the hyphen, which no part of an accepted port has (an invariant of the parser of rules); the tracker is the last option
C120|NatRow (the rows of a NAT entry), Nat, FwsmText|column by column: hosts by C115, ports by C116 and a check of the list of services that no name of a service is two ports with a hyphen; an invariant of the FWSM/ASA parser (the services named by a command, the fallback, the kind) gives the hypotheses
C121|NetSection (sections of names, network objects and groups)|cell by cell with C115, the kind from the anchor; that the addresses of names are valid is an invariant of the FWSM/ASA parser
C122|TimeSection (the section of a time range), FwsmText|a grammar of the rows that is shown to be unambiguous by its separators; the texts of numbers are read back by their value; that months, days and lists of days are in range is an invariant of the FWSM/ASA parser
C123|IfaceSection (the section of an interface, the macro vlans), Iface, IosText, FwsmText|addresses are split from prefix lengths at the slash, which no address contains; lists of VLANs are split at commas and hyphens, which no number contains; that addresses are valid and VLANs are numbers is an invariant of the loop over the details and of both parsers
C124|RouteRow (the row of a route), IosText|the network is split from the gateway at the first blank, which no network contains; no address contains a blank, so it is not the representation of an interface; that networks and gateways are valid is an invariant of the IOS parser
