{"id": "C01", "title": "Host matching is address-set intersection", "statement": "For hosts built from hosts, networks, any/any4/any6, interfaces, network objects and (nested) network groups, `a & b` is True exactly when some IP address is denoted by both a and b (an interface denotes every address; any side that is a group/object must denote at least one address when the other side is any or an interface).", "quantifier": "all pairs of such hosts, any nesting depth, both IP versions", "why_tests_cant": "infinitely many address/prefix/nesting combinations; dispatch flips operands recursively", "anchors": ["lib/acltk/aclObjects.py:Network.__and__", "lib/acltk/aclObjects.py:NetworkHost.__and__", "lib/acltk/aclObjects.py:NetworkGroup.__and__", "lib/acltk/aclObjects.py:NetworkObject.__and__", "lib/acltk/aclObjects.py:NetworkAny4.__and__", "lib/acltk/aclObjects.py:NetworkAny6.__and__"]}
{"id": "C02", "title": "Host matching is symmetric", "statement": "`a & b` and `b & a` return the same answer for every pair of ordinary (non-ANY*) hosts that denote at least one address; the exception is an empty group against any/interface, where the two orders disagree.", "quantifier": "all pairs of ordinary hosts", "why_tests_cant": "pairs of nested groups cannot be enumerated", "anchors": ["lib/acltk/aclObjects.py:Network.__and__", "lib/acltk/aclObjects.py:NetworkWildcard.__and__", "lib/acltk/aclObjects.py:NetworkGroup.__and__"]}
{"id": "C03", "title": "IPv4 wildcard match is exact", "statement": "A NetworkWildcard matches an IPv4 host (network) exactly when the host (some address of the network) agrees with the wildcard's address on every bit the wildcard does not mask out.", "quantifier": "all IPv4 address/wildcard pairs, hosts and networks, contiguous or not", "why_tests_cant": "2^64 wildcard values times 2^37 networks", "anchors": ["lib/acltk/aclObjects.py:NetworkWildcard.__and__"]}
{"id": "C04", "title": "Wildcard matching never crosses IP versions", "statement": "An IPv4 NetworkWildcard never matches an IPv6 host or network. (Violated by the code: it compares bare integers.)", "quantifier": "all IPv4 wildcards and IPv6 hosts/networks", "why_tests_cant": "the failing inputs are a sparse set", "anchors": ["lib/acltk/aclObjects.py:NetworkWildcard.__and__"]}
{"id": "C05", "title": "Every host comparison terminates", "statement": "`a & b` returns a boolean for any two supported hosts; recursion depth is bounded by the nesting depth of the operands. (Violated for wildcard & wildcard, which recurses for ever.)", "quantifier": "all host pairs, any nesting, any recursion limit", "why_tests_cant": "needs a bound for all depths and a proof of divergence", "anchors": ["lib/acltk/aclObjects.py:NetworkWildcard.__and__", "lib/acltk/aclObjects.py:NetworkHost.__and__"]}
{"id": "C06", "title": "ANY / ANY4 / ANY6 only select literal any rules", "statement": "The CAF keyword ANY (ANY4, ANY6) on one side selects a rule side iff that side is literally any (any4, any6) or a group that contains one at some depth; never because of an address, and any4/any6 are not selected by ANY nor any by ANY4/ANY6.", "quantifier": "all rule hosts, any nesting", "why_tests_cant": "group nesting is unbounded", "anchors": ["lib/acltk/cafObjects.py:cafNetworkAny.__and__", "lib/acltk/cafObjects.py:cafNetworkAny4.__and__", "lib/acltk/cafObjects.py:cafNetworkAny6.__and__"]}
{"id": "C07", "title": "A filter rule matches by id, source and destination only", "statement": "A filter rule matches an ACL rule iff their ids are compatible and their sources match and their destinations match; protocol, ports, mode, remarks and options never influence the result.", "quantifier": "all pairs of rules", "why_tests_cant": "independence from every other field is a universal statement", "anchors": ["lib/acltk/aclObjects.py:ACLRule.__and__", "lib/acltk/aclObjects.py:ACLNode.__and__"]}
{"id": "C08", "title": "Id compatibility", "statement": "If either id is missing or empty any pair of ids is compatible; otherwise an id wrapped in slashes with a non-empty body is a glob that must match the other id; when both ids are globs only the left one is used as pattern; a left id that is '/' or '//' is compared literally even if the right one is a glob; otherwise the ids must be equal. Incompatible ids never match, whatever the hosts are.", "quantifier": "all pairs of optional id strings", "why_tests_cant": "arbitrary strings, including the one-character id '/' and '//'", "anchors": ["lib/acltk/aclObjects.py:ACLRule.__and__"]}
{"id": "C09", "title": "fnmatch patterns have glob semantics", "statement": "The id pattern matcher (fnmatchcase, as translated to a regular expression with atomic groups) accepts a name iff the name can be split according to the glob: * any string, ? one character, [..] one character of the class, others literally. The only exception are brackets like [z-a!x], where removing a leading reversed range turns a '!' into a negation.", "quantifier": "all patterns and names", "why_tests_cant": "the greedy/atomic star strategy must be right for every pattern", "anchors": ["lib/acltk/aclObjects.py:ACLRule.__and__"]}
{"id": "C10", "title": "ACLRules.filter returns exactly the matching rules", "statement": "filter(targets) returns the set of those rules of the list for which at least one target matches: nothing is invented, lost, or depends on the order of rules or targets.", "quantifier": "all rule lists and target lists", "why_tests_cant": "unbounded lists", "anchors": ["lib/acltk/aclObjects.py:ACLRules.filter"]}
{"id": "C11", "title": "CAF expressions denote set algebra", "statement": "Running a CAF expression selects a rule iff the boolean formula obtained by reading union as or, intersect as and, except as and-not holds for that rule; the result is a subset of the rule list and does not depend on rule order.", "quantifier": "all CAF expressions of any depth, all rule lists", "why_tests_cant": "unbounded expression trees", "anchors": ["lib/acltk/cafObjects.py:cafBlock.run", "lib/acltk/cafObjects.py:cafOpUnion.run", "lib/acltk/cafObjects.py:cafOpIntersect.run", "lib/acltk/cafObjects.py:cafOpExcept.run"]}
{"id": "C12", "title": "CAF operator precedence and associativity", "statement": "A flat operator chain is grouped with intersect binding tighter than union/except, intersect left-associative, and union/except left-associative with equal precedence.", "quantifier": "all operator chains of any length", "why_tests_cant": "chains of unbounded length, in-place list surgery", "anchors": ["lib/acltk/cafSemantics.py:RealCafSemantics.expr"]}
{"id": "C13", "title": "CAF ip clauses accumulate by direction", "statement": "A CAF set selects a rule iff its id is compatible and, for each direction with at least one address, some address given for that direction (in any clause) matches the rule's side; a direction without address is unconstrained; the order and grouping of clauses is irrelevant and adding an address to a direction that already has one can only grow the result.", "quantifier": "all lists of ip clauses", "why_tests_cant": "unbounded clause lists", "anchors": ["lib/acltk/cafSemantics.py:RealCafSemantics.set", "lib/acltk/cafSemantics.py:RealCafSemantics.net"]}
{"id": "C14", "title": "CAF id in front of a parenthesis is honoured", "statement": "A CAF set that combines an id with a parenthesised expression restricts the expression to that id. (Violated: a single parenthesised item makes the id disappear; two of them raise.)", "quantifier": "all ids and expressions", "why_tests_cant": "silent semantic loss", "anchors": ["lib/acltk/cafSemantics.py:RealCafSemantics.set"]}
{"id": "C15", "title": "CAF filtering never fails", "statement": "A filter obtained from CAF semantics can be run against any configuration (wildcards, nested groups, NAT included) without exception as long as nesting stays below the recursion limit.", "quantifier": "all CAF expressions and configurations", "why_tests_cant": "absence of exceptions on all inputs", "anchors": ["lib/acltk/cafObjects.py:cafBlock.run", "lib/acltk/aclObjects.py:ACLRules.filter"]}
{"id": "C16", "title": "CAF comments end at the first */", "statement": "A comment in a CAF text ends at the first '*/' after its start. (Violated for comments ending in '**/', where following filter text is swallowed.)", "quantifier": "all comment bodies", "why_tests_cant": "regular-expression corner cases", "anchors": ["lib/acltk/caf.bnf:comment", "lib/acltk/caf.py:_comment_"]}
{"id": "C17", "title": "NAT entries match on their real or their mapped side", "statement": "A filter rule selects a NAT object iff, for the real or for the mapped side, every node present on that side (source, destination) matches the filter's corresponding side and at least one node is present; the filter's id is ignored.", "quantifier": "all NAT objects and filter rules", "why_tests_cant": "combinations of optional nodes with arbitrary hosts", "anchors": ["lib/acltk/aclObjects.py:NATObject.__and__"]}
{"id": "C18", "title": "Config.filter is the union over rules and NAT", "statement": "ACLConfig.filter(caf) returns exactly the access rules selected by caf plus the NAT objects of all three sections selected by caf.", "quantifier": "all configurations and CAF expressions", "why_tests_cant": "unbounded configurations", "anchors": ["lib/acltk/aclObjects.py:ACLConfig.filter"]}
{"id": "C19", "title": "Network(address, mask) denotes the addresses that agree on the mask", "statement": "Building a network from an address and a prefix length, a dotted netmask or a dotted hostmask yields the network of all addresses equal to the given one on the masked bits, host bits being cleared; any other mask is rejected.", "quantifier": "all addresses and masks of both versions", "why_tests_cant": "2^64 inputs per version", "anchors": ["lib/acltk/aclObjects.py:Network.__init__"]}
{"id": "C20", "title": "IOS address/wildcard pairs denote the wildcard set", "statement": "An IOS 'address wildcard' host denotes exactly the addresses that agree with the address on the bits that are zero in the wildcard. (Violated when the wildcard looks like a netmask, e.g. 0.0.0.0.)", "quantifier": "all address/wildcard pairs", "why_tests_cant": "2^64 pairs; wrong only on 33 wildcards", "anchors": ["lib/acltk/iosSemantics.py:iosSemantics.ios_host"]}
{"id": "C21", "title": "Range objects cover exactly the range", "statement": "A network object of type range covers exactly the addresses from start to stop inclusive, with pairwise disjoint ascending networks; start > stop or mixed versions are rejected.", "quantifier": "all start/stop pairs of both versions", "why_tests_cant": "2^256 pairs", "anchors": ["lib/acltk/aclObjects.py:NetworkObject.__init__"]}
{"id": "C22", "title": "Wildcard enumeration is exact", "statement": "NetworkWildcard._addresses() terminates and the returned addresses and networks together cover exactly the addresses the wildcard denotes.", "quantifier": "all IPv4 address/wildcard pairs", "why_tests_cant": "work-list loop over all bit patterns", "anchors": ["lib/acltk/aclObjects.py:NetworkWildcard._addresses"]}
{"id": "C23", "title": "Group expansion keeps exactly the leaves", "statement": "expand() yields the depth-first list of leaf members (network objects replaced by their addresses, service objects by equal services), contains no group afterwards, and is idempotent; insitu=False leaves the original untouched.", "quantifier": "all nested groups of all five kinds", "why_tests_cant": "unbounded nesting", "anchors": ["lib/acltk/aclObjects.py:_Group._expand", "lib/acltk/aclObjects.py:_Group.expand", "lib/acltk/aclObjects.py:NetworkGroup.expand", "lib/acltk/aclObjects.py:ServiceGroup.expand", "lib/acltk/aclObjects.py:PortGroup.expand"]}
{"id": "C24", "title": "Expansion does not change matching", "statement": "For every network group g and host x, g & x gives the same answer before and after g.expand(), and x & g as well for every ordinary host x; but ANY filters may select more after expansion.", "quantifier": "all groups and hosts", "why_tests_cant": "universal over hosts and nesting", "anchors": ["lib/acltk/aclObjects.py:NetworkGroup.expand", "lib/acltk/aclObjects.py:NetworkGroup.__and__"]}
{"id": "C25", "title": "Config.expand is order independent", "statement": "Expanding all groups of a configuration in place, in whatever order, gives every group the same members (its leaves), even when groups are shared between parents.", "quantifier": "all acyclic group graphs and all visiting orders", "why_tests_cant": "aliasing plus iteration order", "anchors": ["lib/acltk/aclObjects.py:ACLConfig.expand"]}
{"id": "C26", "title": "Collapsing an IPv4 group preserves its addresses", "statement": "collapse() on a group of IPv4 networks yields a group covering exactly the same addresses, sorted, pairwise disjoint and maximally aggregated, hence independent of member order and duplicates, and idempotent; one-address results become hosts. collapse(insitu=False) does the same for a group that also holds hosts, objects or nested groups, on an expanded copy; in place such a group is rejected with ValueError and kept.", "quantifier": "all groups whose leaves are IPv4 networks and hosts", "why_tests_cant": "merging loop over unbounded lists", "anchors": ["lib/acltk/aclObjects.py:NetworkGroup.collapse", "lib/acltk/aclObjects.py:NetworkGroup._collapse"]}
{"id": "C27", "title": "Collapse keeps or rejects, never loses", "statement": "If collapse() raises, the group keeps its members, and a group denoting all addresses keeps doing so. (Violated: IPv6 blocks and mixed versions raise after the members have been cleared; any/any4/any6 members are dropped.)", "quantifier": "all groups", "why_tests_cant": "exception paths with partial mutation", "anchors": ["lib/acltk/aclObjects.py:NetworkGroup._collapse"]}
{"id": "C28", "title": "Sorting a group is a stable permutation", "statement": "sort() (in place) permutes the members into non-decreasing key order, keeps the order of equal keys, is idempotent, and does not change what the group matches. Members without a key (wildcards, interfaces, ports without a number) make it raise and leave the group unchanged.", "quantifier": "all groups of network, port, protocol and service members", "why_tests_cant": "unbounded lists", "anchors": ["lib/acltk/aclObjects.py:NetworkGroup.sort", "lib/acltk/aclObjects.py:PortGroup.sort", "lib/acltk/aclObjects.py:ProtocolGroup.sort", "lib/acltk/aclObjects.py:ServiceGroup.sort"]}
{"id": "C29", "title": "Sorted network groups list named members first", "statement": "After sort() every member that is sorted by (ASCII) name, i.e. nested group, network object or any keyword, precedes every address or network member.", "quantifier": "all groups with non-empty ASCII names", "why_tests_cant": "the key is an unbounded alternating sum", "anchors": ["lib/acltk/aclObjects.py:nstrsum", "lib/acltk/aclObjects.py:NetworkGroup.key_of"]}
{"id": "C30", "title": "sort(insitu=False) leaves the group alone and returns a sorted copy", "statement": "sort(insitu=False) returns a sorted group and does not modify the original. (Violated for service/protocol groups, which raise, and for groups made of networks only, which are collapsed in place.)", "quantifier": "all groups", "why_tests_cant": "mutation through aliasing", "anchors": ["lib/acltk/aclObjects.py:NetworkGroup.sort", "lib/acltk/aclObjects.py:ServiceGroup.sort", "lib/acltk/aclObjects.py:ProtocolGroup.sort"]}
{"id": "C31", "title": "Port comparison is a total order", "statement": "Ports compare by (operator, text of the number): exactly one of <, ==, > holds, < is transitive, and the derived <=, >, >= agree with it.", "quantifier": "all ports that have a number", "why_tests_cant": "universal order laws", "anchors": ["lib/acltk/aclObjects.py:Port.__eq__", "lib/acltk/aclObjects.py:Port.__lt__"]}
{"id": "C32", "title": "Equal ports hash equal", "statement": "Two ports that compare equal have the same hash, so sets and dicts treat them as one. (Violated: hash is the object identity.)", "quantifier": "all pairs of equal ports", "why_tests_cant": "identity based", "anchors": ["lib/acltk/aclObjects.py:Port.__hash__"]}
{"id": "C33", "title": "PortRange accepts exactly increasing ranges", "statement": "PortRange(start, stop) with numeric ports succeeds iff start is numerically below stop. (Violated when the numbers of digits differ, because the texts are compared.)", "quantifier": "all numeric port texts", "why_tests_cant": "textual versus numeric order over all digit strings", "anchors": ["lib/acltk/aclObjects.py:PortRange.__init__"]}
{"id": "C34", "title": "Numeric fields are range checked", "statement": "No protocol above 255, port above 65535, ICMP type or code above 255 is ever accepted from a configuration, and every value within range is accepted unchanged.", "quantifier": "all digit strings", "why_tests_cant": "unbounded digit strings incl. leading zeros", "anchors": ["lib/acltk/aclSemantics.py:aclSemantics.protocol_int", "lib/acltk/aclSemantics.py:aclSemantics.port_int", "lib/acltk/aclSemantics.py:aclSemantics.icmp_type_int", "lib/acltk/aclSemantics.py:aclSemantics.icmp_code_int"]}
{"id": "C35", "title": "Parsed rules keep file order", "statement": "The rule list of a parsed configuration contains every access rule of the parse result exactly once in file order; for IOS, rules of named lists are inlined at the place of the list.", "quantifier": "all parse results", "why_tests_cant": "interleavings of unbounded length", "anchors": ["lib/acltk/aclObjects.py:ACLConfig.__init__", "lib/acltk/iosObjects.py:iosConfig.__init__"]}
{"id": "C36", "title": "Definition tables", "statement": "Looking up a name in the configuration tables returns the last definition for groups, service objects and time ranges, and the first definition for network objects; names never defined are absent.", "quantifier": "all parse results with repeated definitions", "why_tests_cant": "unbounded histories of definitions", "anchors": ["lib/acltk/aclObjects.py:ACLConfig.__init__"]}
{"id": "C37", "title": "References and tables agree", "statement": "The object a rule refers to by name is the object the configuration tables list under that name. (Violated for re-defined service objects and for groups re-defined after use.)", "quantifier": "all definition histories", "why_tests_cant": "history dependent", "anchors": ["lib/acltk/aclSemantics.py:aclSemantics.object_type", "lib/acltk/aclSemantics.py:aclSemantics.object_group_type", "lib/acltk/aclObjects.py:ACLConfig.__init__"]}
{"id": "C38", "title": "NAT sections", "statement": "Object NAT goes to section 2, twice NAT with after-auto/after-object to section 3, other twice NAT to section 1; each section preserves file order and every NAT entry ends up in exactly one section.", "quantifier": "all parse results", "why_tests_cant": "unbounded lists", "anchors": ["lib/acltk/aclObjects.py:ACLConfig.__init__"]}
{"id": "C39", "title": "Access-group binding", "statement": "An access-group command binds to the first interface defined earlier whose nameif equals the command's interface, a later command for the same interface and direction replaces the earlier one, and no other interface is touched.", "quantifier": "all parse results", "why_tests_cant": "history dependent", "anchors": ["lib/acltk/aclObjects.py:ACLConfig.__init__"]}
{"id": "C40", "title": "Name references resolve to the name written", "statement": "Where a configuration refers to a named object, the reference resolves to exactly the written name, never to another known name that is a prefix of it or has it as prefix, whatever set of names is known; unknown names never resolve.", "quantifier": "all sets of known names and all following texts", "why_tests_cant": "prefix overlaps between arbitrary names", "anchors": ["lib/acltk/aclSemantics.py:aclParser.__acl_internal_ids"]}
{"id": "C41", "title": "Auto-detection", "statement": "ACLConfig.fromString returns the result of the first of the FWSM/ASA, IOS and pfSense parsers that does not raise, and raises ValueError iff all three raise; the text handed to the parsers is the input plus one newline.", "quantifier": "all texts and parser behaviours", "why_tests_cant": "depends on three opaque parsers", "anchors": ["lib/acltk/aclObjects.py:ACLConfig._parse", "lib/acltk/aclObjects.py:ACLConfig.fromString"]}
{"id": "C42", "title": "IOS routes attach to the right interfaces", "statement": "A static route is attached to an interface iff its gateway is that interface or an address inside one of the interface's networks; each route is attached at most once per interface and all routes are listed in file order.", "quantifier": "all IOS configurations", "why_tests_cant": "unbounded interface and route lists", "anchors": ["lib/acltk/iosObjects.py:iosConfig.__init__"]}
{"id": "C43", "title": "resolve computes the reference closure in any order", "statement": "resolve(selection) terminates on every object graph, even a cyclic one, and returns exactly the selection plus everything reachable through group membership, host targets and access-group interfaces plus the category labels, whatever order the set is iterated in.", "quantifier": "all finite object graphs and all iteration orders", "why_tests_cant": "hash-order nondeterminism", "anchors": ["lib/acltk/aclObjects.py:ACLConfig.resolve"]}
{"id": "C44", "title": "resolve works for every selected rule", "statement": "resolve never raises on a selection of rules of the configuration. (Violated: a selected rule whose list is bound to an IOS interface raises TypeError.)", "quantifier": "all selections", "why_tests_cant": "data dependent crash", "anchors": ["lib/acltk/aclObjects.py:ACLConfig.resolve"]}
{"id": "C45", "title": "Switchport trunk lists accumulate", "statement": "The trunk VLAN list of an interface is the list of the last 'allowed vlan' command followed by those of the later 'add' commands in order; an 'add' without a preceding list raises.", "quantifier": "all sequences of switchport commands", "why_tests_cant": "histories of unbounded length", "anchors": ["lib/acltk/aclObjects.py:Interface.__init__"]}
{"id": "C46", "title": "Banner text ends at the first delimiter", "statement": "The message of a banner ends at the first occurrence of its delimiter. (Violated for '^^C' and for non-ASCII delimiters.)", "quantifier": "all banner texts and delimiters", "why_tests_cant": "regular-expression corner cases", "anchors": ["lib/acltk/iosSemantics.py:iosParser._delim_msg_", "lib/acltk/iosSemantics.py:iosParser._delim_stop_"]}
{"id": "C47", "title": "pfSense rule translation", "statement": "A pfSense rule permits iff its type is pass, any other type denies; a missing source/destination means any; disabled, log, non-default state type and floating show up as options and only then; unknown elements are rejected.", "quantifier": "all rule elements", "why_tests_cant": "arbitrary XML children", "anchors": ["lib/acltk/pfsenseSemantics.py:pfsenseParser._parse_filter__rule"]}
{"id": "C48", "title": "pfSense separators", "statement": "A separator for row n of an interface becomes the head of the rule that is number n in its run of consecutive rules of that interface, and of no other rule.", "quantifier": "all rule and separator lists", "why_tests_cant": "unbounded lists", "anchors": ["lib/acltk/pfsenseSemantics.py:pfsenseParser._parse_filter"]}
{"id": "C49", "title": "pfSense interfaces with a static address are accepted", "statement": "An interface element with a static IP address is turned into an interface that has that address. (Violated: the detail list has the wrong shape and the constructor raises IndexError.)", "quantifier": "all interface elements", "why_tests_cant": "no fixture ships with the repository", "anchors": ["lib/acltk/pfsenseSemantics.py:pfsenseParser._parse_interfaces", "lib/acltk/aclObjects.py:Interface.__init__"]}
{"id": "C50", "title": "Object NAT keeps its port translation", "statement": "Object NAT with 'service proto real mapped' yields a NAT object whose real side carries the real port and whose mapped side carries the mapped port. (Violated: both sides carry the real port.)", "quantifier": "all ports", "why_tests_cant": "data flow through several constructors", "anchors": ["lib/acltk/aclSemantics.py:aclSemantics.network_object_nat", "lib/acltk/aclSemantics.py:aclSemantics.network_object_nat_service"]}
{"id": "C51", "title": "Twice NAT service orientation", "statement": "In static twice NAT with a service clause, source services mean 'service real mapped' and destination services 'service mapped real'; in dynamic twice NAT, destination services mean 'service mapped real', as the command reference quoted in the grammar says; other combinations are rejected. (Violated for dynamic NAT: the two are swapped.)", "quantifier": "all service object pairs", "why_tests_cant": "all combinations of optional ports", "anchors": ["lib/acltk/fwsmSemantics.py:fwsmSemantics.nat"]}
{"id": "C52", "title": "Service name lookup", "statement": "PortUtil.getservbyname(name) returns the port of the first table line carrying that name and None for unknown names; with a protocol argument it selects among the lines by protocol. (The latter is violated: it raises AttributeError for every known name.)", "quantifier": "all names and protocols", "why_tests_cant": "unknown names are an infinite set", "anchors": ["lib/acltk/aclObjects.py:PortUtil.getservbyname", "lib/acltk/aclObjects.py:PortUtil.services"]}
{"id": "C53", "title": "Port groups keep their port numbers", "statement": "A port-object line of a port group yields a member carrying the written port or range, so different ports yield different members. (Violated: 'port-object eq N' yields a port without number for every N, because the grammar does not name the node.)", "quantifier": "all port-object lines", "why_tests_cant": "tests only check that such lines parse; the claim ranges over all ports", "anchors": ["lib/acltk/acl.bnf: port_group_object", "lib/acltk/fwsm.py: _port_group_object_", "lib/acltk/aclSemantics.py: port_group_object"]}
{"id": "C54", "title": "Object NAT translates the object's address", "statement": "The real address of an object NAT rule is the address the network object of that name was defined with, also when the nat line stands in a second block of the same object. (Violated: the second block is a new, empty object.)", "quantifier": "all histories of object blocks", "why_tests_cant": "history dependent", "anchors": ["lib/acltk/aclSemantics.py:aclSemantics.object_type", "lib/acltk/aclObjects.py:ACLConfig.__init__"]}
{"id": "C55", "title": "ASA interface addresses", "statement": "An 'ip address A M' line in an ASA/FWSM interface block gives the interface that address. (Violated: without 'standby' the line is taken as an ignored line.)", "quantifier": "all interface blocks", "why_tests_cant": "grammar choice order", "anchors": ["lib/acltk/fwsm.bnf:interface", "lib/acltk/aclObjects.py:Interface.__init__"]}
{"id": "C56", "title": "Interface attributes", "statement": "nameif and description of an interface are those of its last such line, its addresses are those of all its address lines in order, and its access group of a direction is the one of the last line for it; the block is rejected iff an address is invalid or a trunk 'add' has no list before it.", "quantifier": "all interface blocks", "why_tests_cant": "blocks of unbounded length", "anchors": ["lib/acltk/aclObjects.py:Interface.__init__"]}
{"id": "C57", "title": "NAT interface names", "statement": "In nat (real,mapped) each of the two interface names is resolved to exactly the written interface. (Violated for names that start with 'any-'.)", "quantifier": "all interface names and following texts", "why_tests_cant": "prefix overlaps with the keyword", "anchors": ["lib/acltk/acl.bnf:nat_interface", "lib/acltk/fwsm.bnf:nat"]}
{"id": "C58", "title": "pfSense interface networks in rules", "statement": "A pfSense rule may name the network of any interface of the configuration by the tag of that interface. (Violated for optional interfaces with a description: the name is not found and the configuration is rejected.)", "quantifier": "all lists of interface elements", "why_tests_cant": "depends on every combination of interfaces and descriptions", "anchors": ["lib/acltk/pfsenseSemantics.py:pfsenseParser._parse_interfaces", "lib/acltk/pfsenseSemantics.py:pfsenseParser._parse_filter__rule"]}
{"id": "C59", "title": "pfSense rules stay with their interface", "statement": "A pfSense rule given for an interface tag belongs to the rule list named by the alias of that interface. (Violated when another interface is described by that tag.)", "quantifier": "all lists of interface elements", "why_tests_cant": "name clashes are data dependent", "anchors": ["lib/acltk/pfsenseSemantics.py:pfsenseParser._parse_interfaces", "lib/acltk/pfsenseSemantics.py:pfsenseParser._parse_filter__rule"]}
{"id": "C60", "title": "pfSense aliases denote what they list", "statement": "A host alias denotes exactly the listed addresses, a network alias exactly the addresses of the listed networks, a port alias the listed ports and ranges, a fetched URL table the addresses of its well-formed lines. (Violated for host aliases with a word that is not an address: they denote every address.)", "quantifier": "all alias elements and all addresses", "why_tests_cant": "all texts and all addresses", "anchors": ["lib/acltk/pfsenseSemantics.py:pfsenseParser._parse_aliases"]}
{"id": "C61", "title": "pfSense configurations are complete and in order", "statement": "An accepted pfSense configuration has exactly the groups, interfaces and rules of all alias, interface and rule elements, in document order; every rule is read with all aliases and interfaces, the last of equal names winning.", "quantifier": "all configurations", "why_tests_cant": "any number of sections in any order", "anchors": ["lib/acltk/pfsenseSemantics.py:pfsenseParser.parse", "lib/acltk/pfsenseSemantics.py:pfsenseParser._parse_filter"]}
{"id": "C62", "title": "Twice NAT sides and options", "statement": "A twice NAT command yields an entry whose real and mapped side have the written interfaces and nodes (the keyword interface standing for the interface of its side), whose options are exactly the written ones plus after-auto iff a position is given, and whose description is the last one; the FWSM form without an interface pair yields nothing.", "quantifier": "all twice NAT commands", "why_tests_cant": "all combinations of optional parts", "anchors": ["lib/acltk/fwsmSemantics.py:fwsmSemantics.nat", "lib/acltk/fwsmSemantics.py:fwsmSemantics.nat_src", "lib/acltk/fwsmSemantics.py:fwsmSemantics.nat_dst"]}
{"id": "C63", "title": "Configuration name", "statement": "config.hostname and config.domainname are those of the last hostname / domain-name statement, config.names are the name definitions in file order, config.version that of the last version line, and config.name is the fully qualified name: hostname.domainname, or just the host name if there is no domain. (Violated: without a domain statement the name ends in a dot, and so does every pfSense name, whose host name already contains the domain.)", "quantifier": "all parse results", "why_tests_cant": "any order and number of statements", "anchors": ["lib/acltk/aclObjects.py:ACLConfig.__init__", "lib/acltk/aclObjects.py:ACLConfig.name", "lib/acltk/pfsenseSemantics.py:_parse_system"]}
{"id": "C64", "title": "Address texts", "statement": "An address text is accepted exactly if it is a dotted quad (four decimal numbers 0-255 without leading zeros) or an IPv6 address in RFC 4291 notation (eight groups of one to four hex digits, at most one :: standing for at least one group, optionally a dotted quad for the last two groups); the resulting address is the one written, and any other text raises ValueError.", "quantifier": "all texts", "why_tests_cant": "unboundedly many texts", "anchors": ["lib/acltk/aclObjects.py:NetworkHost", "lib/acltk/aclObjects.py:Network"]}
{"id": "C65", "title": "Integers are read as they are written", "statement": "A text is read as an integer iff it consists of optional blanks, an optional sign, one to 4300 digits with at most one underscore between two of them, and optional blanks; the integer is the one the digits and the sign stand for. (Range bounds, port classes, separator rows and sort keys rely on it.)", "quantifier": "all ASCII texts", "why_tests_cant": "unbounded texts", "anchors": ["lib/acltk/aclObjects.py:PortRange.__init__", "lib/acltk/aclObjects.py:Protocol", "lib/acltk/pfsenseSemantics.py:pfsenseParser._parse_filter"]}
{"id": "C66", "title": "Access-list lines are read as they are written", "statement": "For every FWSM/ASA access-list line (extended, standard or webtype) made of the documented words - list name, action, protocol by name, number or group, hosts (any, host, interface, object, object-group, address and mask, IPv6 prefix, defined names), port conditions, ICMP type and code, and the options log, time-range and inactive - with any blanks between the words and at the end and either line end, parsing yields exactly the rule those words stand for and consumes exactly the line. References give the object that is defined under the name. (Preconditions: names used as networks are no keywords and do not begin with any-, no group name is ambiguous, range bounds ascend as texts; see C68.)", "quantifier": "all access-list lines, all definitions in force, all following text", "why_tests_cant": "unboundedly many lines and definitions; the PEG choice order and prefixes of names matter", "anchors": ["lib/acltk/acl.bnf:acl_host", "lib/acltk/acl.bnf:acl_port", "lib/acltk/fwsm.bnf:access_list_rule_extended", "lib/acltk/fwsm.bnf:access_list_rule_standard", "lib/acltk/fwsm.bnf:access_list_rule_webtype", "lib/acltk/aclSemantics.py:aclSemantics.acl_host", "lib/acltk/fwsmSemantics.py:fwsmSemantics.access_list"]}
{"id": "C67", "title": "Remarks belong to the rule that follows", "statement": "The remark lines immediately before a rule line are attached to that rule, all of them, in file order and with their exact text; the remark of a list is attached only to rules of that list. (Violated: the list name of a remark line is ignored, and with CR LF line ends the remark keeps the carriage return.)", "quantifier": "all sequences of remark lines before all rule lines", "why_tests_cant": "unbounded number and content of remarks", "anchors": ["lib/acltk/fwsm.bnf:access_list", "lib/acltk/fwsm.bnf:access_list_remark", "lib/acltk/fwsmSemantics.py:fwsmSemantics.access_list"]}
{"id": "C68", "title": "Every line the device accepts is read", "statement": "Every access-list line the device can show is accepted, and texts that are no such lines are refused with a parse error. (Violated: four of eight log levels are unknown; names beginning with any- cannot be networks; a network group with the name of a port or service group is misread; ascending port ranges such as 80-443 raise AssertionError; leading zeros raise ValueError; words run together are accepted.)", "quantifier": "all lines", "why_tests_cant": "unboundedly many lines", "anchors": ["lib/acltk/acl.bnf:acl_option_log_option", "lib/acltk/acl.bnf:acl_host", "lib/acltk/acl.bnf:acl_port", "lib/acltk/aclObjects.py:ACLNode.__init__", "lib/acltk/aclObjects.py:PortRange.__init__"]}
{"id": "C69", "title": "One rule per line", "statement": "Whatever the text: a rule returned for an access-list command comes from exactly one line (after the remark lines it carries); the list name, kind and action of the rule are the second, third and fourth word of that line; no other line is consumed; and a command that yields no rule is an ethertype line.", "quantifier": "all texts (also malformed ones), all definitions in force", "why_tests_cant": "adversarial texts; no finite set covers them", "anchors": ["lib/acltk/fwsm.bnf:access_list", "lib/acltk/fwsm.bnf:access_list_rule_ethertype", "lib/acltk/fwsmSemantics.py:fwsmSemantics.access_list"]}
{"id": "C70", "title": "No access-list rule of a configuration is lost or invented", "statement": "When the FWSM/ASA parser accepts a configuration text, the rules in its result, in order, are the rule lines of the text: every line `access-list ID extended|standard|webtype permit|deny ...` that starts at the beginning of a line gives exactly one rule with that list name, kind and action, in the order of the lines, and every rule comes from such a line (or from one indented by blanks, which happens only where the parser swallowed the blanks as a part of a port group or interface block). Without indented rule lines the correspondence is exact.", "quantifier": "all texts accepted by the parser, with all commands of the grammar in any order and number", "why_tests_cant": "any file, any interleaving of blocks, ignored commands, comments, malformed indented lines; no finite set of configurations covers them", "anchors": ["lib/acltk/fwsm.bnf:grammar", "lib/acltk/fwsm.bnf:command", "lib/acltk/fwsm.bnf:ignored", "lib/acltk/aclObjects.py:ACLConfig.fromString", "lib/acltk/fwsmSemantics.py"]}
{"id": "C71", "title": "Each definition is read as written", "statement": "A configuration command in the documented form (version, hostname, domain, interface block, name, time range, network object, service object, network/port/service/ICMP/protocol group with description and members, access rule with its remarks, access group, ignored command, comment, blank line), followed by anything but an indented line, is consumed exactly and yields exactly the item that its words stand for: addresses, masks, address ranges (as the greedy list of largest blocks), services, ports, members in their order, with references resolved to what was defined in front; and the parser afterwards knows exactly one more name. (NAT commands are not covered; `port-object eq` loses the port, C53, and interface addresses without standby are dropped, C55: the statement says what the parser gives for them.)", "quantifier": "all commands of these forms with any names, addresses, values, numbers of members, blanks and line ends; any definitions in force; any text behind", "why_tests_cant": "unboundedly many commands, member lists and contexts", "anchors": ["lib/acltk/fwsm.bnf:command", "lib/acltk/acl.bnf:object", "lib/acltk/acl.bnf:object_group_type", "lib/acltk/acl.bnf:time_range", "lib/acltk/acl.bnf:interface", "lib/acltk/fwsm.bnf:ignored", "lib/acltk/aclSemantics.py:aclSemantics", "lib/acltk/fwsmSemantics.py:fwsmSemantics"]}
{"id": "C72", "title": "A whole configuration is read as written", "statement": "A text that is a sequence of such commands is accepted to its end, and the result is the sequence of the items the commands stand for, in order, where each command may refer to any name introduced in front of it and a later definition of a name replaces (groups, names, time ranges) or does not replace (objects) the earlier one. What a text stands for is unambiguous.", "quantifier": "all sequences of commands of any length, in any order", "why_tests_cant": "unboundedly many files; the meaning of each line depends on all lines in front of it", "anchors": ["lib/acltk/fwsm.bnf:grammar", "lib/acltk/fwsm.bnf:command", "lib/acltk/fwsmObjects.py:fwsmConfig", "lib/acltk/aclSemantics.py:aclSemantics"]}
{"id": "C73", "title": "Filter texts mean what they say", "statement": "A CAF filter text whose words are those of a filter (set clauses with an optional id and source and destination addresses, parentheses, the set operators, comments between them), set off by white space, is accepted to its end, and running it selects exactly the rules and NAT objects that filter means.", "quantifier": "all filters of the runnable shapes, of any depth and length, all spellings of their addresses, all amounts of white space, all rule sets", "why_tests_cant": "unboundedly many texts and rule sets", "anchors": ["lib/acltk/caf.bnf:grammar", "lib/acltk/cafSemantics.py:RealCafSemantics", "lib/acltk/caf.py:cafParser"]}
{"id": "C74", "title": "No accepted filter text means something else than its words", "statement": "Every text the CAF parser accepts consists of the words of one filter in their order with nothing but white space between them; the result is that filter, so nothing is skipped, invented or reordered.", "quantifier": "all texts", "why_tests_cant": "all strings", "anchors": ["lib/acltk/caf.bnf:grammar", "lib/acltk/cafSemantics.py:RealCafSemantics"]}
{"id": "C75", "title": "Comments do not change a filter", "statement": "A comment may be put between any two words of a filter text without changing what it selects.", "quantifier": "all filters, all comments, all places", "why_tests_cant": "all texts and places", "anchors": ["lib/acltk/caf.bnf:comment", "lib/acltk/caf.bnf:set", "lib/acltk/cafSemantics.py:comment"]}
{"id": "C76", "title": "Malformed addresses in a filter are refused", "statement": "A filter text in which an address is not a well-formed address set off from the next word is refused.", "quantifier": "all texts", "why_tests_cant": "all strings", "anchors": ["lib/acltk/caf.bnf:network", "lib/acltk/caf.bnf:ip"]}
{"id": "C77", "title": "Filtering a configuration end to end", "statement": "Given a filter text and an FWSM/ASA configuration text, the program of examples/caf-filter.py delivers, without duplicates, exactly those access rules written in the configuration that the filter means, wherever they stand and whatever names, objects and groups they refer to.", "quantifier": "all filters and all configurations of the command forms of C71", "why_tests_cant": "pairs of arbitrary texts", "anchors": ["examples/caf-filter.py", "lib/acltk/cafObjects.py:Filter.run", "lib/acltk/aclObjects.py:ACLConfig.fromString"]}
{"id": "C78", "title": "Time ranges on several days", "statement": "A periodic entry of a time range that names several days of the week, as the configuration guide allows, is read with exactly those days.", "quantifier": "all lists of days and all texts", "why_tests_cant": "all texts and all lists of days", "anchors": ["lib/acltk/acl.bnf:time_range_object", "lib/acltk/aclSemantics.py:time_range_object"]}
{"id": "C79", "title": "The NAT table of a configuration text", "statement": "The NAT table of an FWSM/ASA configuration text lists the twice NAT commands without a position, then the NAT entries of the network objects, then the twice NAT commands marked after-auto or after-object, each in the order of the text and with the interfaces, addresses, services, options and description written, and nothing else.", "quantifier": "all configurations of the command forms of C71", "why_tests_cant": "all texts and all tables of names they define", "anchors": ["lib/acltk/fwsm.bnf:nat", "lib/acltk/fwsm.bnf:object_nat", "lib/acltk/fwsmSemantics.py:nat", "lib/acltk/aclObjects.py:ACLConfig.fromString"]}
{"id": "C80", "title": "IOS configurations are read as written", "statement": "A configuration text made of IOS commands (version, hostname, domain, interfaces, object groups, numbered, named and IPv6 access lists, routes, banners and the commands that are skipped) is accepted up to its end or to `line` or `end`, and the result is, command by command and in order, what the commands say: every rule with its list, mode, protocol, addresses, ports, remarks and options, every route with network and gateway; nothing behind `line` or `end` changes it.", "quantifier": "all texts made of the command forms of the specification, in any order and number, with any blanks between words", "why_tests_cant": "all texts, and the state one command leaves for the next", "anchors": ["lib/acltk/ios.bnf", "lib/acltk/iosSemantics.py", "lib/acltk/iosObjects.py:iosConfig._parse"]}
{"id": "C81", "title": "Numbers of IOS access lists", "statement": "Every numbered access list of the device is read: standard lists have the numbers 1-99 and 1300-1999, extended lists 100-199 and 2000-2699.", "quantifier": "all list numbers and all rules", "why_tests_cant": "all texts behind any commands", "anchors": ["lib/acltk/ios.bnf:access_list_ip_standard_id", "lib/acltk/ios.bnf:access_list_ip_extended_id"]}
{"id": "C82", "title": "Static routes of an IOS configuration", "statement": "Every static route of the configuration text is recorded with its network and gateway, in the order of the text, and attached exactly to the interface it names, or to the interfaces whose networks contain its gateway.", "quantifier": "all configuration texts of the command forms of C80", "why_tests_cant": "all texts and all sets of interfaces", "anchors": ["lib/acltk/iosSemantics.py:ip_route", "lib/acltk/iosObjects.py:iosConfig.__init__", "lib/acltk/ios.bnf:ip_route"]}
{"id": "C83", "title": "Filtering an IOS configuration end to end", "statement": "Given a filter text and an IOS configuration text, running the filter on the rules of the configuration delivers, without duplicates, exactly those rules of numbered, named and IPv6 lists written in the configuration that the filter means.", "quantifier": "all filters and all configurations of the command forms of C80", "why_tests_cant": "pairs of arbitrary texts", "anchors": ["examples/caf-filter.py", "lib/acltk/cafObjects.py:Filter.run", "lib/acltk/iosObjects.py:iosConfig"]}
{"id": "C84", "title": "Remarks of IOS lists", "statement": "Every remark of a numbered access list is kept with the rule it precedes, wherever in the list it stands.", "quantifier": "all lists and remarks", "why_tests_cant": "all texts behind any commands", "anchors": ["lib/acltk/ios.bnf:access_list_remark", "lib/acltk/iosSemantics.py"]}
{"id": "C85", "title": "Where access lists are used on interfaces", "statement": "The table of access groups of an IOS configuration lists under each access list name, in the order of the text, exactly the interfaces that use the list with `ip access-group` or `ipv6 traffic-filter`, with the direction written.", "quantifier": "all configuration texts of the command forms of C80 and all names", "why_tests_cant": "all texts and all sets of interfaces", "anchors": ["lib/acltk/aclObjects.py:Interface", "lib/acltk/aclObjects.py:ACLConfig.__init__", "lib/acltk/iosObjects.py:iosConfig"]}
{"id": "C86", "title": "The kind of a configuration is found from its text", "statement": "ACLConfig.fromString reads a text of FWSM/ASA commands as an FWSM configuration, a text of IOS commands as an IOS configuration, both with exactly the items the commands stand for, and leaves XML to the pfSense parser.", "quantifier": "all texts of the command forms of C72 and C80, all texts that begin with `<`", "why_tests_cant": "the parsers are tried one after the other, so every text of one kind has to be refused by the parsers in front", "anchors": ["lib/acltk/aclObjects.py:ACLConfig._parse", "lib/acltk/aclObjects.py:ACLConfig.fromString", "lib/acltk/fwsm.bnf", "lib/acltk/ios.bnf"]}
{"id": "C87", "title": "Filtering a configuration of either kind", "statement": "examples/caf-filter.py, which finds out the kind of the configuration itself, delivers for a filter and an FWSM configuration, or an IOS configuration with a version line or a rule, exactly the rules the filter means, each once.", "quantifier": "all filter texts of the forms of C73 and all configuration texts of the command forms of C72 and C80", "why_tests_cant": "all filters, all configurations", "anchors": ["examples/caf-filter.py", "lib/acltk/aclObjects.py:ACLConfig.fromPath", "lib/acltk/cafObjects.py:cafBlock"]}
{"id": "C88", "title": "config.filter selects rules and NAT entries of a text", "statement": "ACLConfig.filter with a filter text, on a configuration text loaded by ACLConfig.fromFile, delivers exactly the access rules the filter means and the NAT entries (object NAT and twice NAT, before and after) of which the real or the mapped side is meant, each once.", "quantifier": "all filter texts of the forms of C73 and all configuration texts of the command forms of C72 and C80", "why_tests_cant": "all filters, all configurations", "anchors": ["examples/render/static.py", "lib/acltk/aclObjects.py:ACLConfig.filter", "lib/acltk/aclObjects.py:NATObject.__and__"]}
{"id": "C89", "title": "Filtering a pfSense configuration", "statement": "For a pfSense or OPNsense XML text that is accepted, loading it with the kind detected and running a filter text on it selects exactly the rule elements whose interface list, source and destination (aliases and interface networks resolved) are meant by the filter, each once; ACLConfig.filter gives the same set. A text beginning with `<` that the XML reader or the pfSense parser refuses is refused.", "quantifier": "all filter texts of the forms of C73, all XML trees that are accepted, all XML readers", "why_tests_cant": "all filters, all configurations", "anchors": ["lib/acltk/pfsenseSemantics.py:pfsenseParser.parse", "lib/acltk/pfsenseObjects.py:pfsenseConfig._parse", "lib/acltk/aclObjects.py:ACLConfig.filter"]}
{"id": "C90", "title": "The page of a filtered configuration", "statement": "Completing the result of ACLConfig.filter on a configuration text by ACLConfig.resolve, as examples/render/static.py does, never raises and gives exactly the selected rules and NAT entries, what they name, and what that refers to, in whatever order sets are iterated.", "quantifier": "all filter texts of the forms of C73, all configuration texts of the command forms of C72 and C80 and all pfSense texts of C89, all iteration orders", "why_tests_cant": "all filters, all configurations, all set iteration orders", "anchors": ["examples/render/static.py", "lib/acltk/aclObjects.py:ACLConfig.resolve", "lib/acltk/aclObjects.py:ACLConfig.filter"]}
{"id": "C91", "title": "No rule of an IOS configuration text is lost or invented", "statement": "Whenever ACLConfig.fromFile accepts a text as an IOS configuration, the rules of the configuration are, by list name and action and in order, exactly the rule lines of the text: `access-list N permit|deny ...` lines, and the `permit`/`deny` lines (with or without a number or `sequence N`) below `ip access-list standard|extended NAME` and `ipv6 access-list NAME`.", "quantifier": "all texts that are accepted, whatever commands they are made of", "why_tests_cant": "all texts: every way in which the grammar could skip, join or split lines", "anchors": ["lib/acltk/ios.bnf", "lib/acltk/iosSemantics.py:iosSemantics", "lib/acltk/iosObjects.py:iosConfig.__init__"]}
{"id": "C92", "title": "Expanding groups does not change what a filter selects", "statement": "Calling ACLConfig.expand before ACLConfig.filter (as examples/render does on request) changes neither the rules nor the NAT entries that a filter selects, in whatever order the groups are expanded; expand itself never raises for groups that do not contain themselves.", "quantifier": "all filters, all configurations with acyclic groups, all orders of expansion", "why_tests_cant": "all filters, all nestings and sharings of groups, all orders", "anchors": ["lib/acltk/aclObjects.py:ACLConfig.expand", "lib/acltk/aclObjects.py:ACLConfig.filter", "lib/acltk/aclObjects.py:NetworkGroup.expand", "examples/render/dynamic.py"]}
{"id": "C93", "title": "Filtering succeeds for whatever texts are accepted", "statement": "If the CAF parser accepts a filter text and ACLConfig.fromString accepts a configuration text (FWSM/ASA, IOS or pfSense), then running the filter on its rules, and ACLConfig.filter on the whole configuration, never raises (given enough stack) and delivers a set of rules and NAT entries of that configuration; unless an id is a pattern with degenerate brackets this is exactly what the words of the filter mean.", "quantifier": "all filter texts, all configuration texts, all detected kinds", "why_tests_cant": "ranges over all accepted texts, not only those that follow the documented syntax", "anchors": ["examples/caf-filter.py", "lib/acltk/cafObjects.py:cafBlock.run", "lib/acltk/aclObjects.py:ACLConfig.filter", "lib/acltk/aclObjects.py:ACLConfig.fromString"]}
{"id": "C94", "title": "The hosts of every accepted configuration are well formed", "statement": "Whatever FWSM/ASA, IOS or pfSense text is accepted, every host of its rules, groups or aliases, network objects and NAT entries has well-formed addresses and networks, objects list only addresses, networks and keywords, groups never contain themselves, and wildcards occur in IOS only; so comparing any two hosts of FWSM texts, any two of pfSense texts, or one of an FWSM and one of an IOS text, never raises.", "quantifier": "all accepted configuration texts, all hosts in them", "why_tests_cant": "invariant over all texts and all nesting of groups", "anchors": ["lib/acltk/aclSemantics.py", "lib/acltk/fwsmSemantics.py", "lib/acltk/iosSemantics.py", "lib/acltk/aclObjects.py:NetworkWildcard"]}
{"id": "C95", "title": "Configurations and filters from files", "statement": "ACLConfig.fromFile/fromPath and cafBlock.fromFile/fromPath decode exactly the files that hold a text in UTF-8, with one byte order mark in front or without, and then do what fromString does with that text; every other file (Latin-1, overlong forms, surrogates) raises UnicodeDecodeError whatever else is in it. Filtering never raises for any two files that are accepted, and a second byte order mark is not skipped.", "quantifier": "all sequences of bytes", "why_tests_cant": "ranges over all byte sequences, including malformed and overlong encodings", "anchors": ["lib/acltk/aclObjects.py:ACLConfig.fromFile", "lib/acltk/aclObjects.py:ACLConfig.fromPath", "lib/acltk/cafObjects.py:cafBlock.fromFile"]}
{"id": "C96", "title": "Exactly which host comparisons do not terminate", "statement": "`a & b` raises RecursionError under every recursion limit iff, going through what a consists of in the order written and for a wildcard through what b consists of, a pair of two wildcards is met before anything matches; in every other case it returns one and the same boolean under every large enough limit.", "quantifier": "all pairs of hosts, groups and objects of any nesting, all recursion limits", "why_tests_cant": "divergence cannot be tested, and the order of evaluation matters for all nestings", "anchors": ["lib/acltk/aclObjects.py:NetworkWildcard.__and__", "lib/acltk/aclObjects.py:NetworkGroup.__and__", "lib/acltk/aclObjects.py:NetworkObject.__and__"]}
{"id": "C97", "title": "The web application knows the configurations uploaded last", "statement": "After any sequence of requests to examples/render/dynamic.py, /show finds a configuration under a name iff a file holding a configuration of that name was posted to /add, and then it is the one posted last; / lists every such name once and no other. No other request (showing a page, with groups expanded or not, filtering, a refused upload) changes what any later request answers, and whoever uploads a configuration is sent to its page and finds it there.", "quantifier": "all finite sequences of requests, all uploaded files", "why_tests_cant": "ranges over all histories of requests", "anchors": ["examples/render/dynamic.py:add", "examples/render/dynamic.py:index", "examples/render/dynamic.py:show"]}
{"id": "C98", "title": "The page of /show shows what its filter selects", "statement": "/show with a configuration, a filter and options hands to the template the configuration, and the rules and NAT entries the filter selects in it completed to everything they refer to, the same entries with `exp` as without; without a filter nothing is selected, and a filter that is not accepted gives a warning and no selection. (Violated for IOS configurations when a selected rule belongs to a list an interface uses: there is a warning with the selection incomplete; and with `exp` for the keywords ANY, ANY4, ANY6 on objects with a domain name.)", "quantifier": "all configurations and filter texts, all arguments, all orders of set iteration", "why_tests_cant": "ranges over all texts and configurations", "anchors": ["examples/render/dynamic.py:show", "lib/acltk/aclObjects.py:ACLConfig.resolve", "lib/acltk/aclObjects.py:ACLConfig.filter"]}
{"id": "C99", "title": "A refused upload leads back to the index", "statement": "POSTing a file to /add that is not an accepted configuration stores nothing and redirects to the index. (Violated: fromFile raises ValueError, the handler catches TypeError, so the answer is a server error; no request is ever answered by a redirection to the index. That nothing is stored holds.)", "quantifier": "all uploaded files, all stores", "why_tests_cant": "ranges over all byte sequences that no parser accepts", "anchors": ["examples/render/dynamic.py:add", "lib/acltk/aclObjects.py:ACLConfig.fromFile"]}
{"id": "C100", "title": "The rules on a page keep their order and their numbers", "statement": "The access control list of a rendered page (static.jinja2) has, in the order of the configuration, exactly the rules to be shown: all without a filter, the selected ones with one, all with show_not_selected, those not selected marked as such. Each has the number R.P (the run of rules of one list it belongs to, and its position in that run) that it has on every page of that configuration, whatever the filter; and each stands below the head of its list with nothing but rules of its run between.", "quantifier": "all lists of rules, all ids, all selections", "why_tests_cant": "ranges over all configurations and filters; the numbering is kept in loop state that skipped rules must update too", "anchors": ["examples/render/tpl/static.jinja2", "examples/render/static.py", "examples/render/dynamic.py:show"]}
{"id": "C101", "title": "The sections of a page list exactly what is to be shown", "statement": "Each section of a rendered page (names, network and service objects, time ranges, the five kinds of groups) lists exactly the entries of the configuration that are selected or referred to from the selection (all without a filter or with show_not_selected, then marked), each under its name, sorted by name regardless of case, no name twice; names and NAT entries in the order of the configuration.", "quantifier": "all configurations whose tables agree with their objects, all selections completed by resolve", "why_tests_cant": "the sections open only if resolve added their label, which depends on every object of the closure", "anchors": ["examples/render/tpl/static.jinja2", "examples/render/static.py", "examples/render/dynamic.py:show", "lib/acltk/aclObjects.py:ACLConfig.resolve"]}
{"id": "C102", "title": "Every link of a page leads to an entry of that page", "statement": "Every link in a row of a rendered page, with any filter or none, leads to an anchor on that page. (Violated: links to interfaces, as soon as a filter is applied; links to a group that was defined again later.)", "quantifier": "all configurations, all selections completed by resolve, all rows", "why_tests_cant": "ranges over the closure of every selection", "anchors": ["examples/render/tpl/static.jinja2", "examples/render/static.py", "examples/render/dynamic.py:show", "lib/acltk/aclObjects.py:ACLConfig.resolve"]}
{"id": "C103", "title": "--sort only puts the members of groups in order", "statement": "static.py --sort either raises or puts the members of every network, service, port and protocol group in the order of their keys, each member as often as before; it changes nothing else: the entries of every section, what the filter selects and completes, and the links of every row (as a multiset) are those of the page without --sort. It raises exactly if some member of such a group has no key. (Violated: it is meant to work for every configuration that is read, but any group with a member 'port-object eq' makes it raise TypeError.)", "quantifier": "all configurations, all members of groups, all tables of services", "why_tests_cant": "ranges over all configurations and the order of all members", "anchors": ["examples/render/static.py", "lib/acltk/aclObjects.py:ACLNode.__lt__", "lib/acltk/aclObjects.py:Port.__lt__"]}
{"id": "C104", "title": "static.py writes the page of what its filter selects", "statement": "For every configuration file and filter file that are accepted, static.py (with any of --expand, --sort, --show-not-selected) writes a page that has, in the order of the file and with the numbers of C100, exactly the rules and NAT entries the filter selects (all without a filter; the others marked with --show-not-selected), and in its sections exactly what these refer to; with --sort the members of groups are sorted. If either file is refused nothing is written. Without --sort this is the page /show of the web application makes of the same configuration, filter and options. (Violated: nothing is written if a selected rule belongs to an IOS list that an interface uses, C44, or with --sort if a group member has no key, C103; with --expand the keywords ANY, ANY4, ANY6 may select other rules, C92.)", "quantifier": "all files, all filters, all combinations of options, all orders in which sets are iterated", "why_tests_cant": "ranges over all configuration and filter texts and the order of sets", "anchors": ["examples/render/static.py:main", "examples/render/dynamic.py:show", "examples/render/tpl/static.jinja2"]}
{"id": "C105", "title": "DOS line ends do not matter in configurations", "statement": "A configuration whose lines end (all or some of them) in \\r\\n is accepted exactly if the same configuration with \\n is, is found to be of the same kind, gives the same interfaces, names, objects, groups, rules, access groups, NAT entries and routes in the same order, and every filter selects the same rules and NAT entries from it. (Violated: descriptions, remarks and the version text keep the carriage return; a group whose description has no text raises AssertionError with \\n and is read with \\r\\n; an IOS banner motd without a delimiter is refused with \\n and accepted with \\r\\n.)", "quantifier": "all configuration texts without carriage returns, all ways to change some of their line ends, all filters", "why_tests_cant": "ranges over all texts and all positions of carriage returns in them, through every rule of both grammars", "anchors": ["lib/acltk/acl.bnf:NL", "lib/acltk/acl.bnf:TOEOL", "lib/acltk/fwsmObjects.py:fwsmConfig._parse", "lib/acltk/iosObjects.py:iosConfig._parse", "lib/acltk/aclObjects.py:ACLConfig.fromString"]}
{"id": "C106", "title": "DOS line ends do not matter in filters", "statement": "A CAF filter whose lines end (all or some of them) in \\r\\n is accepted exactly if the same filter with \\n is, and means the same; this includes comments that span lines.", "quantifier": "all filter texts without carriage returns, all ways to change some of their line ends", "why_tests_cant": "ranges over all filter texts of any depth and all positions of carriage returns in them", "anchors": ["lib/acltk/caf.bnf", "lib/acltk/cafObjects.py:cafBlock._parse"]}
{"id": "C107", "title": "A reference means the definition in force where it stands", "statement": "In a parsed FWSM/ASA configuration every object, group, time range and service that a rule, group member or NAT entry refers to is one that the configuration defines in front of the reference, with the contents it was defined with: the first definition of that name for objects, the last one in front of the reference for groups and time ranges; a later redefinition does not change what an earlier element refers to. The real source of the NAT entry of a network object is the object of the same block. Distinct definitions are distinct objects.", "quantifier": "all texts the parser accepts, all elements of the result, all references in them", "why_tests_cant": "ranges over all sequences of definitions, redefinitions and references", "anchors": ["lib/acltk/aclSemantics.py:aclSemantics._learn", "lib/acltk/aclSemantics.py:aclSemantics.object_type", "lib/acltk/aclSemantics.py:aclSemantics.object_group_type", "lib/acltk/fwsmSemantics.py:fwsmSemantics.nat"]}
{"id": "C108", "title": "The page of every accepted FWSM/ASA text is complete and its links lead somewhere", "statement": "For every FWSM/ASA text that is accepted, and every filter, static.py without --expand writes a page (with --sort: unless some group member has no sort key) that has the rules in the order of the text, the NAT entries and, under each name, the object the text defines under it (of several definitions of a network object the first, of the other kinds the last); of these exactly what the filter selects and what that refers to, directly or through groups; and every link on the page, but those to interfaces, has its anchor on the page. Nothing has to be assumed of the objects beyond their being those of the text. The condition on the text is exact: what rules, NAT entries and listed groups refer to is what is listed under its name if and only if every definition they refer to is the one that is kept. (Violated otherwise, where a name is defined again after it has been used, C102.)", "quantifier": "all texts the parser accepts in which what is referred to is the definition that is kept (in particular those in which no name of a kind is defined twice), all filters, all options but --expand, all orders in which sets are iterated", "why_tests_cant": "ranges over all configurations and their object graphs, all filters and the order of sets", "anchors": ["examples/render/static.py:main", "examples/render/tpl/static.jinja2", "lib/acltk/aclObjects.py:ACLConfig.__init__", "lib/acltk/aclObjects.py:ACLConfig.resolve", "lib/acltk/aclSemantics.py:aclSemantics.object_type"]}
{"id": "C109", "title": "acl-filter.py reports what remains", "statement": "For every configuration file that is accepted, examples/acl-filter.py prints how many rules are from any source to any destination, how many match 10.2.0.0/24 and 10.1.0.0/24 in the lists inside_in and outside_in, and the rules that match the latter only. (Violated: for every accepted file it prints the first number, which is right, and ends in AssertionError, because ACLRule has no parameters source and dest.)", "quantifier": "all files that are accepted", "why_tests_cant": "ranges over all configuration files", "anchors": ["examples/acl-filter.py:main", "lib/acltk/aclObjects.py:ACLRule.__init__", "lib/acltk/aclObjects.py:ACLRules.filter"]}
{"id": "C110", "title": "Requests at the same time, and crashes", "statement": "However the requests to the web application interleave, and at whatever moment it is looked at or killed, the requests answered so far have the answers they would have had one after the other, in an order that respects which request was answered before another arrived, and the shelf holds exactly what these requests stored. In particular whoever asks for a configuration after its upload was answered is shown that upload or a later one.", "quantifier": "all numbers of requests, all interleavings of their operations on the shelf, all moments", "why_tests_cant": "ranges over all schedules and crash points", "anchors": ["examples/render/dynamic.py:add", "examples/render/dynamic.py:index", "examples/render/dynamic.py:show"]}
{"id": "C111", "title": "The page of every accepted pfSense configuration is complete and its links lead somewhere", "statement": "For every pfSense configuration that is accepted, and every filter, static.py without --expand writes a page (with --sort: unless some group member has no sort key) that has the rules in the order of the configuration, under the name of each alias the last alias of that kind and name, the interfaces, and nothing else; of these exactly what the filter selects and what that refers to; every link on the page, but those to interfaces under a filter, has its anchor on the page. What a rule refers to by the name of an alias is the alias that is listed under that name. Nothing has to be assumed of the objects beyond their being those of the configuration.", "quantifier": "all XML trees the parser accepts in which every alias has a name, all filters, all options but --expand, all orders in which sets are iterated", "why_tests_cant": "ranges over all configurations, repeated aliases and references, all filters and the order of sets", "anchors": ["examples/render/static.py:main", "examples/render/tpl/static.jinja2", "lib/acltk/pfsenseSemantics.py:pfsenseParser.parse", "lib/acltk/aclObjects.py:ACLConfig.__init__", "lib/acltk/aclObjects.py:ACLConfig.resolve"]}
{"id": "C112", "title": "A reference of an IOS configuration means the definition in force where it stands", "statement": "In a parsed IOS configuration every group that a rule of a numbered, named or IPv6 list or a member of a group refers to is the last one of that name that the configuration defines in front of the reference, with the contents it was defined with; a later redefinition does not change what an earlier element refers to. IOS configurations define no network objects, service objects or time ranges, and nothing refers to one. Distinct definitions are distinct objects.", "quantifier": "all texts the parser accepts, all elements of the result, all references in them", "why_tests_cant": "ranges over all sequences of definitions, redefinitions and references", "anchors": ["lib/acltk/aclSemantics.py:aclSemantics._learn", "lib/acltk/aclSemantics.py:aclSemantics.object_group_type", "lib/acltk/iosSemantics.py", "lib/acltk/ios.bnf"]}
{"id": "C113", "title": "The page of every accepted IOS configuration is complete and its links lead somewhere", "statement": "For every IOS configuration that is accepted and settled — whatever its rules and groups refer to is the definition the configuration keeps, as it is whenever no group of a kind is defined twice — and every filter, static.py without --expand writes a page that has the rules in the order of the text, under each name of a group its last definition of that kind, the interfaces, and no NAT entries, names or objects; of these exactly what the filter selects and what that refers to; every link on the page, but those to interfaces, has its anchor on the page. Nothing is written exactly if the filter selects a rule of a list bound to an interface, or --sort meets a member without a sort key. The settled texts are exactly those whose named references are all listed.", "quantifier": "all IOS texts the parser accepts in which references are to kept definitions, all filters, all options but --expand, all orders in which sets are iterated", "why_tests_cant": "ranges over all texts, definitions, redefinitions and references, all filters and the order of sets", "anchors": ["examples/render/static.py:main", "examples/render/tpl/static.jinja2", "lib/acltk/iosObjects.py:iosConfig", "lib/acltk/iosSemantics.py", "lib/acltk/aclObjects.py:ACLConfig.__init__", "lib/acltk/aclObjects.py:ACLConfig.resolve"]}
{"id": "C114", "title": "--expand gives every group its leaves and the page stays complete", "statement": "For every configuration file that is accepted and whose references are to the definitions it keeps, ACLConfig.expand (static.py --expand) raises nothing, given enough stack; afterwards every listed group has, in order, its leaves as members — the members of nested groups of the same class in place of those, in network groups the addresses in place of network objects, in service groups services in place of service objects — and nothing else has changed. With --expand, static.py lists the same names, shows without a filter all of the configuration, and with a filter that has no keyword ANY, ANY4 or ANY6 (or any filter, if no network object of a group stands for all addresses) what the filter selects of the configuration as it is written, with everything that refers to; every link on the page, but those to interfaces, has its anchor. Nothing is written exactly if the filter selects a rule of a list bound to an interface, or --sort meets a member without a sort key.", "quantifier": "all FWSM/ASA, IOS and pfSense configurations the parsers accept in which references are to kept definitions, all nestings of groups, all filters, all other options, all orders in which sets are iterated", "why_tests_cant": "ranges over all texts, all nestings and sharings of groups to any depth, all filters and the order of sets", "anchors": ["examples/render/static.py:main", "lib/acltk/aclObjects.py:ACLConfig.expand", "lib/acltk/aclObjects.py:_Group.expand", "lib/acltk/aclObjects.py:NetworkGroup.expand", "lib/acltk/aclObjects.py:ServiceGroup.expand", "examples/render/tpl/static.jinja2"]}
{"id": "C115", "title": "A cell of a page says what it shows", "statement": "On a page the cell of a host of a rule, group or network object is read as exactly that host: an address or network as a user would type it (reading it back with ip_address or ip_network gives the same), any, any4, any6, a wildcard, or a link to the group, object or interface of that name; two hosts with the same cell are the same address, network or wildcard, or groups, objects or interfaces of the same name. The cell of a port is read as exactly that port. (Violated for ports: two different ranges of services with a hyphen in their names have the same cell, and a member port-object eq is shown as eq None.)", "quantifier": "all hosts of all accepted FWSM/ASA and IOS texts and pfSense configurations, all ports of words, with and without a name for the address", "why_tests_cant": "all addresses, prefix lengths and names, and all pairs of them", "anchors": ["examples/render/tpl/static.jinja2:host", "examples/render/tpl/static.jinja2:port", "lib/acltk/aclObjects.py:NetworkHost", "lib/acltk/aclObjects.py:Network", "lib/acltk/aclObjects.py:NetworkWildcard", "lib/acltk/aclObjects.py:PortRange"]}
{"id": "C116", "title": "The row of a rule says what the rule allows", "statement": "In the table of rules of a page, the row of a rule of a parsed FWSM/ASA configuration is read as exactly that rule: its mode, its protocol (or group or service by name), source and destination hosts, source and destination ports, icmp type and code, whether it is inactive, whether it is logged, and its time range by name. Two rules with equal rows agree in all of these. (Violated: the icmp code is printed nowhere, the icmp type only for the protocol icmp and not for icmp6, and the destination port of a rule of the protocol icmp, which the parser accepts, is not printed.)", "quantifier": "all rules of all accepted FWSM/ASA texts, and all pairs of them; all names of objects; with and without names for the addresses", "why_tests_cant": "all rules and pairs of rules", "anchors": ["examples/render/tpl/static.jinja2:rules", "examples/render/tpl/static.jinja2:port", "examples/render/tpl/static.jinja2:protocol", "examples/render/tpl/static.jinja2:icmp", "examples/render/tpl/static.jinja2:options", "lib/acltk/aclObjects.py:ACLRule", "lib/acltk/aclObjects.py:ICMP"]}
{"id": "C117", "title": "The row of an IOS rule says what the rule allows", "statement": "In the table of rules of a page, the row of a rule of a parsed IOS configuration - of a numbered, named or IPv6 list - is read as exactly that rule: its mode, protocol, source and destination hosts (with wildcards), ports, icmp type and code, and its options with their values. Two rules with equal rows agree in all of these. (Violated: the icmp code is printed nowhere, the icmp type only for the protocol icmp and not for icmp6, the destination port of a rule of the protocol icmp is not printed, and an option with the value None looks like one without a value.)", "quantifier": "all rules of all accepted IOS texts, and all pairs of them; all names of objects", "why_tests_cant": "all rules and pairs of rules", "anchors": ["examples/render/tpl/static.jinja2:rules", "examples/render/tpl/static.jinja2:options", "lib/acltk/iosSemantics.py:ip_access_list", "lib/acltk/iosSemantics.py:ipv6_access_list_seq", "lib/acltk/aclObjects.py:ACLRule"]}
{"id": "C118", "title": "The sections of services, ports, icmp types and protocols say what the definitions contain", "statement": "On a page of a parsed configuration, every service object, service group, port group, icmp group and protocol group has a section under its own name, and the section is read as exactly that definition: for services the protocol, source and destination ports, icmp type and code; for groups the members in order, nested groups and objects by name. Two definitions with equal sections have the same name and the same contents.", "quantifier": "all definitions of all accepted FWSM/ASA and IOS texts, and all pairs of them; all names of objects", "why_tests_cant": "all definitions and pairs of definitions", "anchors": ["examples/render/tpl/static.jinja2:icmp_type_and_code", "examples/render/tpl/static.jinja2:Service Objects", "examples/render/tpl/static.jinja2:Service Groups", "examples/render/tpl/static.jinja2:Port Groups", "lib/acltk/aclObjects.py:Service", "lib/acltk/aclSemantics.py:service_group_object"]}
{"id": "C119", "title": "The row of a pfSense rule says what the rule allows", "statement": "In the table of rules of a page, the row of a rule of a parsed pfSense configuration is read as exactly that rule: its mode, protocol, source and destination hosts, ports, icmp type, whether it is inactive, whether it is logged, and its tracker. Two rules with equal rows agree in all of these. (Violated: the destination port of a rule of the protocol icmp is not printed, nor the icmp type of a rule of another protocol.)", "quantifier": "all rules of all accepted pfSense configurations, and all pairs of them", "why_tests_cant": "all rules and pairs of rules", "anchors": ["examples/render/tpl/static.jinja2:rules", "examples/render/tpl/static.jinja2:options", "lib/acltk/pfsenseSemantics.py:_parse_filter__rule", "lib/acltk/aclObjects.py:ACLRule"]}
{"id": "C120", "title": "The rows of a NAT entry say what it translates", "statement": "In the table of NAT entries of a page, the rows of every NAT command and of the NAT line of every network object of an accepted configuration can be read, and are read as exactly that entry: the interface, source and destination of the real and of the mapped side, whether it is static or dynamic, the fallback to an interface and to IPv6, the options, the protocol and ports of its service, and its description. Two entries with equal rows agree in all of these. (Violated: the protocol of the service of the mapped side, and icmp types and codes of services, are not printed, so entries that differ in them have equal rows.)", "quantifier": "all NAT entries of all accepted FWSM/ASA texts, and all pairs of them; all names of addresses and objects", "why_tests_cant": "all entries and pairs of entries", "anchors": ["examples/render/tpl/static.jinja2:nat", "examples/render/tpl/static.jinja2:host", "examples/render/tpl/static.jinja2:port", "lib/acltk/fwsmSemantics.py:nat", "lib/acltk/aclSemantics.py:network_object_nat", "lib/acltk/aclObjects.py:NATObject"]}
{"id": "C121", "title": "The sections of names, network objects and network groups say what the definitions contain", "statement": "On a page of a parsed configuration, every name, network object and network group has a section, and the section is read as exactly that definition: its kind, its name, its addresses, networks, keywords, objects and groups in order, and its description. Two definitions with equal sections are of the same kind and have the same name, the same contents and the same description.", "quantifier": "all names, network objects and network groups of all accepted FWSM/ASA texts, all network groups of all accepted IOS texts, and all pairs of them; all names of addresses", "why_tests_cant": "all definitions and pairs of definitions", "anchors": ["examples/render/tpl/static.jinja2:Name Aliases", "examples/render/tpl/static.jinja2:Network Objects", "examples/render/tpl/static.jinja2:Network Groups", "examples/render/tpl/static.jinja2:host", "lib/acltk/aclObjects.py:NetworkObject", "lib/acltk/aclObjects.py:NetworkGroup"]}
{"id": "C122", "title": "The section of a time range says what the time range contains", "statement": "On a page of a parsed configuration, the section of a time range is read as exactly that time range: its name, and in order its absolute ranges with start and end (hour, minute, day, month, year, or none) and its periodic ranges with days, time, end day and end time. No row can be read as two ranges; two time ranges with equal sections have the same name and the same ranges.", "quantifier": "all time ranges of all accepted FWSM/ASA texts and all pairs of them; all readings of a section", "why_tests_cant": "all times, dates and lists of days, and all pairs of them", "anchors": ["examples/render/tpl/static.jinja2:Time Ranges", "lib/acltk/aclObjects.py:TimeRangeObjectAbsolute", "lib/acltk/aclObjects.py:TimeRangeObjectPeriodic", "lib/acltk/aclSemantics.py:time_range_object"]}
{"id": "C123", "title": "The section of an interface says what the interface contains", "statement": "On a page of a parsed configuration, the section of an interface can be read, and only as exactly that interface: its name, its nameif and description (none and empty are the same), its addresses with their prefix lengths in order, the mode of its switch port, the VLANs and ranges of VLANs allowed on its trunk in order, and the names and directions of its access groups. Interfaces with equal sections agree in name, addresses and prefix lengths, switch port and access groups.", "quantifier": "all interfaces of all accepted FWSM/ASA and IOS texts; all readings of a section; all pairs of interfaces of accepted IOS texts", "why_tests_cant": "all addresses, all lists of VLANs and all pairs of interfaces", "anchors": ["examples/render/tpl/static.jinja2:Interface Configuration", "examples/render/tpl/static.jinja2:vlans", "lib/acltk/aclObjects.py:Interface", "lib/acltk/aclObjects.py:InterfaceAddress", "lib/acltk/aclObjects.py:Switchport", "lib/acltk/aclObjects.py:VLANRange"]}
{"id": "C124", "title": "The row of a route says where the route leads", "statement": "On a page of a parsed IOS configuration, the row of a route in the section of an interface can be read, and only as the network of the route and its gateway: an address, or an interface by name. Routes with equal rows lead to the same network by the same address or by interfaces of the same name.", "quantifier": "all routes of all accepted IOS texts and all pairs of them; all readings of a row", "why_tests_cant": "all networks and gateways and all pairs of them", "anchors": ["examples/render/tpl/static.jinja2:Interface Configuration", "lib/acltk/iosObjects.py:Route", "lib/acltk/iosSemantics.py:ip_route", "lib/acltk/aclObjects.py:Interface"]}
