# Formal model of commonism/acltk — design

acltk parses Cisco ASA/FWSM, IOS and pfSense configurations into an object graph and
filters that graph with a small filter language (CAF).  `/verif/lean` is a Lean 4 model of
that code, with theorems about it.

* `Verif/Model/*.lean` — the code, function by function; every definition cites file and lines.
* `Verif/Spec/*.lean` — what the properties mean, written without the model's functions
  (address sets as predicates, globs as string splits, lines as sequences of words, …).
* `Verif/Lemmas/*.lean` — auxiliary results.
* `Verif/Props/*.lean` — the theorems `C..`, and beside each a concrete case
  (`*_sample` or `example`) that meets its hypotheses.

## What is modelled

| area | source | Model/ |
|---|---|---|
| address and network texts, `ip_address`, `ip_network`, `int(str)` | CPython 3.11 `ipaddress.py`; `aclObjects.py` 346-642 | `Addr`, `Text`, `Mask`, `Py` |
| `summarize_address_range`, `collapse_addresses`, wildcard enumeration | `ipaddress.py`; `aclObjects.py` 433-642 | `Summarize`, `Collapse` |
| host matching (`__and__` of all host classes, `cafNetworkAny*`) | `aclObjects.py` 346-678, `cafObjects.py` 125-173 | `Host`, `IosHost` |
| groups: expand, collapse, sort, also with sharing | `aclObjects.py` 233-325, 583-757, 902-970 | `Group`, `GroupHeap`, `PageExpand`, `Sort` |
| cells of a page: macros `host` and `port` | `examples/render/tpl/static.jinja2` 1-46 | `Cells` |
| rows of rules: macros `port`, `protocol`, `icmp`, `options` | `examples/render/tpl/static.jinja2` 36-104, 846-864 | `Row`, `IosRow`, `PfRow` |
| sections of names, network objects and network groups | `examples/render/tpl/static.jinja2` 303-410 | `NetSection` |
| rows of NAT entries | `examples/render/tpl/static.jinja2` 713-764 | `NatRow` |
| sections of services, ports, icmp types and protocols | `examples/render/tpl/static.jinja2` 74-76, 416-640 | `Section` |
| rules, NAT objects, id patterns | `aclObjects.py` 128-230, 1021-1169, `fnmatch.py` | `Fnmatch`, `Rule` |
| CAF run time and semantics, comments | `cafObjects.py`, `cafSemantics.py`, `caf.bnf` | `Caf`, `CafComment` |
| the CAF language from the text; `examples/caf-filter.py` | `caf.bnf`, generated `caf.py`, `examples/caf-filter.py` | `CafText`, `CafFilter` |
| configuration building, lookups, resolve, detection | `aclObjects.py` 1190-1380, `iosObjects.py`, `aclSemantics.py` | `Config`, `Dict`, `Learn`, `Lookup`, `Resolve`, `Detect` |
| ports, names, range checks | `aclObjects.py` 760-970, `aclSemantics.py` 209-232, `portutil` | `Port`, `PortUtil` |
| interfaces, banners | `aclObjects.py` 40-101, `iosSemantics.py`, `fwsmSemantics.py` | `Iface`, `FwsmIface`, `Banner` |
| NAT commands | `fwsmSemantics.py`, `aclSemantics.py` | `Nat` |
| pfSense | `pfsenseSemantics.py`, `pfsenseObjects.py` | `Pfsense` |
| PEG machine; access-list lines; whole FWSM/ASA files from the text | `acl.bnf`, `fwsm.bnf`, `aclSemantics.py`, `fwsmSemantics.py`, generated `fwsm.py` | `Peg`, `AclText`, `FwsmText` |
| whole IOS files from the text | `ios.bnf`, `iosSemantics.py`, `iosObjects.py`, generated `ios.py` | `IosText`, `IosConfig` |
| detection of the kind of a text, whole configurations filtered, the page of `examples/render` | `aclObjects.py` 1258-1345, `examples/` | `DetectText`, `ConfigFilter`, `PfFilter`, `Render`, `ExpandFilter` |
| files, and the web application | `aclObjects.py` 1255-1256, 1339-1345, `examples/render/dynamic.py` | `FileText`, `Web` (requests, answers, the shelf; not Flask, the templates' HTML), `WebConc` (interleaved requests; one operation on the shelf is atomic) |
| the page | `examples/render/tpl/static.jinja2`, `examples/render/static.py` 53-57 (`--sort`) | `Page` (rows, their numbers and classes, sections, anchors and links; not the HTML, the texts of the cells, the access-group links of interfaces; `sort` by an arbitrary lower-case function; which class a member of a group is, is an input of `--sort`) |
| the program | `examples/render/static.py` | `Static` (from bytes and options to the page; not: the text of the filter on the page, the file system, exceptions while rendering) |
| the program `examples/acl-filter.py` | `examples/acl-filter.py` | `AclFilter` (not: the texts of the rules printed at the end) |
| files (`utf-8-sig`) | `aclObjects.py` 1279-1289, `cafObjects.py` 52-62, `encodings/utf_8_sig.py` | `FileText` |

Python exceptions are values (`Except PyErr α`; `.raise` in the PEG machine).  Unbounded recursion is modelled with a
frame budget: running out is `RecursionError`.  Objects that Python compares by identity carry an
identity number.  Iteration over a `set` is an arbitrary schedule the theorems quantify over.

## How properties are stated and what "partial" means

Where the unchanged code does not have the property, its negation is proved with a concrete
witness (`*_violated*`), and the strongest true statement found is proved under a `_partial`
name; such a claim is listed as `partial` in MANIFEST.json with the reason.  Almost all
partial claims are of this kind: the English property is what a user relies on, and the code
does not have it.

## Properties

| id | property | Model/ | how it is proved, or why it fails | status |
|---|---|---|---|---|
| C01 | Host matching is address-set intersection | Host | `meet` on host trees; induction on the frame budget, network containment reduced to intervals | proved |
| C02 | Host matching is symmetric | Host | corollary of C01, the empty group spelled out | proved |
| C03 | IPv4 wildcard match is exact | Host | bitwise: `Nat.testBit` extensionality, explicit witness address | proved |
| C04 | Wildcard matching never crosses IP versions | Host | false of the code: witness; true outside ::/96 | partial |
| C05 | Every host comparison terminates | Host | false for wildcard & wildcard (divergence for every budget); otherwise the sum of the depths suffices | partial |
| C06 | ANY / ANY4 / ANY6 only select literal any rules | Host | induction over the host tree | proved |
| C07 | A filter rule matches by id, source and destination only | Rule | case analysis against a separate id-compatibility relation | proved |
| C08 | Id compatibility | Rule | case analysis over the forms of both ids | proved |
| C09 | fnmatch patterns have glob semantics | Fnmatch | leftmost greedy matching of the fixed chunks between stars is complete (the atomic groups lose nothing) | proved |
| C10 | ACLRules.filter returns exactly the matching rules | Rule | induction over the rule list | proved |
| C11 | CAF expressions denote set algebra | Caf | structural induction over the expression | proved |
| C12 | CAF operator precedence and associativity | Caf | both reduction loops equal folds; relation to an unambiguous grammar derivation | proved |
| C13 | CAF ip clauses accumulate by direction | Caf | from C01 on the groups the clauses build | proved |
| C14 | CAF id in front of a parenthesis is honoured | Caf | false: witnesses; true without an id or with several items | partial |
| C15 | CAF filtering never fails | Caf | C05 lifted to filters, which hold no wildcards | proved |
| C16 | CAF comments end at the first */ | CafComment | leftmost, greedy, backtracking match of the comment expression; false for bodies ending in stars, exact otherwise | partial |
| C17 | NAT entries match on their real or their mapped side | Rule | case analysis over the nodes present | proved |
| C18 | Config.filter is the union over rules and NAT | Rule | from C10 and C17 | proved |
| C19 | Network(address, mask) denotes the addresses that agree on the mask | Mask, Addr | mask-shape lemmas for prefix, netmask and hostmask | proved |
| C20 | IOS address/wildcard pairs denote the wildcard set | IosHost | false for wildcards shaped like a netmask; exact otherwise | partial |
| C21 | Range objects cover exactly the range | Summarize | loop invariant of `summarize_address_range` | proved |
| C22 | Wildcard enumeration is exact | Summarize | work-list measure and covering invariant | proved |
| C23 | Group expansion keeps exactly the leaves | Group | structural induction; flattening specification | proved |
| C24 | Expansion does not change matching | Group | from C01 and C23 | proved |
| C25 | Config.expand is order independent | GroupHeap | groups as a heap with sharing; rank induction, any schedule | proved |
| C26 | Collapsing an IPv4 group preserves its addresses | Collapse | the result equals the maximal blocks inside the union (canonical form) | proved |
| C27 | Collapse keeps or rejects, never loses | Collapse | false: witnesses for IPv6, mixed versions, any; true for IPv4 networks | partial |
| C28 | Sorting a group is a stable permutation | Sort | stable merge sort against permutation + order + stability | proved |
| C29 | Sorted network groups list named members first | Sort | order on the keys | proved |
| C30 | sort(insitu=False) leaves the group alone and returns a sorted copy | Sort | false for service, protocol and all-network groups; true for the rest | partial |
| C31 | Port comparison is a total order | Port | lexicographic order on strings | proved |
| C32 | Equal ports hash equal | Port | false: identity hash; exact statement of what holds | partial |
| C33 | PortRange accepts exactly increasing ranges | Port | false for different numbers of digits; exact for equal ones | partial |
| C34 | Numeric fields are range checked | Port | digit strings, all four checks | proved |
| C35 | Parsed rules keep file order | Config | induction over the parse result | proved |
| C36 | Definition tables | Config | dictionary as a list of updates | proved |
| C37 | References and tables agree | Learn | history induction; false for redefinitions, exact binding for every history | partial |
| C38 | NAT sections | Config | induction over the parse result | proved |
| C39 | Access-group binding | Config | first match over interfaces, last write wins | proved |
| C40 | Name references resolve to the name written | Lookup | PEG token choice in descending order + nameguard/lookahead | proved |
| C41 | Auto-detection | Detect | case analysis over three arbitrary parsers | proved |
| C42 | IOS routes attach to the right interfaces | Config | fold over routes × interfaces | proved |
| C43 | resolve computes the reference closure in any order | Resolve | closure invariant for an arbitrary schedule, measure on undone items | proved |
| C44 | resolve works for every selected rule | Resolve | false (TypeError); exact condition for raising | partial |
| C45 | Switchport trunk lists accumulate | Iface | fold over trunk commands | proved |
| C46 | Banner text ends at the first delimiter | Banner | regular expression with a backreference; false for ^^C and non-ASCII delimiters | partial |
| C47 | pfSense rule translation | Pfsense | case analysis over the elements of a rule | proved |
| C48 | pfSense separators | Pfsense | specification by run and row number | proved |
| C49 | pfSense interfaces with a static address are accepted | Pfsense | false (IndexError); interfaces without a static address exact | partial |
| C50 | Object NAT keeps its port translation | Nat | false: both sides carry the real port; everything else of the command exact | partial |
| C51 | Twice NAT service orientation | Nat | false for dynamic NAT; static exact | partial |
| C52 | Service name lookup | PortUtil | first match in the table; false with a protocol argument | partial |
| C53 | Port groups keep their port numbers | Port | false: number dropped; ranges exact | partial |
| C54 | Object NAT translates the object's address | Nat, Learn | false when the nat line has its own block; exact within one block | partial |
| C55 | ASA interface addresses | FwsmIface | false without `standby`; exact with it | partial |
| C56 | Interface attributes | Iface | fold over the lines of the block, acceptance characterised | proved |
| C57 | NAT interface names | Lookup | false for names starting with `any-`; exact otherwise | partial |
| C58 | pfSense interface networks in rules | Pfsense | false for described optional interfaces | partial |
| C59 | pfSense rules stay with their interface | Pfsense | false when an interface is described by the tag of another one | partial |
| C60 | pfSense aliases denote what they list | Pfsense | false for host aliases with a word that is no address; others exact | partial |
| C61 | pfSense configurations are complete and in order | Pfsense | induction over the document | proved |
| C62 | Twice NAT sides and options | Nat | case analysis over the command | proved |
| C63 | Configuration name | Config | false: trailing dot, pfSense; scalars exact | partial |
| C64 | Address texts | Addr, Text | reader against the RFC 4291 grammar, both directions | proved |
| C65 | Integers are read as they are written | Py | `int(str)` against a grammar of integer texts | proved |
| C66 | Access-list lines are read as they are written | Peg, AclText | the PEG of one access-list line on every printed line (forward reading lemmas per word) | proved |
| C67 | Remarks belong to the rule that follows | AclText | remark closure; false for remarks of another list and CR LF | partial |
| C68 | Every line the device accepts is read | AclText | false: six families of witnesses | partial |
| C69 | One rule per line | AclText | inversion of the PEG: what any success consumed | proved |
| C70 | No access-list rule of a configuration is lost or invented | FwsmText | inversion of every command of the file grammar; the rule lines of the text equal the rules of the result | proved |
| C71 | Each definition is read as written | FwsmText | forward reading of every command form, state updates included | proved |
| C72 | A whole configuration is read as written | FwsmText | induction over the commands with the tables as state | proved |
| C73 | Filter texts mean what they say | CafText | forward reading of the words of every production, composed with C15 | proved |
| C74 | No accepted filter text means something else than its words | CafText | inversion of every production, for arbitrary nameguards | proved |
| C75 | Comments do not change a filter | CafText | C73 for both texts and invariance of the meaning under removal of comments; the property fails, with witnesses | partial |
| C76 | Malformed addresses in a filter are refused | CafText | fails, with a witness; C74 is what holds | partial |
| C77 | Filtering a configuration end to end | CafFilter | C73, C72, C35 composed | proved |
| C78 | Time ranges on several days | FwsmText | fails: no accepted text has a periodic entry with more than one day, and lines with two days are refused; single days are C71 | partial |
| C79 | The NAT table of a configuration text | CafFilter, FwsmText | C72 extended by the NAT commands, composed with C38; the meaning of the values is C61, C62 | proved |
| C80 | IOS configurations are read as written | IosText | a relation between texts and items command by command (IosSpec), the parser follows it; induction over the commands | proved |
| C81 | Numbers of IOS access lists | IosText | the lists that are read are part of C80; all other numbers are refused, so the property fails for 1400-1999 | partial |
| C82 | Static routes of an IOS configuration | IosConfig, Config | C80 and C42 composed, with an invariant over the commands for the interface a name refers to; fails for routes with further words or undefined interfaces | partial |
| C83 | Filtering an IOS configuration end to end | IosConfig | C73, C80, C35 composed | proved |
| C84 | Remarks of IOS lists | IosText | kept with the rule that follows; fails for remarks at the end of a list | partial |
| C85 | Where access lists are used on interfaces | IosConfig, Config | C80 and C39 composed | proved |
| C86 | The kind of a configuration is found from its text | DetectText, Detect, FwsmText, IosText | every line that begins at column 0 with no `a` begins a command of the FWSM parser, so a version line, a rule of a numbered list or a named list with entries is refused by it; then C72 and C80; fails for IOS texts without any of these | partial |
| C87 | Filtering a configuration of either kind | DetectText | C86, C77, C83 composed | proved |
| C88 | config.filter selects rules and NAT entries of a text | ConfigFilter, DetectText, Nat, Caf | C72, C73, C79 composed: the two runs of the filter, on the rules and on the NAT entries, and their union | proved |
| C89 | Filtering a pfSense configuration | PfFilter, Pfsense, DetectText, ConfigFilter | C86 (text beginning with `<`), C61 and C47 (the rules), C73 (the filter) composed | proved |
| C90 | The page of a filtered configuration | Render, ConfigFilter, Resolve, Config | C88 composed with C43 and C44; the table of access groups by C39 and C85 | partial |
| C91 | No rule of an IOS configuration text is lost or invented | IosText, IosLineLogic, IosLines | line-wise reading of the text specified on its own (IosLinesSpec); a Hoare logic over the position in the line for every parser of the grammar, induction over the commands | partial |
| C92 | Expanding groups does not change what a filter selects | GroupHeap, Groups, Caf, ExpandSpec | the relation `Expands` between a host before and after; same leaves and same group leaves (mutual induction); C25 (the heap of groups) gives `Expands`; C18 on both sides | partial |
| C93 | Filtering succeeds for whatever texts are accepted | the parsers, the detection, `cafBlock.run`/`cafOp.run` and `ACLConfig.filter` as in C74, C86, C88, C89 | from an accepted filter text the shape of its syntax tree (C74); running needs no condition on ids; from an accepted configuration text the ids and NAT sides (C94) | proved |
| C94 | The hosts of every accepted configuration are well formed | the parsers of C70-C91 | an invariant of the symbol tables kept by every command, and what it gives for the hosts built by each semantic action | proved |
| C95 | Configurations and filters from files | FileText (the UTF-8 decoder, `utf-8-sig`), DetectText, ConfigFilter, CafText | the decoder inverts Lean's own `String.utf8EncodeChar` (case analysis on the lead byte, `omega`); C93 for the texts | proved |
| C96 | Exactly which host comparisons do not terminate | Host | loops over members diverge at the first member that does not return False; from members to leaves by induction on the depth; C05 for everything but wildcards | proved |
| C97 | The web application knows the configurations uploaded last | Web (examples/render/dynamic.py: requests, answers, the shelf), FileText, Dict | induction on the sequence of requests from its end; C95 for what an upload is | proved |
| C98 | The page of /show shows what its filter selects | Web, ExpandFilter, Resolve, Render | C93 and C92 for the selection, C43 and C44 for its completion | partial |
| C99 | A refused upload leads back to the index | Web | case analysis; C95 | partial |
| C100 | The rules on a page keep their order and their numbers | Page (static.jinja2: the loop over the rules) | induction over the rules with the state of the loop | proved |
| C101 | The sections of a page list exactly what is to be shown | Page (the sections), Resolve | a named object of the closure brings the label of its section; membership in the sorted, filtered tables | proved |
| C102 | Every link of a page leads to an entry of that page | Page (the macros that make links), Resolve | each link comes from an object the row refers to, and the closure is closed under these | partial |
| C103 | --sort only puts the members of groups in order | Page (static.py --sort: sortAll), Sort, Config | pySorted is a sorted permutation or raises; invariant over the groups that only the order of members changed | partial |
| C104 | static.py writes the page of what its filter selects | Static (static.py: main), Web, Page | composition of C93, C92, C90, C100, C101, C103 along main; case analysis for the agreement with /show | partial |
| C105 | DOS line ends do not matter in configurations | FwsmText, IosText, DetectText, CafFilter, ConfigFilter, FileText | two-run simulation through every rule of both grammars: related positions give related outcomes; then the constructor and the filter do not look at what differs | partial |
| C106 | DOS line ends do not matter in filters | CafText | the same simulation, with white space skipped on both sides; induction on the nesting of the filter | proved |
| C107 | A reference means the definition in force where it stands | FwsmText (parser tables, all commands) | invariant over the commands read so far: the tables of the parser are the first/last definitions among the elements returned; every reference goes through a table | proved |
| C108 | The page of every accepted FWSM/ASA text is complete and its links lead somewhere | Static, Page, FwsmText, Resolve | the objects of a text are specified element by element (HeapSpec); with the invariant of C107 every reference is listed, so the hypotheses of C100–C104 hold if and only if every reference is to the definition that is kept; existence of such objects for every accepted text | partial |
| C109 | acl-filter.py reports what remains | AclFilter (examples/acl-filter.py) | evaluation of main on every accepted configuration; the count by the theorem that the rules of a configuration are those of the text | partial |
| C110 | Requests at the same time, and crashes | WebConc (the view functions as programs over the shelf, their interleavings) | invariant over the events: every unanswered request is at its start or has seen its configuration, and keys are never removed, so its last operation is its linearization point; the order of the answers | proved |
| C111 | The page of every accepted pfSense configuration is complete and its links lead somewhere | Static, Page, PfFilter, Pfsense, Resolve | the objects of a parse result are specified rule by rule (PfHeapSpec); every reference of an accepted rule is the last alias of its name (invariant of the alias tables), hence listed; the hypotheses of C100–C104 follow; existence of such objects for every result | partial |
| C112 | A reference of an IOS configuration means the definition in force where it stands | IosText (parser tables, all commands) | invariant over the commands read so far, as for C107; the elements of an IOS result are of the kinds of its grammar, so that no reference is to an object or a time range | proved |
| C113 | The page of every accepted IOS configuration is complete and its links lead somewhere | Static, Page, IosText, IosConfig, Resolve | the objects of a parse result are specified element by element and rule by rule (IosHeapSpec); by C112 a reference is the last definition in front of it, in a settled text the one that is kept; the hypotheses of C100–C104 follow; existence of such objects for every accepted text; the converse of settledness | partial |
| C114 | --expand gives every group its leaves and the page stays complete | PageExpand, GroupHeap, Static, Page | the groups of one class are a heap in the sense of C25 (every group gets its leaves, in whatever order); one class after the other keeps an invariant (`Partly`); a text refers backwards only (C107, C112), so no group contains itself; whatever an expanded object refers to was below the old one or is plain, so the hypotheses of C100–C104 stay true | partial |
| C115 | A cell of a page says what it shows | Cells (the macros host and port, the printing of addresses) | the text of an address or network is read back by the model of ipaddress (C19); the kinds of cells are told apart by slash, blank and link; C94 for the hosts of accepted texts | partial |
| C116 | The row of a rule says what the rule allows | Row (the row of a rule, macros port, protocol, icmp, options) | the kinds of port cells are told apart by blank and hyphen, two services in a range because no service is named like the end of another one behind a hyphen; the words of accepted rules by an invariant of the parser; hosts by C115 | partial |
| C117 | The row of an IOS rule says what the rule allows | IosRow (the row of an IOS rule, options as texts) | the columns by C116; the lines of the options are split at the first colon, which no keyword of the grammar has; the words of accepted rules by an invariant of the parser | partial |
| C118 | The sections of services, ports, icmp types and protocols say what the definitions contain | Section (the sections of services, ports, icmp types and protocols) | a service is read back from its cells: ports by C116, type and code are split at the first slash, which no icmp type has; groups member by member; the words of accepted definitions by an invariant of both parsers | proved |
| C119 | The row of a pfSense rule says what the rule allows | PfRow (the row of a pfSense rule) | column by column: hosts by C115; a range is told from a single port by the hyphen, which no part of an accepted port has (an invariant of the parser of rules); the tracker is the last option | partial |
| C120 | The rows of a NAT entry say what it translates | NatRow (the rows of a NAT entry), Nat, FwsmText | column by column: hosts by C115, ports by C116 and a check of the list of services that no name of a service is two ports with a hyphen; an invariant of the FWSM/ASA parser (the services named by a command, the fallback, the kind) gives the hypotheses | partial |
| C121 | The sections of names, network objects and network groups say what the definitions contain | NetSection (sections of names, network objects and groups) | cell by cell with C115, the kind from the anchor; that the addresses of names are valid is an invariant of the FWSM/ASA parser | proved |
| C122 | The section of a time range says what the time range contains | TimeSection (the section of a time range), FwsmText | a grammar of the rows that is shown to be unambiguous by its separators; the texts of numbers are read back by their value; that months, days and lists of days are in range is an invariant of the FWSM/ASA parser | proved |
| C123 | The section of an interface says what the interface contains | IfaceSection (the section of an interface, the macro vlans), Iface, IosText, FwsmText | addresses are split from prefix lengths at the slash, which no address contains; lists of VLANs are split at commas and hyphens, which no number contains; that addresses are valid and VLANs are numbers is an invariant of the loop over the details and of both parsers | proved |
| C124 | The row of a route says where the route leads | RouteRow (the row of a route), IosText | the network is split from the gateway at the first blank, which no network contains; no address contains a blank, so it is not the representation of an interface; that networks and gateways are valid is an invariant of the IOS parser | proved |

## Trusted base

* The Lean 4.33.0 kernel.  The theorems depend on the axioms `propext`, `Classical.choice` and
  `Quot.sound` only (vcheck lists them); no axiom is added, nothing is decided by compiled
  code.  Concrete cases use `decide`, checked by the kernel.
* The reading of the Python source into the definitions; each cites the lines it models.
* Library behaviour, taken from the CPython 3.11 sources: `ipaddress`, `fnmatch`, `re` (leftmost,
  greedy, backtracking), `sorted` (stable; modelled by `List.mergeSort`), dictionaries in insertion
  order.  `int()` and `strip()` are modelled for ASCII; the 4300-digit limit is modelled.
  The UTF-8 decoder (C code in CPython) is modelled after `Objects/stringlib/codecs.h`.
  `math.log` is taken as exact for 32-bit powers of two.
* TatSu 5.12.1, not installed here, read from its documentation and the generated parsers:
  ordered choice, closures that stop at the first round that fails or does not move, cut,
  tokens matched literally with nameguard.  The nameguard is a parameter `Guard` with the conditions
  stated where used, and the pinned behaviour is an instance (`tatsuGuard`).  Assumptions about the trees it
  builds: a None of a closure's first round stays in the list (`addAll`), the alternatives
  written ``type:`None` `` give None, nested lists of an included rule are spliced, the rule `object` gives the object.
* Not modelled: memoization and the side effects of a semantic action in a branch that is given up later
  (in FwsmText no such branch exists, as noted there); IPv6 scope ids; printing, repr, logging, opening files, the
  command line; wall-clock time.  pfSense: reading XML, `html.unescape`, time stamps and fetching URLs are parameters.
  Names are non-empty words where a table of names is assumed well formed (`Env.WF`), although `obj_name` may match the
  empty text.  The tree of a NAT line is an input of Model/Nat; FwsmText reads NAT lines into such trees.

## Testing the theorems against wrong programs

`seeded/LOG.jsonl` lists the edits of the model that were tried in a scratch copy, the claim each breaks, the
theorems that failed and those that had to be tightened.
