# Formal model of commonism/acltk — design

acltk parses Cisco ASA/FWSM, IOS and pfSense configurations into an object graph and
filters that graph with a small filter language (CAF).  `/verif/lean` is a Lean 4 model of
that code, with theorems about it.

* `Verif/Model/*.lean` — the code, function by function; every definition cites file and lines.
* `Verif/Spec/*.lean` — what the properties mean, written without the model's functions
  (address sets as predicates, globs as string splits, lines as sequences of words, …).
* `Verif/Lemmas/*.lean` — auxiliary results.
* `Verif/Props/*.lean` — the theorems `C..`, and beside each a concrete case
  (`*_sample` or `example`) that meets its hypotheses.

## What is modelled

| area | source | Model/ |
|---|---|---|
| address and network texts, `ip_address`, `ip_network`, `int(str)` | CPython 3.11 `ipaddress.py`; `aclObjects.py` 346-642 | `Addr`, `Text`, `Mask`, `Py` |
| `summarize_address_range`, `collapse_addresses`, wildcard enumeration | `ipaddress.py`; `aclObjects.py` 433-642 | `Summarize`, `Collapse` |
| host matching (`__and__` of all host classes, `cafNetworkAny*`) | `aclObjects.py` 346-678, `cafObjects.py` 125-173 | `Host`, `IosHost` |
| groups: expand, collapse, sort, also with sharing | `aclObjects.py` 233-325, 583-757, 902-970 | `Group`, `GroupHeap`, `PageExpand`, `Sort` |
| cells of a page: macros `host` and `port` | `examples/render/tpl/static.jinja2` 1-46 | `Cells` |
| rows of rules: macros `port`, `protocol`, `icmp`, `options` | `examples/render/tpl/static.jinja2` 36-104, 846-864 | `Row`, `IosRow`, `PfRow` |
| sections of names, network objects and network groups | `examples/render/tpl/static.jinja2` 303-410 | `NetSection` |
| rows of NAT entries | `examples/render/tpl/static.jinja2` 713-764 | `NatRow` |
| sections of services, ports, icmp types and protocols | `examples/render/tpl/static.jinja2` 74-76, 416-640 | `Section` |
| rules, NAT objects, id patterns | `aclObjects.py` 128-230, 1021-1169, `fnmatch.py` | `Fnmatch`, `Rule` |
| CAF run time and semantics, comments | `cafObjects.py`, `cafSemantics.py`, `caf.bnf` | `Caf`, `CafComment` |
| the CAF language from the text; `examples/caf-filter.py` | `caf.bnf`, generated `caf.py`, `examples/caf-filter.py` | `CafText`, `CafFilter` |
| configuration building, lookups, resolve, detection | `aclObjects.py` 1190-1380, `iosObjects.py`, `aclSemantics.py` | `Config`, `Dict`, `Learn`, `Lookup`, `Resolve`, `Detect` |
| ports, names, range checks | `aclObjects.py` 760-970, `aclSemantics.py` 209-232, `portutil` | `Port`, `PortUtil` |
| interfaces, banners | `aclObjects.py` 40-101, `iosSemantics.py`, `fwsmSemantics.py` | `Iface`, `FwsmIface`, `Banner` |
| NAT commands | `fwsmSemantics.py`, `aclSemantics.py` | `Nat` |
| pfSense | `pfsenseSemantics.py`, `pfsenseObjects.py` | `Pfsense` |
| PEG machine; access-list lines; whole FWSM/ASA files from the text | `acl.bnf`, `fwsm.bnf`, `aclSemantics.py`, `fwsmSemantics.py`, generated `fwsm.py` | `Peg`, `AclText`, `FwsmText` |
| whole IOS files from the text | `ios.bnf`, `iosSemantics.py`, `iosObjects.py`, generated `ios.py` | `IosText`, `IosConfig` |
| detection of the kind of a text, whole configurations filtered, the page of `examples/render` | `aclObjects.py` 1258-1345, `examples/` | `DetectText`, `ConfigFilter`, `PfFilter`, `Render`, `ExpandFilter` |
| files, and the web application | `aclObjects.py` 1255-1256, 1339-1345, `examples/render/dynamic.py` | `FileText`, `Web` (requests, answers, the shelf; not Flask, the templates' HTML), `WebConc` (interleaved requests; one operation on the shelf is atomic) |
| the page | `examples/render/tpl/static.jinja2`, `examples/render/static.py` 53-57 (`--sort`) | `Page` (rows, their numbers and classes, sections, anchors and links; not the HTML, the texts of the cells, the access-group links of interfaces; `sort` by an arbitrary lower-case function; which class a member of a group is, is an input of `--sort`) |
| the program | `examples/render/static.py` | `Static` (from bytes and options to the page; not: the text of the filter on the page, the file system, exceptions while rendering) |
| the program `examples/acl-filter.py` | `examples/acl-filter.py` | `AclFilter` (not: the texts of the rules printed at the end) |
| files (`utf-8-sig`) | `aclObjects.py` 1279-1289, `cafObjects.py` 52-62, `encodings/utf_8_sig.py` | `FileText` |

Python exceptions are values (`Except PyErr α`; `.raise` in the PEG machine).  Unbounded recursion is modelled with a
frame budget: running out is `RecursionError`.  Objects that Python compares by identity carry an
identity number.  Iteration over a `set` is an arbitrary schedule the theorems quantify over.

## How properties are stated and what "partial" means

Where the unchanged code does not have the property, its negation is proved with a concrete
witness (`*_violated*`), and the strongest true statement found is proved under a `_partial`
name; such a claim is listed as `partial` in MANIFEST.json with the reason.  Almost all
partial claims are of this kind: the English property is what a user relies on, and the code
does not have it.

## Properties

| id | property | Model/ | how it is proved, or why it fails | status |
|---|---|---|---|---|
@@TABLE@@

## Trusted base

* The Lean 4.33.0 kernel.  The theorems depend on the axioms `propext`, `Classical.choice` and
  `Quot.sound` only (vcheck lists them); no axiom is added, nothing is decided by compiled
  code.  Concrete cases use `decide`, checked by the kernel.
* The reading of the Python source into the definitions; each cites the lines it models.
* Library behaviour, taken from the CPython 3.11 sources: `ipaddress`, `fnmatch`, `re` (leftmost,
  greedy, backtracking), `sorted` (stable; modelled by `List.mergeSort`), dictionaries in insertion
  order.  `int()` and `strip()` are modelled for ASCII; the 4300-digit limit is modelled.
  The UTF-8 decoder (C code in CPython) is modelled after `Objects/stringlib/codecs.h`.
  `math.log` is taken as exact for 32-bit powers of two.
* TatSu 5.12.1, not installed here, read from its documentation and the generated parsers:
  ordered choice, closures that stop at the first round that fails or does not move, cut,
  tokens matched literally with nameguard.  The nameguard is a parameter `Guard` with the conditions
  stated where used, and the pinned behaviour is an instance (`tatsuGuard`).  Assumptions about the trees it
  builds: a None of a closure's first round stays in the list (`addAll`), the alternatives
  written ``type:`None` `` give None, nested lists of an included rule are spliced, the rule `object` gives the object.
* Not modelled: memoization and the side effects of a semantic action in a branch that is given up later
  (in FwsmText no such branch exists, as noted there); IPv6 scope ids; printing, repr, logging, opening files, the
  command line; wall-clock time.  pfSense: reading XML, `html.unescape`, time stamps and fetching URLs are parameters.
  Names are non-empty words where a table of names is assumed well formed (`Env.WF`), although `obj_name` may match the
  empty text.  The tree of a NAT line is an input of Model/Nat; FwsmText reads NAT lines into such trees.

## Testing the theorems against wrong programs

`seeded/LOG.jsonl` lists the edits of the model that were tried in a scratch copy, the claim each breaks, the
theorems that failed and those that had to be tightened.
