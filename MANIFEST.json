{
 "claims": [
  {
   "property": "C01",
   "status": "proved",
   "theorems": [
    "Acltk.C01_host_matching_is_intersection",
    "Acltk.C01_host_matching_with_wildcard",
    "Acltk.C01_any_matches_everything"
   ],
   "note": "exception spelled out: any & empty group is True"
  },
  {
   "property": "C02",
   "status": "proved",
   "theorems": [
    "Acltk.C02_symmetric",
    "Acltk.C02_empty_group_asymmetric"
   ],
   "note": "for hosts denoting at least one address; the empty group is the stated exception"
  },
  {
   "property": "C03",
   "status": "proved",
   "theorems": [
    "Acltk.C03_wildcard_host",
    "Acltk.C03_wildcard_network"
   ],
   "note": ""
  },
  {
   "property": "C04",
   "status": "partial",
   "theorems": [
    "Acltk.C04_violated",
    "Acltk.C04_exact",
    "Acltk.C04_no_cross_version_partial"
   ],
   "note": "violated by the code: the version is not looked at; C04_exact says exactly which IPv6 hosts and networks match, so it holds outside ::/96"
  },
  {
   "property": "C05",
   "status": "partial",
   "theorems": [
    "Acltk.C05_violated",
    "Acltk.C05_terminates_partial",
    "Acltk.C96_diverges_exactly"
   ],
   "note": "violated by the code for wildcard & wildcard (infinite recursion); C96 says exactly when"
  },
  {
   "property": "C06",
   "status": "proved",
   "theorems": [
    "Acltk.C06_ANY_is_literal",
    "Acltk.C06_ANY_rejects_rest"
   ],
   "note": ""
  },
  {
   "property": "C07",
   "status": "proved",
   "theorems": [
    "Acltk.C07_rule_match_iff",
    "Acltk.C07_rule_match_addresses",
    "Acltk.C07_only_id_src_dst"
   ],
   "note": ""
  },
  {
   "property": "C08",
   "status": "proved",
   "theorems": [
    "Acltk.C08_id_compatibility",
    "Acltk.C08_incompatible_ids_never_match",
    "Acltk.C08_cases"
   ],
   "note": ""
  },
  {
   "property": "C09",
   "status": "proved",
   "theorems": [
    "Acltk.C09_fnmatch_is_glob",
    "Acltk.C09_fnmatch_no_bracket",
    "Acltk.C09_quirk"
   ],
   "note": "the stated exception has a witness theorem"
  },
  {
   "property": "C10",
   "status": "proved",
   "theorems": [
    "Acltk.C10_filter_exact",
    "Acltk.C10_filter_returns",
    "Acltk.C10_order_irrelevant"
   ],
   "note": ""
  },
  {
   "property": "C100",
   "status": "proved",
   "theorems": [
    "Acltk.Page.C100_rows",
    "Acltk.Page.number_unique",
    "Acltk.Page.C100_heads",
    "Acltk.Page.C100_sample"
   ],
   "note": "the HTML around the rows is not modelled"
  },
  {
   "property": "C101",
   "status": "proved",
   "theorems": [
    "Acltk.Page.C101_sections",
    "Acltk.Page.C101_nat",
    "Acltk.Page.C101_sample",
    "Acltk.Page.built_wellFormed",
    "Acltk.Page.built_sample"
   ],
   "note": "for tables that agree with their objects (built_wellFormed: those the parser builds), and a selection completed as C43 says"
  },
  {
   "property": "C102",
   "status": "partial",
   "theorems": [
    "Acltk.Page.C102_links_partial",
    "Acltk.Page.C102_interfaces_unfiltered",
    "Acltk.Page.C102_violated_interfaces",
    "Acltk.Page.C102_violated_redefined",
    "Acltk.Page.C102_sample",
    "Acltk.Page.C102_violated_sample",
    "Acltk.Page.built_wellFormed",
    "Acltk.Page.redefined_built"
   ],
   "note": "violated by the code for links to interfaces (resolve never adds the label of their section) and to groups defined again; proved for all other links, and for links to interfaces without a filter"
  },
  {
   "property": "C103",
   "status": "partial",
   "theorems": [
    "Acltk.Page.C103_succeeds_iff",
    "Acltk.Page.C103_sorted",
    "Acltk.Page.classKeys_total",
    "Acltk.Page.C103_violated",
    "Acltk.Page.C103_sample"
   ],
   "note": "violated by the code for groups with a member port-object eq, which has no key; proved: when it succeeds and what it then does"
  },
  {
   "property": "C104",
   "status": "partial",
   "theorems": [
    "Acltk.Static.C104_page_partial",
    "Acltk.Static.C104_no_filter_partial",
    "Acltk.Static.C104_refused",
    "Acltk.Static.C104_same_as_show",
    "Acltk.Static.rules_of",
    "Acltk.Static.C104_sample"
   ],
   "note": "violated by the code where C44, C92 and C103 are; proved: exactly when nothing is written, what is on the page otherwise, and that /show shows the same; the object graph of the configuration is any that agrees with its tables (C101)"
  },
  {
   "property": "C105",
   "status": "partial",
   "theorems": [
    "Acltk.Dos.C105_fwsm_partial",
    "Acltk.Dos.C105_ios_partial",
    "Acltk.Dos.C105_detect_partial",
    "Acltk.Dos.C105_filter_partial",
    "Acltk.Dos.C105_select_partial",
    "Acltk.Dos.C105_files_partial",
    "Acltk.Dos.C105_violated_free_text",
    "Acltk.Dos.C105_violated_empty_description",
    "Acltk.Dos.C105_violated_empty_banner",
    "Acltk.Dos.C105_sample"
   ],
   "note": "violated by the code where a line ends in the bare word description (or motd for IOS) and for the end of free text; proved for all other texts, with mixed line ends too; that the XML reader of pfSense does not see line ends is a hypothesis"
  },
  {
   "property": "C106",
   "status": "proved",
   "theorems": [
    "Acltk.Dos.C106_filter_text",
    "Acltk.Dos.C106_sample"
   ],
   "note": "mixed line ends too"
  },
  {
   "property": "C107",
   "status": "proved",
   "theorems": [
    "Acltk.C107_references",
    "Acltk.C107_identities",
    "Acltk.C107_sample"
   ],
   "note": "identities stand for Python objects; that the word written is the name of that definition is C72 (file read as written)"
  },
  {
   "property": "C108",
   "status": "partial",
   "theorems": [
    "Acltk.Static.C108_listed",
    "Acltk.Static.C108_page_partial",
    "Acltk.Static.C108_no_filter_partial",
    "Acltk.Static.C108_links_partial",
    "Acltk.Static.C108_exact",
    "Acltk.Page.once_settled",
    "Acltk.Page.C108_objects",
    "Acltk.Static.C108_sample",
    "Acltk.Page.C108_settled_sample"
   ],
   "note": "texts that refer to a definition that is not kept are excluded: the code violates it there (C102_violated_redefined), and only there (C108_exact); links to interfaces as in C102; --expand is C114"
  },
  {
   "property": "C109",
   "status": "partial",
   "theorems": [
    "Acltk.AclFilter.C109_violated",
    "Acltk.AclFilter.C109_sample"
   ],
   "note": "violated by the code for every accepted file; the first number printed is proved right"
  },
  {
   "property": "C11",
   "status": "proved",
   "theorems": [
    "Acltk.C11_run_is_set_algebra",
    "Acltk.C11_order_irrelevant"
   ],
   "note": ""
  },
  {
   "property": "C110",
   "status": "proved",
   "theorems": [
    "Acltk.Web.C110_one_after_the_other",
    "Acltk.Web.C110_upload_seen",
    "Acltk.Web.C110_sample"
   ],
   "note": "a single operation on the shelf (in, [], []=, keys) is taken to be atomic and durable"
  },
  {
   "property": "C111",
   "status": "partial",
   "theorems": [
    "Acltk.Static.C111_listed",
    "Acltk.Static.C111_page_partial",
    "Acltk.Static.C111_no_filter_partial",
    "Acltk.Static.C111_links_partial",
    "Acltk.Static.C111_links_unfiltered",
    "Acltk.PfPage.C111_objects",
    "Acltk.Static.C111_sample"
   ],
   "note": "configurations with an alias without a name are not covered, --expand is C114; with a filter links to interfaces as in C102"
  },
  {
   "property": "C112",
   "status": "proved",
   "theorems": [
    "Acltk.C112_references",
    "Acltk.C112_identities",
    "Acltk.C112_no_objects",
    "Acltk.C112_only_groups",
    "Acltk.C112_sample"
   ],
   "note": "identities stand for Python objects; that the word written is the name of that definition is C80 (file read as written)"
  },
  {
   "property": "C113",
   "status": "partial",
   "theorems": [
    "Acltk.Static.C113_listed",
    "Acltk.Static.C113_page_partial",
    "Acltk.Static.C113_no_filter_partial",
    "Acltk.Static.C113_links_partial",
    "Acltk.Static.C113_exact",
    "Acltk.IosPage.once_settled",
    "Acltk.IosPage.C113_objects",
    "Acltk.Static.C113_sample"
   ],
   "note": "texts that refer to a group that is redefined later are excluded: the code links the wrong one there, and only there (C113_exact); a filter that selects a rule of a bound list makes the code raise (C44); links to interfaces as in C102; --expand is C114"
  },
  {
   "property": "C114",
   "status": "partial",
   "theorems": [
    "Acltk.Static.C114_text",
    "Acltk.Page.C114_expand",
    "Acltk.Page.C114_leaves",
    "Acltk.Page.C114_circle_raises",
    "Acltk.Page.C114_circle_sample",
    "Acltk.Page.C114_wellFormed",
    "Acltk.Accepted.C114_holds",
    "Acltk.Static.C114_listed",
    "Acltk.Static.C114_no_filter_partial",
    "Acltk.Static.C114_page_partial",
    "Acltk.Static.C114_links_partial",
    "Acltk.Static.C114_sample"
   ],
   "note": "excluded: texts that refer to a definition that is not kept (exactly those of C108_exact, C113_exact), unnamed pfSense aliases, filters with a keyword where a network object stands for all addresses (violated there, C92), links to interfaces (C102); the hosts of rules after the expansion are an assumption of the filtered page (C92_expand_expands proves it of the heap of network groups)"
  },
  {
   "property": "C115",
   "status": "partial",
   "theorems": [
    "Acltk.Cells.C115_host",
    "Acltk.Cells.C115_host_injective",
    "Acltk.Cells.C115_fwsm",
    "Acltk.Cells.C115_ios",
    "Acltk.Cells.C115_pfsense",
    "Acltk.Cells.C115_port_partial",
    "Acltk.Cells.C115_violated_range",
    "Acltk.Cells.C115_violated_eq",
    "Acltk.Cells.C115_sample"
   ],
   "note": "hosts are proved without restriction; for ports violated by the code: ranges of services with a hyphen, and port-object eq; proved for all other ports"
  },
  {
   "property": "C116",
   "status": "partial",
   "theorems": [
    "Acltk.Cells.C116_row_partial",
    "Acltk.Cells.C116_fwsm_partial",
    "Acltk.Cells.C116_equal_rows_partial",
    "Acltk.Cells.C116_violated_code",
    "Acltk.Cells.C116_violated_icmp6",
    "Acltk.Cells.C116_violated_port",
    "Acltk.Cells.C116_violated_sample",
    "Acltk.Cells.C116_sample"
   ],
   "note": "violated by the code for icmp codes, types of icmp6 and ports of icmp rules; proved for all other rules (rules with a URL and the arguments of log are not read back)"
  },
  {
   "property": "C117",
   "status": "partial",
   "theorems": [
    "Acltk.Cells.C117_row_partial",
    "Acltk.Cells.C117_ios_partial",
    "Acltk.Cells.C117_equal_rows_partial",
    "Acltk.Cells.C117_violated_code",
    "Acltk.Cells.C117_violated_icmp6",
    "Acltk.Cells.C117_violated_port",
    "Acltk.Cells.C117_violated_none",
    "Acltk.Cells.C117_violated_sample",
    "Acltk.Cells.C117_sample"
   ],
   "note": "violated by the code for icmp codes, types of icmp6 and ports of icmp rules, and for options with the value None; proved for all other rules, with the value None for options without a value"
  },
  {
   "property": "C118",
   "status": "proved",
   "theorems": [
    "Acltk.Cells.C118_service",
    "Acltk.Cells.C118_fwsm",
    "Acltk.Cells.C118_ios",
    "Acltk.Cells.C118_shown",
    "Acltk.Cells.C118_shown_ios",
    "Acltk.Cells.C118_equal_sections",
    "Acltk.Cells.C118_sample"
   ],
   "note": "the number of a port object `eq` is lost by the parser and shown as the word None; descriptions are not part of the model of a section"
  },
  {
   "property": "C119",
   "status": "partial",
   "theorems": [
    "Acltk.Cells.C119_row_partial",
    "Acltk.Cells.C119_pfsense_partial",
    "Acltk.Cells.C119_equal_rows_partial",
    "Acltk.Cells.C119_violated_port",
    "Acltk.Cells.C119_violated_icmp",
    "Acltk.Cells.C119_sample"
   ],
   "note": "violated by the code for ports of icmp rules and icmp types of other rules; proved for all other rules; the interfaces of floating rules and the state type are in the model of the row but not in what is read"
  },
  {
   "property": "C12",
   "status": "proved",
   "theorems": [
    "Acltk.C12_precedence",
    "Acltk.C12_total"
   ],
   "note": ""
  },
  {
   "property": "C120",
   "status": "partial",
   "theorems": [
    "Acltk.Cells.C120_row_partial",
    "Acltk.Cells.C120_fwsm_partial",
    "Acltk.Cells.C120_equal_rows_partial",
    "Acltk.Cells.C120_readable",
    "Acltk.Cells.C120_violated_service",
    "Acltk.Cells.C120_violated_icmp",
    "Acltk.Cells.C120_sample"
   ],
   "note": "violated by the code for the protocol of the mapped service and for icmp types of services; everything else the entry holds is proved to be in the rows; the words auto and after-auto are the heading of the table"
  },
  {
   "property": "C121",
   "status": "proved",
   "theorems": [
    "Acltk.Cells.C121_section",
    "Acltk.Cells.C121_fwsm",
    "Acltk.Cells.C121_ios",
    "Acltk.Cells.C121_shown",
    "Acltk.Cells.C121_equal_sections",
    "Acltk.Cells.C121_sample"
   ],
   "note": "no description and an empty one are the same on the page; the markup between the cells is not modelled"
  },
  {
   "property": "C122",
   "status": "proved",
   "theorems": [
    "Acltk.Cells.C122_section",
    "Acltk.Cells.C122_equal_sections",
    "Acltk.Cells.C122_sample"
   ],
   "note": "the C locale and the printing of years by glibc are assumed; the day before the end is taken to be printed as written"
  },
  {
   "property": "C123",
   "status": "proved",
   "theorems": [
    "Acltk.Cells.C123_section",
    "Acltk.Cells.C123_fwsm",
    "Acltk.Cells.C123_ios",
    "Acltk.Cells.C123_equal_sections",
    "Acltk.Cells.C123_sample"
   ],
   "note": "the rows of routes are C124; the markup between the cells is not modelled; an interface is taken to be in the table under its alias"
  },
  {
   "property": "C124",
   "status": "proved",
   "theorems": [
    "Acltk.Cells.C124_row",
    "Acltk.Cells.C124_equal_rows",
    "Acltk.Cells.C124_sample"
   ],
   "note": "which routes an interface has is C42; the order of the rows of routes to the same network is not modelled"
  },
  {
   "property": "C13",
   "status": "proved",
   "theorems": [
    "Acltk.C13_clauses_accumulate",
    "Acltk.C13_grouping_irrelevant",
    "Acltk.C13_more_addresses_grow"
   ],
   "note": ""
  },
  {
   "property": "C14",
   "status": "partial",
   "theorems": [
    "Acltk.C14_violated",
    "Acltk.C14_violated_witness",
    "Acltk.C14_violated_raises",
    "Acltk.C14_parenthesis_partial",
    "Acltk.C14_exact",
    "Acltk.C14_exact_sample"
   ],
   "note": "violated by the code: the id is dropped or the parser raises; C14_exact says exactly when, for every set with a parenthesis"
  },
  {
   "property": "C15",
   "status": "proved",
   "theorems": [
    "Acltk.C15_filter_never_fails"
   ],
   "note": "end to end from CAF syntax tree to result set"
  },
  {
   "property": "C16",
   "status": "partial",
   "theorems": [
    "Acltk.C16_violated",
    "Acltk.C16_violated_all",
    "Acltk.C16_comment_end_partial"
   ],
   "note": "violated by the code for bodies ending in an odd number of stars"
  },
  {
   "property": "C17",
   "status": "proved",
   "theorems": [
    "Acltk.C17_nat_match_iff",
    "Acltk.C17_nat_match_returns",
    "Acltk.C17_nat_ignores_id"
   ],
   "note": ""
  },
  {
   "property": "C18",
   "status": "proved",
   "theorems": [
    "Acltk.C18_config_filter"
   ],
   "note": ""
  },
  {
   "property": "C19",
   "status": "proved",
   "theorems": [
    "Acltk.C19_network_denotes",
    "Acltk.C19_network_rejects",
    "Acltk.C19_mask_unique",
    "Acltk.C19_address_text_round_trip",
    "Acltk.C19_v4_text"
   ],
   "note": ""
  },
  {
   "property": "C20",
   "status": "partial",
   "theorems": [
    "Acltk.C20_violated",
    "Acltk.C20_exact",
    "Acltk.C20_ios_wildcard_partial",
    "Acltk.C20_ios_ipv6"
   ],
   "note": "violated by the code for wildcards that are shaped like a netmask"
  },
  {
   "property": "C21",
   "status": "proved",
   "theorems": [
    "Acltk.C21_range_covers",
    "Acltk.C21_range_rejects",
    "Acltk.C21_other_object_types"
   ],
   "note": ""
  },
  {
   "property": "C22",
   "status": "proved",
   "theorems": [
    "Acltk.C22_wildcard_enumeration_exact"
   ],
   "note": ""
  },
  {
   "property": "C23",
   "status": "proved",
   "theorems": [
    "Acltk.C23_network_expand",
    "Acltk.C23_plain_expand",
    "Acltk.C23_service_expand"
   ],
   "note": ""
  },
  {
   "property": "C24",
   "status": "proved",
   "theorems": [
    "Acltk.C24_expand_keeps_matching",
    "Acltk.C24_expand_keeps_matching_right",
    "Acltk.C24_any_filter_can_grow",
    "Acltk.C24_any_filter_never_shrinks"
   ],
   "note": ""
  },
  {
   "property": "C25",
   "status": "proved",
   "theorems": [
    "Acltk.C25_every_group_gets_its_leaves",
    "Acltk.C25_order_irrelevant",
    "Acltk.C25_cyclic_group_raises"
   ],
   "note": "cyclic groups raise RecursionError"
  },
  {
   "property": "C26",
   "status": "proved",
   "theorems": [
    "Acltk.C26_collapse_v4",
    "Acltk.C26_order_and_duplicates_irrelevant",
    "Acltk.C26_idempotent"
   ],
   "note": ""
  },
  {
   "property": "C27",
   "status": "partial",
   "theorems": [
    "Acltk.C27_violated_ipv6",
    "Acltk.C27_violated_mixed",
    "Acltk.C27_violated_mixed_all",
    "Acltk.C27_ipv6_exact",
    "Acltk.C27_violated_any",
    "Acltk.C27_keeps_or_rejects_partial",
    "Acltk.C27_mixed_sample"
   ],
   "note": "violated by the code: witnesses; holds for IPv4 network members"
  },
  {
   "property": "C28",
   "status": "proved",
   "theorems": [
    "Acltk.C28_sort_network",
    "Acltk.C28_unsortable_rejected",
    "Acltk.C28_sort_keeps_matching",
    "Acltk.C28_sort_protocol",
    "Acltk.C28_sort_port",
    "Acltk.C28_sort_service",
    "Acltk.C28_unnumbered_port_raises"
   ],
   "note": ""
  },
  {
   "property": "C29",
   "status": "proved",
   "theorems": [
    "Acltk.C29_named_members_first"
   ],
   "note": ""
  },
  {
   "property": "C30",
   "status": "partial",
   "theorems": [
    "Acltk.C30_violated_service_protocol",
    "Acltk.C30_violated_network",
    "Acltk.C30_network_exact",
    "Acltk.C30_network_unchanged_iff",
    "Acltk.C30_network_exact_sample",
    "Acltk.C30_sort_copy_partial"
   ],
   "note": "violated by the code: every service and protocol group, and exactly those groups of networks that are not minimal and in order; holds for port groups and groups with a host, group or any member"
  },
  {
   "property": "C31",
   "status": "proved",
   "theorems": [
    "Acltk.C31_comparisons",
    "Acltk.C31_total_order",
    "Acltk.C31_unordered_cases"
   ],
   "note": "for ports with a number; the others raise TypeError as stated"
  },
  {
   "property": "C32",
   "status": "partial",
   "theorems": [
    "Acltk.C32_violated",
    "Acltk.C32_identity_partial"
   ],
   "note": "violated by the code: hash is the identity"
  },
  {
   "property": "C33",
   "status": "partial",
   "theorems": [
    "Acltk.C33_violated",
    "Acltk.C33_exact",
    "Acltk.C33_port_range_partial"
   ],
   "note": "violated by the code for different numbers of digits; C33_exact: numbers are accepted iff in dictionary order"
  },
  {
   "property": "C34",
   "status": "proved",
   "theorems": [
    "Acltk.C34_number_checks",
    "Acltk.C34_every_port_accepted"
   ],
   "note": ""
  },
  {
   "property": "C35",
   "status": "proved",
   "theorems": [
    "Acltk.Config.C35_rules_in_file_order",
    "Acltk.Config.C35_ios_rules_in_file_order"
   ],
   "note": ""
  },
  {
   "property": "C36",
   "status": "proved",
   "theorems": [
    "Acltk.Config.C36_definition_tables"
   ],
   "note": ""
  },
  {
   "property": "C37",
   "status": "partial",
   "theorems": [
    "Acltk.Config.C37_violated_service_object",
    "Acltk.Config.C37_violated_group",
    "Acltk.Config.C37_references_partial",
    "Acltk.Config.C37_single_definition_partial",
    "Acltk.Config.C37_sample"
   ],
   "note": "violated by the code for re-defined names; exact binding proved for every history"
  },
  {
   "property": "C38",
   "status": "proved",
   "theorems": [
    "Acltk.Config.C38_nat_sections"
   ],
   "note": ""
  },
  {
   "property": "C39",
   "status": "proved",
   "theorems": [
    "Acltk.Config.C39_access_group_binding",
    "Acltk.Config.C39_distinct_aliases",
    "Acltk.Config.C39_access_groups_table"
   ],
   "note": ""
  },
  {
   "property": "C40",
   "status": "proved",
   "theorems": [
    "Acltk.Lookup.C40_reference_is_the_word",
    "Acltk.Lookup.C40_reference_before_slash",
    "Acltk.Lookup.C40_sample"
   ],
   "note": ""
  },
  {
   "property": "C41",
   "status": "proved",
   "theorems": [
    "Acltk.Detect.C41_auto_detection",
    "Acltk.Detect.C41_sample"
   ],
   "note": "over three arbitrary parsers"
  },
  {
   "property": "C42",
   "status": "proved",
   "theorems": [
    "Acltk.Config.C42_routes"
   ],
   "note": ""
  },
  {
   "property": "C43",
   "status": "proved",
   "theorems": [
    "Acltk.Resolve.C43_resolve_is_closure",
    "Acltk.Resolve.C43_sample"
   ],
   "note": ""
  },
  {
   "property": "C44",
   "status": "partial",
   "theorems": [
    "Acltk.Resolve.C44_violated",
    "Acltk.Resolve.C44_raises_iff_partial"
   ],
   "note": "violated by the code: TypeError for a rule whose list is bound to an IOS interface"
  },
  {
   "property": "C45",
   "status": "proved",
   "theorems": [
    "Acltk.Ifc.C45_trunk_list",
    "Acltk.Ifc.C45_sample"
   ],
   "note": ""
  },
  {
   "property": "C46",
   "status": "partial",
   "theorems": [
    "Acltk.Banner.C46_violated_caret",
    "Acltk.Banner.C46_violated_non_ascii",
    "Acltk.Banner.C46_violated_non_ascii_all",
    "Acltk.Banner.C46_ascii_partial",
    "Acltk.Banner.C46_caret_partial",
    "Acltk.Banner.C46_sample"
   ],
   "note": "violated by the code for ^^C and non-ASCII delimiters"
  },
  {
   "property": "C47",
   "status": "proved",
   "theorems": [
    "Acltk.Pf.C47_rule",
    "Acltk.Pf.C47_accepted_iff",
    "Acltk.Pf.C47_sample"
   ],
   "note": ""
  },
  {
   "property": "C48",
   "status": "proved",
   "theorems": [
    "Acltk.Pf.C48_separators",
    "Acltk.Pf.C48_row_number",
    "Acltk.Pf.C48_one_rule",
    "Acltk.Pf.C48_sample",
    "Acltk.Pf.C48_sample_contiguous"
   ],
   "note": ""
  },
  {
   "property": "C49",
   "status": "partial",
   "theorems": [
    "Acltk.Pf.C49_violated",
    "Acltk.Pf.C49_violated_configuration",
    "Acltk.Pf.C49_dynamic_partial"
   ],
   "note": "violated by the code: an interface with a static address raises IndexError; exact behaviour of the others proved"
  },
  {
   "property": "C50",
   "status": "partial",
   "theorems": [
    "Acltk.NatCmd.C50_violated",
    "Acltk.NatCmd.C50_object_nat_partial",
    "Acltk.NatCmd.C50_sample"
   ],
   "note": "violated by the code: both sides carry the real port; the rest of the command is proved"
  },
  {
   "property": "C51",
   "status": "partial",
   "theorems": [
    "Acltk.NatCmd.C51_violated",
    "Acltk.NatCmd.C51_static_partial",
    "Acltk.NatCmd.C51_sample"
   ],
   "note": "violated by the code for dynamic NAT; static NAT proved"
  },
  {
   "property": "C52",
   "status": "partial",
   "theorems": [
    "Acltk.C52_violated",
    "Acltk.C52_lookup_partial"
   ],
   "note": "violated by the code when a protocol is given"
  },
  {
   "property": "C53",
   "status": "partial",
   "theorems": [
    "Acltk.C53_violated",
    "Acltk.C53_ports_partial"
   ],
   "note": "violated by the code: port-object eq loses the number"
  },
  {
   "property": "C54",
   "status": "partial",
   "theorems": [
    "Acltk.NatCmd.C54_violated",
    "Acltk.NatCmd.C54_violated_filter",
    "Acltk.NatCmd.C54_same_block_partial",
    "Acltk.NatCmd.C54_order_partial",
    "Acltk.NatCmd.C54_sample"
   ],
   "note": "violated by the code when the NAT line has its own block"
  },
  {
   "property": "C55",
   "status": "partial",
   "theorems": [
    "Acltk.Ifc.C55_violated",
    "Acltk.Ifc.C55_standby_partial",
    "Acltk.Ifc.C55_sample",
    "Acltk.Ifc.C55_violated_sample"
   ],
   "note": "violated by the code for lines without standby; exact for lines with standby"
  },
  {
   "property": "C56",
   "status": "proved",
   "theorems": [
    "Acltk.Ifc.C56_interface_attributes",
    "Acltk.Ifc.C56_rejected_iff",
    "Acltk.Ifc.C56_address_line"
   ],
   "note": ""
  },
  {
   "property": "C57",
   "status": "partial",
   "theorems": [
    "Acltk.Lookup.C57_violated",
    "Acltk.Lookup.C57_violated_all",
    "Acltk.Lookup.C57_nat_interface_partial",
    "Acltk.Lookup.C57_exact",
    "Acltk.Lookup.C57_exact_sample"
   ],
   "note": "violated by the code for interface names starting with the keyword any and something else than a letter or digit; C57_exact says exactly what is read"
  },
  {
   "property": "C58",
   "status": "partial",
   "theorems": [
    "Acltk.Pf.C58_violated",
    "Acltk.Pf.C58_violated_all",
    "Acltk.Pf.C58_networks_partial",
    "Acltk.Pf.C58_exact"
   ],
   "note": "violated by the code for every optional interface with a description; C58_exact says exactly which tags are found"
  },
  {
   "property": "C59",
   "status": "partial",
   "theorems": [
    "Acltk.Pf.C59_violated",
    "Acltk.Pf.C59_exact",
    "Acltk.Pf.C59_exact_sample",
    "Acltk.Pf.C59_interfaces_partial",
    "Acltk.Pf.C59_sample"
   ],
   "note": "violated by the code when an interface is described by the tag of another one; C59_exact says which list every rule belongs to"
  },
  {
   "property": "C60",
   "status": "partial",
   "theorems": [
    "Acltk.Pf.C60_violated",
    "Acltk.Pf.C60_host_partial",
    "Acltk.Pf.C60_network_partial",
    "Acltk.Pf.C60_port_partial",
    "Acltk.Pf.C60_urltable_partial",
    "Acltk.Pf.C60_types_partial",
    "Acltk.Pf.C60_violated_sample"
   ],
   "note": "violated by the code for host aliases with a word that is not an address; network, port and URL aliases proved without restriction"
  },
  {
   "property": "C61",
   "status": "proved",
   "theorems": [
    "Acltk.Pf.C61_configuration",
    "Acltk.Pf.C61_sample"
   ],
   "note": ""
  },
  {
   "property": "C62",
   "status": "proved",
   "theorems": [
    "Acltk.NatCmd.C62_twice_nat"
   ],
   "note": ""
  },
  {
   "property": "C63",
   "status": "partial",
   "theorems": [
    "Acltk.Config.C63_violated",
    "Acltk.Config.C63_violated_pfsense",
    "Acltk.Config.C63_scalars_partial",
    "Acltk.Config.C63_sample"
   ],
   "note": "violated by the code: trailing dot without a domain statement and for every pfSense configuration"
  },
  {
   "property": "C64",
   "status": "proved",
   "theorems": [
    "Acltk.C64_address_text",
    "Acltk.C64_unique",
    "Acltk.C64_sample"
   ],
   "note": ""
  },
  {
   "property": "C65",
   "status": "proved",
   "theorems": [
    "Acltk.C65_int_text",
    "Acltk.C65_sample"
   ],
   "note": ""
  },
  {
   "property": "C66",
   "status": "proved",
   "theorems": [
    "Acltk.AclText.C66_line_read_as_written",
    "Acltk.AclText.C66_sample",
    "Acltk.AclText.C66_sample_line",
    "Acltk.AclText.C66_sample_words"
   ],
   "note": ""
  },
  {
   "property": "C67",
   "status": "partial",
   "theorems": [
    "Acltk.AclText.C67_remarks_attached",
    "Acltk.AclText.C67_violated_other_list",
    "Acltk.AclText.C67_violated_carriage_return"
   ],
   "note": "remarks are attached completely and in order; violated by the code for remarks of another list and for CR LF files"
  },
  {
   "property": "C68",
   "status": "partial",
   "theorems": [
    "Acltk.AclText.C68_violated_log_level",
    "Acltk.AclText.C68_violated_any_name",
    "Acltk.AclText.C68_violated_same_name",
    "Acltk.AclText.C68_violated_range",
    "Acltk.AclText.C68_violated_leading_zero",
    "Acltk.AclText.C68_violated_joined_words",
    "Acltk.AclText.C66_line_read_as_written"
   ],
   "note": "violated by the code (witnesses); the lines that are read are those of C66"
  },
  {
   "property": "C69",
   "status": "proved",
   "theorems": [
    "Acltk.AclText.C69_one_rule_one_line",
    "Acltk.AclText.C69_dropped_is_ethertype",
    "Acltk.AclText.C69_ethertype_sample",
    "Acltk.AclText.C69_sample"
   ],
   "note": ""
  },
  {
   "property": "C70",
   "status": "proved",
   "theorems": [
    "Acltk.FwsmText.C70_rules_are_lines",
    "Acltk.FwsmText.C70_no_rule_lost",
    "Acltk.FwsmText.C70_exactly",
    "Acltk.FwsmText.C70_indented_line_becomes_rule",
    "Acltk.FwsmText.C70_sample"
   ],
   "note": "for every accepted text; the blanks exception is exact and shown by a witness"
  },
  {
   "property": "C71",
   "status": "proved",
   "theorems": [
    "Acltk.FwsmText.C71_command_read_as_written"
   ],
   "note": "all command forms but ethertype lists and time ranges with several days (refused, C78); NAT, references, masks, ranges and time ranges included"
  },
  {
   "property": "C72",
   "status": "proved",
   "theorems": [
    "Acltk.FwsmText.C72_file_read_as_written",
    "Acltk.FwsmText.C72_unambiguous",
    "Acltk.FwsmText.C72_sample",
    "Acltk.FwsmText.C72_sample2"
   ],
   "note": "all command forms of C71"
  },
  {
   "property": "C73",
   "status": "proved",
   "theorems": [
    "Acltk.CafText.C73_filter_text_selects",
    "Acltk.CafText.C73_filter_text_value",
    "Acltk.CafText.C73_sample"
   ],
   "note": "white space required where the grammar needs it; comments in the places the grammar has (C75)"
  },
  {
   "property": "C74",
   "status": "proved",
   "theorems": [
    "Acltk.CafText.C74_accepted_text_is_a_filter"
   ],
   "note": "for every text"
  },
  {
   "property": "C75",
   "status": "partial",
   "theorems": [
    "Acltk.CafText.C75_comments_partial",
    "Acltk.CafText.C75_violated",
    "Acltk.CafText.C75_violated_clause"
   ],
   "note": "violated by the code: a comment directly behind an id becomes part of the id, a comment inside an ip clause is refused; proved for comments in front of and between clauses and operands"
  },
  {
   "property": "C76",
   "status": "partial",
   "theorems": [
    "Acltk.CafText.C76_violated"
   ],
   "note": "violated by the code: 192.168.1.25510.0.0.1 is read as two addresses; what holds of all accepted texts is C74"
  },
  {
   "property": "C77",
   "status": "proved",
   "theorems": [
    "Acltk.CafFilter.C77_filter_configuration",
    "Acltk.CafFilter.C77_sample"
   ],
   "note": "FWSM/ASA configurations of the command forms of C71"
  },
  {
   "property": "C78",
   "status": "partial",
   "theorems": [
    "Acltk.FwsmText.C78_single_day_partial",
    "Acltk.FwsmText.C78_violated",
    "Acltk.FwsmText.C78_violated_sample",
    "Acltk.FwsmText.C78_single_sample"
   ],
   "note": "violated by the code: no white space is allowed between the days, so every such entry is refused; entries with one day are read as written (C71)"
  },
  {
   "property": "C79",
   "status": "proved",
   "theorems": [
    "Acltk.CafFilter.C79_nat_table",
    "Acltk.CafFilter.C79_position",
    "Acltk.CafFilter.C79_sample"
   ],
   "note": "on top of C62 (the values of the entries) and C72 (the text)"
  },
  {
   "property": "C80",
   "status": "proved",
   "theorems": [
    "Acltk.IosText.C80_command_read_as_written",
    "Acltk.IosText.C80_file_read_as_written",
    "Acltk.IosText.C80_unambiguous",
    "Acltk.IosText.C80_sample"
   ],
   "note": "the command forms are listed in Spec/IosSpec.lean"
  },
  {
   "property": "C81",
   "status": "partial",
   "theorems": [
    "Acltk.IosText.C81_other_numbers_refused",
    "Acltk.IosText.C81_numbers_read_partial",
    "Acltk.IosText.C81_violated"
   ],
   "note": "violated by the code: standard lists 1400-1999 are refused, and with them the configuration; all other numbers are read"
  },
  {
   "property": "C82",
   "status": "partial",
   "theorems": [
    "Acltk.IosConfig.C82_routes_partial",
    "Acltk.IosConfig.C82_violated",
    "Acltk.IosConfig.C82_violated_interface",
    "Acltk.IosConfig.C82_sample"
   ],
   "note": "violated by the code: a route with anything behind the gateway, or to an interface not defined before, is dropped silently; proved for the others"
  },
  {
   "property": "C83",
   "status": "proved",
   "theorems": [
    "Acltk.IosConfig.C83_filter_ios_configuration",
    "Acltk.IosConfig.C83_sample"
   ],
   "note": "IOS configurations of the command forms of C80"
  },
  {
   "property": "C84",
   "status": "partial",
   "theorems": [
    "Acltk.IosText.C84_remarks_kept_partial",
    "Acltk.IosText.C84_violated",
    "Acltk.IosText.C84_violated_sample"
   ],
   "note": "violated by the code: a remark behind the last rule of a numbered list makes the whole configuration refused; proved for remarks with a rule behind them"
  },
  {
   "property": "C85",
   "status": "proved",
   "theorems": [
    "Acltk.IosConfig.C85_access_groups",
    "Acltk.IosConfig.C85_sample"
   ],
   "note": "on top of C56 (the lines of an interface) and C80 (the text)"
  },
  {
   "property": "C86",
   "status": "partial",
   "theorems": [
    "Acltk.DetectText.C86_fwsm_text",
    "Acltk.DetectText.C86_ios_text_partial",
    "Acltk.DetectText.C86_xml",
    "Acltk.DetectText.C86_other_text",
    "Acltk.DetectText.C86_samples",
    "Acltk.DetectText.C86_violated_silent_text"
   ],
   "note": "violated by the code: an IOS text without a version line and without a rule is silently read as an FWSM configuration and its routes are lost; proved for FWSM texts, for IOS texts with a version line or a rule, and for XML and any other text that begins, behind empty lines, with `<` or a character outside ASCII"
  },
  {
   "property": "C87",
   "status": "proved",
   "theorems": [
    "Acltk.DetectText.C87_filter_detected_fwsm",
    "Acltk.DetectText.C87_filter_detected_ios",
    "Acltk.DetectText.C87_samples"
   ],
   "note": "the kind is found by the program as in C86"
  },
  {
   "property": "C88",
   "status": "proved",
   "theorems": [
    "Acltk.ConfigFilter.C88_config_filter_fwsm",
    "Acltk.ConfigFilter.C88_config_filter_ios",
    "Acltk.ConfigFilter.C88_sample",
    "Acltk.ConfigFilter.C88_meant"
   ],
   "note": "also proved on the way: no NAT entry of a configuration text is left with the keyword `interface` as a side (ConfigFilter.host_nodes)"
  },
  {
   "property": "C89",
   "status": "proved",
   "theorems": [
    "Acltk.PfFilter.C89_filter_pfsense",
    "Acltk.PfFilter.C89_refused",
    "Acltk.PfFilter.C89_sample",
    "Acltk.PfFilter.C89_refused_sample"
   ],
   "note": "reading the XML is a parameter; the ids of the rules (names of interfaces) are assumed not to be patterns with degenerate brackets"
  },
  {
   "property": "C90",
   "status": "partial",
   "theorems": [
    "Acltk.Render.C90_render_fwsm",
    "Acltk.Render.C90_render_ios_partial",
    "Acltk.Render.C90_render_pfsense",
    "Acltk.Accepted.C90_accepted_texts_partial",
    "Acltk.Accepted.C90_accepted_sample",
    "Acltk.Render.C90_violated",
    "Acltk.Render.C90_sample",
    "Acltk.Render.C90_sample_pfsense"
   ],
   "note": "holds for FWSM and pfSense texts; for IOS texts it is violated by the code, and the theorem characterises exactly when: the filter selects a rule of a list that an interface uses (TypeError); the heaps are any that hold the parsed rules and NAT entries and refer to finitely many objects; C90_accepted_texts_partial: the same for whatever filter text and configuration text is accepted"
  },
  {
   "property": "C91",
   "status": "partial",
   "theorems": [
    "Acltk.IosLines.C91_rules_are_lines_partial",
    "Acltk.IosLines.C91_sample",
    "Acltk.IosLines.C91_violated_pool",
    "Acltk.IosLines.C91_violated_indented",
    "Acltk.IosLines.C91_violated_end",
    "Acltk.IosLines.C91_violated_caret",
    "Acltk.IosLines.C91_violated_banner_indented"
   ],
   "note": "violated by the code: lines behind a DHCP pool are swallowed, indented access-list and banner commands behind a port group are taken for commands, everything behind a line beginning with `line` or `end` is dropped, the end `^^C` of a banner is missed; proved for all texts (banners included) without these lines, up to the line `line` or `end`; banner commands with characters outside ASCII are excluded, where the code does not end the message at the delimiter (C46)"
  },
  {
   "property": "C92",
   "status": "partial",
   "theorems": [
    "Acltk.ExpandFilter.C92_expand_keeps_selection_partial",
    "Acltk.ExpandFilter.C92_expand_expands",
    "Acltk.ExpandFilter.C92_sample",
    "Acltk.Accepted.C92_accepted_texts_partial",
    "Acltk.Accepted.C92_text_sample",
    "Acltk.ExpandFilter.C92_violated"
   ],
   "note": "violated by the code for the keywords ANY, ANY4, ANY6 when a group has an object with a domain name; proved for all filters without these keywords, and for all filters when no group has such an object; C92_accepted_texts_partial: the same for whatever filter text and configuration text of any kind is accepted"
  },
  {
   "property": "C93",
   "status": "proved",
   "theorems": [
    "Acltk.Accepted.C93_accepted_texts_are_filtered",
    "Acltk.Accepted.C93_ids_sane",
    "Acltk.Accepted.C93_sample"
   ],
   "note": "for all three kinds; an id in front of a parenthesis is ignored (C14)"
  },
  {
   "property": "C94",
   "status": "proved",
   "theorems": [
    "Acltk.Accepted.C94_fwsm_hosts",
    "Acltk.Accepted.C94_ios_hosts",
    "Acltk.Accepted.C94_fwsm_hosts_match",
    "Acltk.Accepted.C94_mixed_hosts_match",
    "Acltk.Pf.C94_pfsense_hosts",
    "Acltk.Pf.C94_pfsense_hosts_match",
    "Acltk.Accepted.C94_sample",
    "Acltk.Accepted.C94_fwsm_sample",
    "Acltk.Pf.C94_pfsense_sample"
   ],
   "note": "for every accepted text"
  },
  {
   "property": "C95",
   "status": "proved",
   "theorems": [
    "Acltk.FileText.C95_decoded",
    "Acltk.FileText.C95_config_file",
    "Acltk.FileText.C95_filter_file",
    "Acltk.FileText.C95_accepted_files_are_filtered",
    "Acltk.FileText.C95_second_mark",
    "Acltk.FileText.C95_sample",
    "Acltk.FileText.C95_sample_refused"
   ],
   "note": "the texts are then handled as in C74, C86, C93"
  },
  {
   "property": "C96",
   "status": "proved",
   "theorems": [
    "Acltk.C96_diverges_exactly",
    "Acltk.C96_sample",
    "Acltk.mem_leaves"
   ],
   "note": "the exact form of what C05 leaves open"
  },
  {
   "property": "C97",
   "status": "proved",
   "theorems": [
    "Acltk.Web.C97_last_upload",
    "Acltk.Web.C97_index",
    "Acltk.Web.C97_only_uploads",
    "Acltk.Web.C97_independent",
    "Acltk.Web.C97_upload_then_show",
    "Acltk.Web.C97_sample"
   ],
   "note": "requests are handled one after the other; storing and reading a configuration gives an equal one"
  },
  {
   "property": "C98",
   "status": "partial",
   "theorems": [
    "Acltk.Web.C98_no_filter",
    "Acltk.Web.C98_page_partial",
    "Acltk.Web.C98_sample"
   ],
   "note": "violated by the code where C90 and C92 are (a selected rule of an IOS list in use; keywords with expanded groups); proved in all other cases, with the exact condition for the warning"
  },
  {
   "property": "C99",
   "status": "partial",
   "theorems": [
    "Acltk.Web.C99_refused_upload_partial",
    "Acltk.Web.C99_violated",
    "Acltk.Web.C99_sample"
   ],
   "note": "violated by the code: a refused upload is a server error, because the handler catches TypeError and ValueError is raised; proved: exactly the accepted files are stored, and no other changes the store"
  }
 ]
}