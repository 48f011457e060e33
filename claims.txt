c("C01","proved","C01_host_matching_is_intersection C01_host_matching_with_wildcard C01_any_matches_everything","exception spelled out: any & empty group is True")
c("C02","proved","C02_symmetric C02_empty_group_asymmetric","for hosts denoting at least one address; the empty group is the stated exception")
c("C03","proved","C03_wildcard_host C03_wildcard_network")
c("C04","partial","C04_violated C04_exact C04_no_cross_version_partial","violated by the code: the version is not looked at; C04_exact says exactly which IPv6 hosts and networks match, so it holds outside ::/96")
c("C05","partial","C05_violated C05_terminates_partial C96_diverges_exactly","violated by the code for wildcard & wildcard (infinite recursion); C96 says exactly when")
c("C06","proved","C06_ANY_is_literal C06_ANY_rejects_rest")
c("C07","proved","C07_rule_match_iff C07_rule_match_addresses C07_only_id_src_dst")
c("C08","proved","C08_id_compatibility C08_incompatible_ids_never_match C08_cases")
c("C09","proved","C09_fnmatch_is_glob C09_fnmatch_no_bracket C09_quirk","the stated exception has a witness theorem")
c("C10","proved","C10_filter_exact C10_filter_returns C10_order_irrelevant")
c("C11","proved","C11_run_is_set_algebra C11_order_irrelevant")
c("C12","proved","C12_precedence C12_total")
c("C13","proved","C13_clauses_accumulate C13_grouping_irrelevant C13_more_addresses_grow")
c("C14","partial","C14_violated C14_violated_witness C14_violated_raises C14_parenthesis_partial C14_exact C14_exact_sample","violated by the code: the id is dropped or the parser raises; C14_exact says exactly when, for every set with a parenthesis")
c("C15","proved","C15_filter_never_fails","end to end from CAF syntax tree to result set")
c("C16","partial","C16_violated C16_violated_all C16_comment_end_partial","violated by the code for bodies ending in an odd number of stars")
c("C17","proved","C17_nat_match_iff C17_nat_match_returns C17_nat_ignores_id")
c("C18","proved","C18_config_filter")
c("C19","proved","C19_network_denotes C19_network_rejects C19_mask_unique C19_address_text_round_trip C19_v4_text")
c("C20","partial","C20_violated C20_exact C20_ios_wildcard_partial C20_ios_ipv6","violated by the code for wildcards that are shaped like a netmask")
c("C21","proved","C21_range_covers C21_range_rejects C21_other_object_types")
c("C22","proved","C22_wildcard_enumeration_exact")
c("C23","proved","C23_network_expand C23_plain_expand C23_service_expand")
c("C24","proved","C24_expand_keeps_matching C24_expand_keeps_matching_right C24_any_filter_can_grow C24_any_filter_never_shrinks")
c("C25","proved","C25_every_group_gets_its_leaves C25_order_irrelevant C25_cyclic_group_raises","cyclic groups raise RecursionError")
c("C26","proved","C26_collapse_v4 C26_order_and_duplicates_irrelevant C26_idempotent")
c("C27","partial","C27_violated_ipv6 C27_violated_mixed C27_violated_mixed_all C27_ipv6_exact C27_violated_any C27_keeps_or_rejects_partial C27_mixed_sample","violated by the code: witnesses; holds for IPv4 network members")
c("C28","proved","C28_sort_network C28_unsortable_rejected C28_sort_keeps_matching C28_sort_protocol C28_sort_port C28_sort_service C28_unnumbered_port_raises")
c("C29","proved","C29_named_members_first")
c("C30","partial","C30_violated_service_protocol C30_violated_network C30_network_exact C30_network_unchanged_iff C30_network_exact_sample C30_sort_copy_partial","violated by the code: every service and protocol group, and exactly those groups of networks that are not minimal and in order; holds for port groups and groups with a host, group or any member")
c("C31","proved","C31_comparisons C31_total_order C31_unordered_cases","for ports with a number; the others raise TypeError as stated")
c("C32","partial","C32_violated C32_identity_partial","violated by the code: hash is the identity")
c("C33","partial","C33_violated C33_exact C33_port_range_partial","violated by the code for different numbers of digits; C33_exact: numbers are accepted iff in dictionary order")
c("C34","proved","C34_number_checks C34_every_port_accepted")
c("C52","partial","C52_violated C52_lookup_partial","violated by the code when a protocol is given")
c("C53","partial","C53_violated C53_ports_partial","violated by the code: port-object eq loses the number")
c("C35","proved","Config.C35_rules_in_file_order Config.C35_ios_rules_in_file_order")
c("C36","proved","Config.C36_definition_tables")
c("C37","partial","Config.C37_violated_service_object Config.C37_violated_group Config.C37_references_partial Config.C37_single_definition_partial Config.C37_sample","violated by the code for re-defined names; exact binding proved for every history")
c("C38","proved","Config.C38_nat_sections")
c("C39","proved","Config.C39_access_group_binding Config.C39_distinct_aliases Config.C39_access_groups_table")
c("C40","proved","Lookup.C40_reference_is_the_word Lookup.C40_reference_before_slash Lookup.C40_sample")
c("C41","proved","Detect.C41_auto_detection Detect.C41_sample","over three arbitrary parsers")
c("C42","proved","Config.C42_routes")
c("C43","proved","Resolve.C43_resolve_is_closure Resolve.C43_sample")
c("C44","partial","Resolve.C44_violated Resolve.C44_raises_iff_partial","violated by the code: TypeError for a rule whose list is bound to an IOS interface")
c("C45","proved","Ifc.C45_trunk_list Ifc.C45_sample")
c("C46","partial","Banner.C46_violated_caret Banner.C46_violated_non_ascii Banner.C46_violated_non_ascii_all Banner.C46_ascii_partial Banner.C46_caret_partial Banner.C46_sample","violated by the code for ^^C and non-ASCII delimiters")
c("C56","proved","Ifc.C56_interface_attributes Ifc.C56_rejected_iff Ifc.C56_address_line")
c("C57","partial","Lookup.C57_violated Lookup.C57_violated_all Lookup.C57_nat_interface_partial Lookup.C57_exact Lookup.C57_exact_sample","violated by the code for interface names starting with the keyword any and something else than a letter or digit; C57_exact says exactly what is read")
c("C47","proved","Pf.C47_rule Pf.C47_accepted_iff Pf.C47_sample")
c("C48","proved","Pf.C48_separators Pf.C48_row_number Pf.C48_one_rule Pf.C48_sample Pf.C48_sample_contiguous")
c("C49","partial","Pf.C49_violated Pf.C49_violated_configuration Pf.C49_dynamic_partial","violated by the code: an interface with a static address raises IndexError; exact behaviour of the others proved")
c("C58","partial","Pf.C58_violated Pf.C58_violated_all Pf.C58_networks_partial Pf.C58_exact","violated by the code for every optional interface with a description; C58_exact says exactly which tags are found")
c("C59","partial","Pf.C59_violated Pf.C59_exact Pf.C59_exact_sample Pf.C59_interfaces_partial Pf.C59_sample","violated by the code when an interface is described by the tag of another one; C59_exact says which list every rule belongs to")
c("C60","partial","Pf.C60_violated Pf.C60_host_partial Pf.C60_network_partial Pf.C60_port_partial Pf.C60_urltable_partial Pf.C60_types_partial Pf.C60_violated_sample","violated by the code for host aliases with a word that is not an address; network, port and URL aliases proved without restriction")
c("C61","proved","Pf.C61_configuration Pf.C61_sample")
c("C50","partial","NatCmd.C50_violated NatCmd.C50_object_nat_partial NatCmd.C50_sample","violated by the code: both sides carry the real port; the rest of the command is proved")
c("C51","partial","NatCmd.C51_violated NatCmd.C51_static_partial NatCmd.C51_sample","violated by the code for dynamic NAT; static NAT proved")
c("C54","partial","NatCmd.C54_violated NatCmd.C54_violated_filter NatCmd.C54_same_block_partial NatCmd.C54_order_partial NatCmd.C54_sample","violated by the code when the NAT line has its own block")
c("C55","partial","Ifc.C55_violated Ifc.C55_standby_partial Ifc.C55_sample Ifc.C55_violated_sample","violated by the code for lines without standby; exact for lines with standby")
c("C62","proved","NatCmd.C62_twice_nat")
c("C63","partial","Config.C63_violated Config.C63_violated_pfsense Config.C63_scalars_partial Config.C63_sample","violated by the code: trailing dot without a domain statement and for every pfSense configuration")
c("C64","proved","C64_address_text C64_unique C64_sample")
c("C65","proved","C65_int_text C65_sample")
c("C66","proved","AclText.C66_line_read_as_written AclText.C66_sample AclText.C66_sample_line AclText.C66_sample_words")
c("C67","partial","AclText.C67_remarks_attached AclText.C67_violated_other_list AclText.C67_violated_carriage_return","remarks are attached completely and in order; violated by the code for remarks of another list and for CR LF files")
c("C68","partial","AclText.C68_violated_log_level AclText.C68_violated_any_name AclText.C68_violated_same_name AclText.C68_violated_range AclText.C68_violated_leading_zero AclText.C68_violated_joined_words AclText.C66_line_read_as_written","violated by the code (witnesses); the lines that are read are those of C66")
c("C69","proved","AclText.C69_one_rule_one_line AclText.C69_dropped_is_ethertype AclText.C69_ethertype_sample AclText.C69_sample")
c("C70","proved","FwsmText.C70_rules_are_lines FwsmText.C70_no_rule_lost FwsmText.C70_exactly FwsmText.C70_indented_line_becomes_rule FwsmText.C70_sample","for every accepted text; the blanks exception is exact and shown by a witness")
c("C71","proved","FwsmText.C71_command_read_as_written","all command forms but ethertype lists and time ranges with several days (refused, C78); NAT, references, masks, ranges and time ranges included")
c("C72","proved","FwsmText.C72_file_read_as_written FwsmText.C72_unambiguous FwsmText.C72_sample FwsmText.C72_sample2","all command forms of C71")
c("C73","proved","CafText.C73_filter_text_selects CafText.C73_filter_text_value CafText.C73_sample","white space required where the grammar needs it; comments in the places the grammar has (C75)")
c("C74","proved","CafText.C74_accepted_text_is_a_filter","for every text")
c("C75","partial","CafText.C75_comments_partial CafText.C75_violated CafText.C75_violated_clause","violated by the code: a comment directly behind an id becomes part of the id, a comment inside an ip clause is refused; proved for comments in front of and between clauses and operands")
c("C76","partial","CafText.C76_violated","violated by the code: 192.168.1.25510.0.0.1 is read as two addresses; what holds of all accepted texts is C74")
c("C77","proved","CafFilter.C77_filter_configuration CafFilter.C77_sample","FWSM/ASA configurations of the command forms of C71")
c("C78","partial","FwsmText.C78_single_day_partial FwsmText.C78_violated FwsmText.C78_violated_sample FwsmText.C78_single_sample","violated by the code: no white space is allowed between the days, so every such entry is refused; entries with one day are read as written (C71)")
c("C79","proved","CafFilter.C79_nat_table CafFilter.C79_position CafFilter.C79_sample","on top of C62 (the values of the entries) and C72 (the text)")
c("C80","proved","IosText.C80_command_read_as_written IosText.C80_file_read_as_written IosText.C80_unambiguous IosText.C80_sample","the command forms are listed in Spec/IosSpec.lean")
c("C81","partial","IosText.C81_other_numbers_refused IosText.C81_numbers_read_partial IosText.C81_violated","violated by the code: standard lists 1400-1999 are refused, and with them the configuration; all other numbers are read")
c("C82","partial","IosConfig.C82_routes_partial IosConfig.C82_violated IosConfig.C82_violated_interface IosConfig.C82_sample","violated by the code: a route with anything behind the gateway, or to an interface not defined before, is dropped silently; proved for the others")
c("C83","proved","IosConfig.C83_filter_ios_configuration IosConfig.C83_sample","IOS configurations of the command forms of C80")
c("C84","partial","IosText.C84_remarks_kept_partial IosText.C84_violated IosText.C84_violated_sample","violated by the code: a remark behind the last rule of a numbered list makes the whole configuration refused; proved for remarks with a rule behind them")
c("C85","proved","IosConfig.C85_access_groups IosConfig.C85_sample","on top of C56 (the lines of an interface) and C80 (the text)")
c("C86","partial","DetectText.C86_fwsm_text DetectText.C86_ios_text_partial DetectText.C86_xml DetectText.C86_other_text DetectText.C86_samples DetectText.C86_violated_silent_text","violated by the code: an IOS text without a version line and without a rule is silently read as an FWSM configuration and its routes are lost; proved for FWSM texts, for IOS texts with a version line or a rule, and for XML and any other text that begins, behind empty lines, with `<` or a character outside ASCII")
c("C87","proved","DetectText.C87_filter_detected_fwsm DetectText.C87_filter_detected_ios DetectText.C87_samples","the kind is found by the program as in C86")
c("C88","proved","ConfigFilter.C88_config_filter_fwsm ConfigFilter.C88_config_filter_ios ConfigFilter.C88_sample ConfigFilter.C88_meant","also proved on the way: no NAT entry of a configuration text is left with the keyword `interface` as a side (ConfigFilter.host_nodes)")
c("C89","proved","PfFilter.C89_filter_pfsense PfFilter.C89_refused PfFilter.C89_sample PfFilter.C89_refused_sample","reading the XML is a parameter; the ids of the rules (names of interfaces) are assumed not to be patterns with degenerate brackets")
c("C90","partial","Render.C90_render_fwsm Render.C90_render_ios_partial Render.C90_render_pfsense Accepted.C90_accepted_texts_partial Accepted.C90_accepted_sample Render.C90_violated Render.C90_sample Render.C90_sample_pfsense","holds for FWSM and pfSense texts; for IOS texts it is violated by the code, and the theorem characterises exactly when: the filter selects a rule of a list that an interface uses (TypeError); the heaps are any that hold the parsed rules and NAT entries and refer to finitely many objects; C90_accepted_texts_partial: the same for whatever filter text and configuration text is accepted")
c("C91","partial","IosLines.C91_rules_are_lines_partial IosLines.C91_sample IosLines.C91_violated_pool IosLines.C91_violated_indented IosLines.C91_violated_end IosLines.C91_violated_caret IosLines.C91_violated_banner_indented","violated by the code: lines behind a DHCP pool are swallowed, indented access-list and banner commands behind a port group are taken for commands, everything behind a line beginning with `line` or `end` is dropped, the end `^^C` of a banner is missed; proved for all texts (banners included) without these lines, up to the line `line` or `end`; banner commands with characters outside ASCII are excluded, where the code does not end the message at the delimiter (C46)")
c("C92","partial","ExpandFilter.C92_expand_keeps_selection_partial ExpandFilter.C92_expand_expands ExpandFilter.C92_sample Accepted.C92_accepted_texts_partial Accepted.C92_text_sample ExpandFilter.C92_violated","violated by the code for the keywords ANY, ANY4, ANY6 when a group has an object with a domain name; proved for all filters without these keywords, and for all filters when no group has such an object; C92_accepted_texts_partial: the same for whatever filter text and configuration text of any kind is accepted")
c("C93","proved","Accepted.C93_accepted_texts_are_filtered Accepted.C93_ids_sane Accepted.C93_sample","for all three kinds; an id in front of a parenthesis is ignored (C14)")
c("C94","proved","Accepted.C94_fwsm_hosts Accepted.C94_ios_hosts Accepted.C94_fwsm_hosts_match Accepted.C94_mixed_hosts_match Pf.C94_pfsense_hosts Pf.C94_pfsense_hosts_match Accepted.C94_sample Accepted.C94_fwsm_sample Pf.C94_pfsense_sample","for every accepted text")
c("C95","proved","FileText.C95_decoded FileText.C95_config_file FileText.C95_filter_file FileText.C95_accepted_files_are_filtered FileText.C95_second_mark FileText.C95_sample FileText.C95_sample_refused","the texts are then handled as in C74, C86, C93")
c("C96","proved","C96_diverges_exactly C96_sample mem_leaves","the exact form of what C05 leaves open")
c("C97","proved","Web.C97_last_upload Web.C97_index Web.C97_only_uploads Web.C97_independent Web.C97_upload_then_show Web.C97_sample","requests are handled one after the other; storing and reading a configuration gives an equal one")
c("C98","partial","Web.C98_no_filter Web.C98_page_partial Web.C98_sample","violated by the code where C90 and C92 are (a selected rule of an IOS list in use; keywords with expanded groups); proved in all other cases, with the exact condition for the warning")
c("C99","partial","Web.C99_refused_upload_partial Web.C99_violated Web.C99_sample","violated by the code: a refused upload is a server error, because the handler catches TypeError and ValueError is raised; proved: exactly the accepted files are stored, and no other changes the store")
c("C100","proved","Page.C100_rows Page.number_unique Page.C100_heads Page.C100_sample","the HTML around the rows is not modelled")
c("C101","proved","Page.C101_sections Page.C101_nat Page.C101_sample Page.built_wellFormed Page.built_sample","for tables that agree with their objects (built_wellFormed: those the parser builds), and a selection completed as C43 says")
c("C102","partial","Page.C102_links_partial Page.C102_interfaces_unfiltered Page.C102_violated_interfaces Page.C102_violated_redefined Page.C102_sample Page.C102_violated_sample Page.built_wellFormed Page.redefined_built","violated by the code for links to interfaces (resolve never adds the label of their section) and to groups defined again; proved for all other links, and for links to interfaces without a filter")
c("C103","partial","Page.C103_succeeds_iff Page.C103_sorted Page.classKeys_total Page.C103_violated Page.C103_sample","violated by the code for groups with a member port-object eq, which has no key; proved: when it succeeds and what it then does")
c("C104","partial","Static.C104_page_partial Static.C104_no_filter_partial Static.C104_refused Static.C104_same_as_show Static.rules_of Static.C104_sample","violated by the code where C44, C92 and C103 are; proved: exactly when nothing is written, what is on the page otherwise, and that /show shows the same; the object graph of the configuration is any that agrees with its tables (C101)")
c("C105","partial","Dos.C105_fwsm_partial Dos.C105_ios_partial Dos.C105_detect_partial Dos.C105_filter_partial Dos.C105_select_partial Dos.C105_files_partial Dos.C105_violated_free_text Dos.C105_violated_empty_description Dos.C105_violated_empty_banner Dos.C105_sample","violated by the code where a line ends in the bare word description (or motd for IOS) and for the end of free text; proved for all other texts, with mixed line ends too; that the XML reader of pfSense does not see line ends is a hypothesis")
c("C106","proved","Dos.C106_filter_text Dos.C106_sample","mixed line ends too")
c("C107","proved","C107_references C107_identities C107_sample","identities stand for Python objects; that the word written is the name of that definition is C72 (file read as written)")
c("C108","partial","Static.C108_listed Static.C108_page_partial Static.C108_no_filter_partial Static.C108_links_partial Static.C108_exact Page.once_settled Page.C108_objects Static.C108_sample Page.C108_settled_sample","texts that refer to a definition that is not kept are excluded: the code violates it there (C102_violated_redefined), and only there (C108_exact); links to interfaces as in C102; --expand is C114")
c("C109","partial","AclFilter.C109_violated AclFilter.C109_sample","violated by the code for every accepted file; the first number printed is proved right")
c("C110","proved","Web.C110_one_after_the_other Web.C110_upload_seen Web.C110_sample","a single operation on the shelf (in, [], []=, keys) is taken to be atomic and durable")
c("C111","partial","Static.C111_listed Static.C111_page_partial Static.C111_no_filter_partial Static.C111_links_partial Static.C111_links_unfiltered PfPage.C111_objects Static.C111_sample","configurations with an alias without a name are not covered, --expand is C114; with a filter links to interfaces as in C102")
c("C112","proved","C112_references C112_identities C112_no_objects C112_only_groups C112_sample","identities stand for Python objects; that the word written is the name of that definition is C80 (file read as written)")
c("C113","partial","Static.C113_listed Static.C113_page_partial Static.C113_no_filter_partial Static.C113_links_partial Static.C113_exact IosPage.once_settled IosPage.C113_objects Static.C113_sample","texts that refer to a group that is redefined later are excluded: the code links the wrong one there, and only there (C113_exact); a filter that selects a rule of a bound list makes the code raise (C44); links to interfaces as in C102; --expand is C114")
c("C114","partial","Static.C114_text Page.C114_expand Page.C114_leaves Page.C114_circle_raises Page.C114_circle_sample Page.C114_wellFormed Accepted.C114_holds Static.C114_listed Static.C114_no_filter_partial Static.C114_page_partial Static.C114_links_partial Static.C114_sample","excluded: texts that refer to a definition that is not kept (exactly those of C108_exact, C113_exact), unnamed pfSense aliases, filters with a keyword where a network object stands for all addresses (violated there, C92), links to interfaces (C102); the hosts of rules after the expansion are an assumption of the filtered page (C92_expand_expands proves it of the heap of network groups)")
c("C115","partial","Cells.C115_host Cells.C115_host_injective Cells.C115_fwsm Cells.C115_ios Cells.C115_pfsense Cells.C115_port_partial Cells.C115_violated_range Cells.C115_violated_eq Cells.C115_sample","hosts are proved without restriction; for ports violated by the code: ranges of services with a hyphen, and port-object eq; proved for all other ports")
c("C116","partial","Cells.C116_row_partial Cells.C116_fwsm_partial Cells.C116_equal_rows_partial Cells.C116_violated_code Cells.C116_violated_icmp6 Cells.C116_violated_port Cells.C116_violated_sample Cells.C116_sample","violated by the code for icmp codes, types of icmp6 and ports of icmp rules; proved for all other rules (rules with a URL and the arguments of log are not read back)")
c("C117","partial","Cells.C117_row_partial Cells.C117_ios_partial Cells.C117_equal_rows_partial Cells.C117_violated_code Cells.C117_violated_icmp6 Cells.C117_violated_port Cells.C117_violated_none Cells.C117_violated_sample Cells.C117_sample","violated by the code for icmp codes, types of icmp6 and ports of icmp rules, and for options with the value None; proved for all other rules, with the value None for options without a value")
c("C118","proved","Cells.C118_service Cells.C118_fwsm Cells.C118_ios Cells.C118_shown Cells.C118_shown_ios Cells.C118_equal_sections Cells.C118_sample","the number of a port object `eq` is lost by the parser and shown as the word None; descriptions are not part of the model of a section")
c("C119","partial","Cells.C119_row_partial Cells.C119_pfsense_partial Cells.C119_equal_rows_partial Cells.C119_violated_port Cells.C119_violated_icmp Cells.C119_sample","violated by the code for ports of icmp rules and icmp types of other rules; proved for all other rules; the interfaces of floating rules and the state type are in the model of the row but not in what is read")
c("C120","partial","Cells.C120_row_partial Cells.C120_fwsm_partial Cells.C120_equal_rows_partial Cells.C120_readable Cells.C120_violated_service Cells.C120_violated_icmp Cells.C120_sample","violated by the code for the protocol of the mapped service and for icmp types of services; everything else the entry holds is proved to be in the rows; the words auto and after-auto are the heading of the table")
c("C121","proved","Cells.C121_section Cells.C121_fwsm Cells.C121_ios Cells.C121_shown Cells.C121_equal_sections Cells.C121_sample","no description and an empty one are the same on the page; the markup between the cells is not modelled")
c("C122","proved","Cells.C122_section Cells.C122_equal_sections Cells.C122_sample","the C locale and the printing of years by glibc are assumed; the day before the end is taken to be printed as written")
c("C123","proved","Cells.C123_section Cells.C123_fwsm Cells.C123_ios Cells.C123_equal_sections Cells.C123_sample","the rows of routes are C124; the markup between the cells is not modelled; an interface is taken to be in the table under its alias")
c("C124","proved","Cells.C124_row Cells.C124_equal_rows Cells.C124_sample","which routes an interface has is C42; the order of the rows of routes to the same network is not modelled")
