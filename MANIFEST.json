{
 "claims": [
  {
   "property": "C01",
   "status": "proved",
   "theorems": [
    "Mapl.Props.C01_most_severe_wins",
    "Mapl.Props.C01_memory"
   ],
   "note": "The _memory theorem is the same for documents in memory, without restrictions."
  },
  {
   "property": "C02",
   "status": "partial",
   "theorems": [
    "Mapl.Props.C02_block_overrides",
    "Mapl.Props.C02_block_result_overrides",
    "Mapl.Props.C02_memory_partial",
    "Mapl.Props.C02_violated_memory"
   ],
   "note": "In memory (Model/Memory) false for a text document and an ANY or ALL with several parent paths, because the check then writes into the document (C89); the _memory_partial theorems hold for parsed documents, for one parent path, and for several if the library makes copies for all but the last; the other theorems are about documents as values."
  },
  {
   "property": "C03",
   "status": "partial",
   "theorems": [
    "Mapl.Props.C03_rule_order",
    "Mapl.Props.C03_rule_order_determined",
    "Mapl.Props.C03_memory_partial",
    "Mapl.Props.C03_violated_memory"
   ],
   "note": "Executions may differ in map iteration order; the set of possible outcomes is invariant, and each outcome is when single verdicts are determined. In memory (Model/Memory) false for a text document and an ANY or ALL with several parent paths, because the check then writes into the document (C89); the _memory_partial theorems hold for parsed documents, for one parent path, and for several if the library makes copies for all but the last; the other theorems are about documents as values."
  },
  {
   "property": "C04",
   "status": "proved",
   "theorems": [
    "Mapl.Props.C04_relevant_rule",
    "Mapl.Props.C04_memory"
   ],
   "note": "The _memory theorem is the same for documents in memory, without restrictions."
  },
  {
   "property": "C05",
   "status": "proved",
   "theorems": [
    "Mapl.Props.C05_applied_rules",
    "Mapl.Props.C05_memory"
   ],
   "note": "The _memory theorem is the same for documents in memory, without restrictions."
  },
  {
   "property": "C06",
   "status": "partial",
   "theorems": [
    "Mapl.Props.C06_removing_weakens",
    "Mapl.Props.C06_inserting_strengthens",
    "Mapl.Props.C06_monotone_determined",
    "Mapl.Props.C06_memory_partial",
    "Mapl.Props.C06_violated_memory"
   ],
   "note": "In memory (Model/Memory) false for a text document and an ANY or ALL with several parent paths, because the check then writes into the document (C89); the _memory_partial theorems hold for parsed documents, for one parent path, and for several if the library makes copies for all but the last; the other theorems are about documents as values."
  },
  {
   "property": "C07",
   "status": "partial",
   "theorems": [
    "Mapl.Props.C07_rules_independent",
    "Mapl.Props.C07_verdicts_combine",
    "Mapl.Props.C07_memory_partial",
    "Mapl.Props.C07_violated_memory"
   ],
   "note": "In memory (Model/Memory) false for a text document and an ANY or ALL with several parent paths, because the check then writes into the document (C89); the _memory_partial theorems hold for parsed documents, for one parent path, and for several if the library makes copies for all but the last; the other theorems are about documents as values."
  },
  {
   "property": "C08",
   "status": "partial",
   "theorems": [
    "Mapl.Props.C08_message_unchanged",
    "Mapl.Props.C08_one_rule_unchanged",
    "Mapl.Props.C08_prepared_rule_unchanged",
    "Mapl.Props.C08_memory_partial",
    "Mapl.Props.C08_violated_memory",
    "Mapl.Props.C89_message",
    "Mapl.Props.C89_outside"
   ],
   "note": "In memory (Model/Memory) false for a text document and an ANY or ALL with several parent paths, because the check then writes into the document (C89); the _memory_partial theorems hold for parsed documents, for one parent path, and for several if the library makes copies for all but the last; the other theorems are about documents as values. For all rules the fields of the message are as before (C89_message), only bytes of its text documents and behind them can change (C89_outside)."
  },
  {
   "property": "C09",
   "status": "proved",
   "theorems": [
    "Mapl.Props.C09_rule_applies",
    "Mapl.Props.C09_rule_applies_execution",
    "Mapl.Props.C09_fresh_rule_applies",
    "Mapl.Props.C09_preparation_expands",
    "Mapl.Props.fresh_prepared",
    "Mapl.Props.C09_written_rule"
   ],
   "note": "Rule applies iff every part matches; for prepared rules, for rules as parsed, and down to the written texts (names, subnets, resource, operation)."
  },
  {
   "property": "C10",
   "status": "proved",
   "theorems": [
    "Mapl.Props.C10_sender",
    "Mapl.Props.C10_receiver"
   ],
   "note": "Under RegexpOk (the regexp engine behaves as the relational semantics on the fragment used); names over the safe alphabet PlainPattern."
  },
  {
   "property": "C100",
   "status": "proved",
   "theorems": [
    "Mapl.Props.C100_condition",
    "Mapl.Props.C100_tree",
    "Mapl.Props.C100_flat",
    "Mapl.Props.C100_check"
   ],
   "note": "The condition is exact for single conditions. For ANY and ALL see SelectFails (Spec/Panics.lean); the positions at which they are judged are given by Comes."
  },
  {
   "property": "C101",
   "status": "partial",
   "theorems": [
    "Mapl.Props.C101_allow_all",
    "Mapl.Props.C101_blacklist",
    "Mapl.Props.C101_books_partial",
    "Mapl.Props.C101_violated_service",
    "Mapl.Props.C101_violated_lists",
    "Mapl.Props.C101_violated_read"
   ],
   "note": "default_allow applies to every message whose service names have no line break (and to no other: violated there), and makes every policy a blacklist. The books rule is exact for the type workload and for the methods GET, HEAD, OPTIONS, TRACE. Violated, and proved so: rules with the type service never apply, lists with semicolons are one pattern, read does not cover CONSUME nor write PRODUCE."
  },
  {
   "property": "C102",
   "status": "partial",
   "theorems": [
    "Mapl.Props.C102_not_all_partial",
    "Mapl.Props.C102_any_partial",
    "Mapl.Props.C102_equivalent_partial",
    "Mapl.Props.C102_mounts_partial",
    "Mapl.Props.C102_key_partial",
    "Mapl.Props.C102_value_partial",
    "Mapl.Props.C102_container_partial",
    "Mapl.Props.C102_violated_missing"
   ],
   "note": "Exact for documents that have the lists and objects which the examples are about, with texts (for limits also small whole numbers) in the places that are compared; the libraries for paths are assumed to find what is there (PathsOk). Violated where there are no containers: for texts 6a and 6b differ if the library reports an error (C102_violated_missing)."
  },
  {
   "property": "C103",
   "status": "partial",
   "theorems": [
    "Mapl.Props.C103_rule",
    "Mapl.Props.C103_policy",
    "Mapl.Props.C103_violated_utc",
    "Mapl.Props.C103_violated_manual"
   ],
   "note": "Exact for the clock of the zone of the time stamp, for limits in whole minutes and float64 operations as in RoundOk; violated for UTC: the hours that are called UTC are those of the zone (C103_violated_utc for every time stamp with another zone, C103_violated_manual for the rule of the manual). The number texts are assumed to be read as the closest float64 and to compile as patterns."
  },
  {
   "property": "C104",
   "status": "partial",
   "theorems": [
    "Mapl.Props.C104_conditions_partial",
    "Mapl.Props.C104_rule_partial",
    "Mapl.Props.C104_policy_partial",
    "Mapl.Props.C104_loaded_partial",
    "Mapl.Props.C104_flows",
    "Mapl.Props.C104_violated_and",
    "Mapl.Props.C104_violated_lost"
   ],
   "note": "Holds for claims, ANY that asks for values, and AND and OR of these, on parsed documents and on texts; whole elements of texts are not included. Violated by AND: the values of all conditions but the last that returns any are lost."
  },
  {
   "property": "C105",
   "status": "partial",
   "theorems": [
    "Mapl.Props.C105_conditions_partial",
    "Mapl.Props.C105_policy_partial",
    "Mapl.Props.C105_loaded_partial",
    "Mapl.Props.C105_covers",
    "Mapl.Props.C105_paths",
    "Mapl.Props.C105_violated_mixed",
    "Mapl.Props.C105_violated_text"
   ],
   "note": "Proved for documents in which everything that the path finds is a list of objects, for texts if moreover these objects contain no list of lists and no string that looks like one. Both conditions are needed: one value under the path that is not a list hides the elements of all lists (C105_violated_mixed), and a list of lists in one object makes the ANY false for a text but not for the parsed document (C105_violated_text). What the json path libraries give for a deep scan is assumed (DeepOk); C105_covers and C105_paths relate the deep scan to explicit paths."
  },
  {
   "property": "C106",
   "status": "partial",
   "theorems": [
    "Mapl.Props.C106_partial",
    "Mapl.Props.C106_unset",
    "Mapl.Props.C106_subnets",
    "Mapl.Props.C106_violated"
   ],
   "note": "Proved for rules that look at none of the parts which only the reader of a list of messages fills in: the addresses as numbers, the hour, the labels. For other rules it is false: a message read alone has none of these (C106_unset), so that a rule for subnets never applies to it (C106_subnets, for all such rules and messages), and rules for hours and labels decide differently (C106_violated)."
  },
  {
   "property": "C107",
   "status": "partial",
   "theorems": [
    "Mapl.Props.C107_partial",
    "Mapl.Props.C107_less_partial",
    "Mapl.Props.C107_tables",
    "Mapl.Props.C107_violated_empty"
   ],
   "note": "Proved for lists that have at least one entry to begin with. It is false for an empty list: as a list of senders it stands for the empty name, so that a message without a sender is blocked only as long as the list is empty (C107_violated_empty). C107_tables takes the claim from the tables as written to the tables as used. Lists used with IN and NIN consist of plain words."
  },
  {
   "property": "C108",
   "status": "partial",
   "theorems": [
    "Mapl.Props.C108_partial",
    "Mapl.Props.C108_violated_reference"
   ],
   "note": "For all policies of C74, any choice of references, in names and in conditions at any depth; both policies are accepted and have the same results. Missing: strings that look like references themselves (violated: C108_violated_reference) and strings with control characters."
  },
  {
   "property": "C109",
   "status": "partial",
   "theorems": [
    "Mapl.Props.C109_partial",
    "Mapl.Props.C109_error",
    "Mapl.Props.C109_length",
    "Mapl.Props.C109_violated_parts",
    "Mapl.Props.C109_violated_long",
    "Mapl.Props.C109_violated_size"
   ],
   "note": "For regular files of at most a gigabyte, of any content. Violated for longer files and for all files that are delivered in parts (the rest is zeros, no error) and for files without a known size such as pipes (no bytes, no error). bufio and os.File as in Go 1.18; the operating system is an argument."
  },
  {
   "property": "C11",
   "status": "proved",
   "theorems": [
    "Mapl.Props.C11_resource",
    "Mapl.Props.C12_operation"
   ],
   "note": "Resource paths and operations glob as written."
  },
  {
   "property": "C110",
   "status": "partial",
   "theorems": [
    "Mapl.Props.C110_partial",
    "Mapl.Props.C110_error",
    "Mapl.Props.C110_repeated",
    "Mapl.Props.C110_policy_partial",
    "Mapl.Props.C110_violated_backslash"
   ],
   "note": "For all documents; messages and tables for all names, rules for names without a backslash. Violated for rules and names with a backslash: the readers of rules replace it by a slash and read another file, the readers of messages and tables do not. The parser of YAML is an argument. C110_policy_partial: tables, rules and messages in three files, and each message is decided by what the rules say."
  },
  {
   "property": "C12",
   "status": "proved",
   "theorems": [
    "Mapl.Props.C12_keywords",
    "Mapl.Props.C12_operation"
   ],
   "note": ""
  },
  {
   "property": "C13",
   "status": "proved",
   "theorems": [
    "Mapl.Props.C13_sender",
    "Mapl.Props.C13_receiver",
    "Mapl.Props.C13_entry",
    "Mapl.Props.C13_not_ipv4"
   ],
   "note": "IPv4 networks, single addresses and *."
  },
  {
   "property": "C14",
   "status": "proved",
   "theorems": [
    "Mapl.Props.C14_tcp",
    "Mapl.Props.C14_any_protocol",
    "Mapl.Props.C14_other_protocol"
   ],
   "note": ""
  },
  {
   "property": "C15",
   "status": "proved",
   "theorems": [
    "Mapl.Props.C15_unsupported_types",
    "Mapl.Props.C15_unsupported_types_prepared"
   ],
   "note": ""
  },
  {
   "property": "C16",
   "status": "proved",
   "theorems": [
    "Mapl.Props.C16_decision_keywords",
    "Mapl.Props.C16_decision_given"
   ],
   "note": ""
  },
  {
   "property": "C17",
   "status": "partial",
   "theorems": [
    "Mapl.Props.C17_tree_is_formula",
    "Mapl.Props.C17_tree_is_formula_execution",
    "Mapl.Props.C17_no_entry_leaves",
    "Mapl.Props.C17_elements",
    "Mapl.Props.C17_elements_of_scope",
    "Mapl.Props.C17_memory_partial",
    "Mapl.Props.C20_violated_memory"
   ],
   "note": "Whenever evaluation returns. In memory (Model/Memory) false for a text document and an ANY or ALL with several parent paths, because the check then writes into the document (C89); the _memory_partial theorems hold for parsed documents, for one parent path, and for several if the library makes copies for all but the last; the other theorems are about documents as values."
  },
  {
   "property": "C18",
   "status": "partial",
   "theorems": [
    "Mapl.Props.C18_not_and",
    "Mapl.Props.C18_not_or",
    "Mapl.Props.C18_not_not",
    "Mapl.Props.C18_laws_anywhere",
    "Mapl.Props.C18_not_not_returns",
    "Mapl.Props.C18_not_and_memory_partial",
    "Mapl.Props.C18_not_or_memory_partial",
    "Mapl.Props.C18_not_not_memory_partial",
    "Mapl.Props.C18_not_not_memory_order",
    "Mapl.Props.C18_violated_memory",
    "Mapl.Props.C18_not_not_violated_memory"
   ],
   "note": "In memory (Model/Memory) false for a text document and an ANY or ALL with several parent paths, because the check then writes into the document (C89); the _memory_partial theorems hold for parsed documents, for one parent path, and for several if the library makes copies for all but the last; the other theorems are about documents as values. C18_not_not_memory_order needs none of this, for one order of iteration."
  },
  {
   "property": "C19",
   "status": "partial",
   "theorems": [
    "Mapl.Props.C19_dual_partial",
    "Mapl.Props.C19_dual_parsed",
    "Mapl.Props.C19_empty",
    "Mapl.Props.C19_dual_violated"
   ],
   "note": "Duality proved for parsed documents and whenever the selection of elements succeeds; violated (witness proved) for JSON text on which the path query fails: ANY and ALL are both false."
  },
  {
   "property": "C20",
   "status": "partial",
   "theorems": [
    "Mapl.Props.C20_child_order",
    "Mapl.Props.C20_memory_partial",
    "Mapl.Props.C20_violated_memory"
   ],
   "note": "In memory (Model/Memory) false for a text document and an ANY or ALL with several parent paths, because the check then writes into the document (C89); the _memory_partial theorems hold for parsed documents, for one parent path, and for several if the library makes copies for all but the last; the other theorems are about documents as values."
  },
  {
   "property": "C21",
   "status": "proved",
   "theorems": [
    "Mapl.Props.C21_any_reports",
    "Mapl.Props.C21_no_reports",
    "Mapl.Props.C21_or_concatenates"
   ],
   "note": ""
  },
  {
   "property": "C22",
   "status": "partial",
   "theorems": [
    "Mapl.Props.C22_rule_extra_only_with_match",
    "Mapl.Props.C22_tree_extra_partial",
    "Mapl.Props.C22_tree_extra_violated"
   ],
   "note": "Full at rule level; at tree level violated by AND (witness proved), proved for all other roots."
  },
  {
   "property": "C23",
   "status": "proved",
   "theorems": [
    "Mapl.Props.C23_no_conditions"
   ],
   "note": ""
  },
  {
   "property": "C24",
   "status": "partial",
   "theorems": [
    "Mapl.Props.C24_flag",
    "Mapl.Props.C24_prepared_rule_determined",
    "Mapl.Props.C24_check",
    "Mapl.Props.C24_rule",
    "Mapl.Props.C24_runs",
    "Mapl.Props.C24_policy_partial",
    "Mapl.Props.C24_violated"
   ],
   "note": "C24_policy_partial: for policies whose conditions, as written, do not ask for $KEY or $VALUE, prepared or not, any two runs of Check report the same but for the order of the extra data. C24_prepared_rule_determined also has these attributes if the objects in question have at most one entry. Violated otherwise (C24_violated)."
  },
  {
   "property": "C25",
   "status": "partial",
   "theorems": [
    "Mapl.Props.C25_payload",
    "Mapl.Props.C25_hours",
    "Mapl.Props.C25_version",
    "Mapl.Props.C25_json",
    "Mapl.Props.C25_laws_payload",
    "Mapl.Props.C25_laws_hours_partial",
    "Mapl.Props.C25_laws_json_partial",
    "Mapl.Props.C25_eq_ne",
    "Mapl.Props.C25_violated_nan"
   ],
   "note": "Comparisons are exactly the mathematical ones; the laws (exactly one of <,=,>, GE is not LT) hold for integers and for floats that are not NaN. NaN violates them: C25_violated_nan."
  },
  {
   "property": "C26",
   "status": "partial",
   "theorems": [
    "Mapl.Props.C26_text",
    "Mapl.Props.C26_label_partial",
    "Mapl.Props.C26_fields_partial",
    "Mapl.Props.C26_labels_partial",
    "Mapl.Props.C26_json_partial",
    "Mapl.Props.C26_violated_fields",
    "Mapl.Props.C26_violated_label",
    "Mapl.Props.C26_violated_json"
   ],
   "note": "Complementary for text attributes, present non-empty labels and json scalars; violated for sender/receiver field comparisons with RE/EX, empty labels with EX/NEX and NE on json values (witnesses proved)."
  },
  {
   "property": "C27",
   "status": "partial",
   "theorems": [
    "Mapl.Props.C27_interface",
    "Mapl.Props.C27_bytes_partial",
    "Mapl.Props.C27_returned",
    "Mapl.Props.C27_violated_null"
   ],
   "note": "Holds for parsed documents; for documents given as text it holds for errors, no result and empty values, and fails for null (witness proved)."
  },
  {
   "property": "C28",
   "status": "partial",
   "theorems": [
    "Mapl.Props.C28_only_named",
    "Mapl.Props.C28_two_labels",
    "Mapl.Props.C28_ex",
    "Mapl.Props.C28_missing",
    "Mapl.Props.C28_nex_partial",
    "Mapl.Props.C28_violated"
   ],
   "note": "Only the named labels matter and EX is existence; NEX is false on a missing label, contrary to the statement (witness proved)."
  },
  {
   "property": "C29",
   "status": "partial",
   "theorems": [
    "Mapl.Props.C29_partial",
    "Mapl.Props.C29_path_partial",
    "Mapl.Props.C29_accepted",
    "Mapl.Props.C29_violated_in",
    "Mapl.Props.C29_violated_ne",
    "Mapl.Props.C29_violated_list"
   ],
   "note": "Ten of the twelve groups of spellings agree on every attribute but json paths, eleven groups on json paths; in/nin, NE on json paths and re with a predefined list disagree (witnesses proved)."
  },
  {
   "property": "C30",
   "status": "proved",
   "theorems": [
    "Mapl.Props.C30_text",
    "Mapl.Props.C30_label",
    "Mapl.Props.C30_json",
    "Mapl.Props.C30_accepted"
   ],
   "note": "For every list of words without metacharacters, under RegexpOk (behaviour of Go's regexp on a small fragment)."
  },
  {
   "property": "C31",
   "status": "partial",
   "theorems": [
    "Mapl.Props.C31_unit_partial",
    "Mapl.Props.C31_decimal",
    "Mapl.Props.C31_plain",
    "Mapl.Props.C31_plain_exact",
    "Mapl.Props.C31_repeated_partial",
    "Mapl.Props.C31_one_unit",
    "Mapl.Props.C31_violated"
   ],
   "note": "Complete characterisation of the reading of units; decimals always work, a number whose text contains the unit (1E5E) is not read (witness proved)."
  },
  {
   "property": "C32",
   "status": "partial",
   "theorems": [
    "Mapl.Props.C32_condition_partial",
    "Mapl.Props.C32_tree_partial",
    "Mapl.Props.C32_check_partial",
    "Mapl.Props.C32_one_rule_is_enough",
    "Mapl.Props.C32_size_crashes",
    "Mapl.Props.C32_hours_crashes",
    "Mapl.Props.C32_version_crashes",
    "Mapl.Props.C32_text_crashes",
    "Mapl.Props.C32_entry_crashes",
    "Mapl.Props.C32_range_crashes",
    "Mapl.Props.C32_violated_size",
    "Mapl.Props.C32_violated_version",
    "Mapl.Props.C32_violated_text",
    "Mapl.Props.C32_violated_range",
    "Mapl.Props.C32_violated_entry",
    "Mapl.Props.C32_violated_scope",
    "Mapl.Props.C32_condition_exact",
    "Mapl.Props.C32_tree_exact",
    "Mapl.Props.C32_rule_exact",
    "Mapl.Props.C32_check_exact",
    "Mapl.Props.C32_returns_or_panics",
    "Mapl.Props.C32_refused",
    "Mapl.Props.C32_guarded",
    "Mapl.Props.C32_or_guards_nothing"
   ],
   "note": "The full statement is false: six accepted rules whose check panics (C32_violated_*). C32_condition_exact, C32_tree_exact, C32_rule_exact and C32_check_exact say exactly when checking panics, for every prepared or freshly parsed rule list and every message (Spec/Panics.lean). C32_check_partial is a sufficient condition that does not mention executions (Safe, Spec/Crash.lean)."
  },
  {
   "property": "C33",
   "status": "partial",
   "theorems": [
    "Mapl.Props.C33_partial",
    "Mapl.Props.C33_differs",
    "Mapl.Props.C33_tree_partial",
    "Mapl.Props.C33_violated_null",
    "Mapl.Props.C33_violated_field"
   ],
   "note": "Scalars and missing values agree in both representations unless a number is compared with a text, where they always differ (C33_differs: answer against crash). Trees agree if leaves and selected elements do. Violated for null and for $VALUE.x."
  },
  {
   "property": "C34",
   "status": "partial",
   "theorems": [
    "Mapl.Props.C34_key",
    "Mapl.Props.C34_value",
    "Mapl.Props.C34_key_text",
    "Mapl.Props.C34_value_text",
    "Mapl.Props.C34_field_text",
    "Mapl.Props.C34_any",
    "Mapl.Props.C34_all",
    "Mapl.Props.C34_keys_in",
    "Mapl.Props.C34_values_number",
    "Mapl.Props.C34_field_partial",
    "Mapl.Props.C34_violated",
    "Mapl.Props.C34_several_text"
   ],
   "note": "$KEY and $VALUE proved for both representations, $VALUE.x for texts. On parsed documents the field of $VALUE.x is ignored (C34_field_partial), so the claim is violated there."
  },
  {
   "property": "C35",
   "status": "proved",
   "theorems": [
    "Mapl.Props.C35_names",
    "Mapl.Props.C35_names_rejected",
    "Mapl.Props.C35_prepared_names",
    "Mapl.Props.C35_values",
    "Mapl.Props.C35_values_unique",
    "Mapl.Props.C35_values_undefined",
    "Mapl.Props.C35_prepared_value"
   ],
   "note": "Names and condition values. Lists are joined by | only for the upper-case spellings RE and NRE, as in the statement."
  },
  {
   "property": "C36",
   "status": "proved",
   "theorems": [
    "Mapl.Props.C36_accepted",
    "Mapl.Props.C36_refused",
    "Mapl.Props.C36_unique",
    "Mapl.Props.C36_no_crash"
   ],
   "note": "For every table: exact characterisation of acceptance and of the result, element by element, of refusal, and absence of panics."
  },
  {
   "property": "C37",
   "status": "proved",
   "theorems": [
    "Mapl.Props.C37_atomic",
    "Mapl.Props.C37_histories",
    "Mapl.Props.C37_answers"
   ],
   "note": "Single call and every history of calls. Mutation by the caller of the maps handed over is outside the model (see DESIGN.md)."
  },
  {
   "property": "C38",
   "status": "proved",
   "theorems": [
    "Mapl.Props.C38_frozen",
    "Mapl.Props.C39_histories"
   ],
   "note": "Every history of set, check, condition test, list check and MongoDB translation calls."
  },
  {
   "property": "C39",
   "status": "proved",
   "theorems": [
    "Mapl.Props.C39_check_list",
    "Mapl.Props.C39_first_use",
    "Mapl.Props.C39_histories"
   ],
   "note": "Every history; refinement to a state machine that records only the tables."
  },
  {
   "property": "C40",
   "status": "partial",
   "theorems": [
    "Mapl.Props.C40_violated",
    "Mapl.Props.C40_partial",
    "Mapl.Props.C40_never_prepared_crashes"
   ],
   "note": "The property is false of the code (C40_violated: stale tables are used). C40_partial says exactly when the answer comes from the table in force."
  },
  {
   "property": "C41",
   "status": "partial",
   "theorems": [
    "Mapl.Props.C41_violated",
    "Mapl.Props.C41_partial"
   ],
   "note": "The property is false of the code for references as sender or receiver (C41_violated). C41_partial is the exact equivalence."
  },
  {
   "property": "C42",
   "status": "proved",
   "theorems": [
    "Mapl.Props.C42_accepted_iff",
    "Mapl.Props.C42_rejected_iff",
    "Mapl.Props.C42_numbers",
    "Mapl.Props.C42_prepared_iff"
   ],
   "note": "Validation succeeds exactly on the grammar of Spec/Validate.lean; preparation of a parsed condition succeeds exactly when the reference is defined, the resolved condition is in the grammar and its value and path compile."
  },
  {
   "property": "C43",
   "status": "proved",
   "theorems": [
    "Mapl.Props.C43_condition",
    "Mapl.Props.C43_validation",
    "Mapl.Props.C43_tree",
    "Mapl.Props.C43_rule"
   ],
   "note": "For arbitrary texts and derived fields; for trees under the hypothesis that no branch is nil (the parser can build nil branches, see C47)."
  },
  {
   "property": "C44",
   "status": "partial",
   "theorems": [
    "Mapl.Props.C44_partial",
    "Mapl.Props.C44_empty",
    "Mapl.Props.C44_rule_partial",
    "Mapl.Props.C44_control",
    "Mapl.Props.C44_empty_connective",
    "Mapl.Props.C44_violated"
   ],
   "note": "Proved for every tree of acceptable conditions without control characters, empty connectives and quotes in quantifier paths. The code violates the rest: control characters and empty connectives make the copy fail in every tree, and a quantifier path with quotes is copied to another path or fails."
  },
  {
   "property": "C45",
   "status": "proved",
   "theorems": [
    "Mapl.Props.C45_histories",
    "Mapl.Props.C45_prepared"
   ],
   "note": "For every history of SetGlobal, SetPredefined, Check, TestConditions calls. C45_prepared is an addition about the prepared copy itself."
  },
  {
   "property": "C46",
   "status": "proved",
   "theorems": [
    "Mapl.Props.C46_tree",
    "Mapl.Props.C46_rule",
    "Mapl.Props.C46_every_tree",
    "Mapl.Props.C46_wrappers"
   ],
   "note": "A grammar of documents (Spec/Parse): whatever writes a tree is parsed to it in every order of iteration, and every tree of acceptable conditions can be written."
  },
  {
   "property": "C47",
   "status": "partial",
   "theorems": [
    "Mapl.Props.C47_scalar",
    "Mapl.Props.C47_list",
    "Mapl.Props.C47_many_keys",
    "Mapl.Props.C47_no_parent",
    "Mapl.Props.C47_unknown",
    "Mapl.Props.C47_partial",
    "Mapl.Props.C47_violated"
   ],
   "note": "The listed malformed documents are rejected and everything accepted is in the grammar. That nothing is dropped fails: NOT lists keep the last element, AND/OR above a map vanish, ANY/ALL may lack a child or lose one of two."
  },
  {
   "property": "C48",
   "status": "partial",
   "theorems": [
    "Mapl.Props.C48_partial",
    "Mapl.Props.C48_writes",
    "Mapl.Props.C48_violated"
   ],
   "note": "Fails for ANY/ALL with two children (counterexample); proved for every document in which no ANY/ALL has two."
  },
  {
   "property": "C49",
   "status": "proved",
   "theorems": [
    "Mapl.Props.C49_text",
    "Mapl.Props.C49_hash",
    "Mapl.Props.C49_equal",
    "Mapl.Props.C49_complete"
   ],
   "note": "Spec.Alike: least congruence with permutations of AND/OR children (and one-child connectives) at any depth."
  },
  {
   "property": "C50",
   "status": "partial",
   "theorems": [
    "Mapl.Props.C50_partial",
    "Mapl.Props.C50_rules_partial",
    "Mapl.Props.C50_violated",
    "Mapl.Props.C50_violated_decisions",
    "Mapl.Props.C50_equal_partial"
   ],
   "note": "Proved for plain trees: no empty connectives, no return values at conditions, no texts that look like the punctuation of the text form. Violated otherwise: ConditionsEqual identifies rules that decide differently."
  },
  {
   "property": "C51",
   "status": "partial",
   "theorems": [
    "Mapl.Props.C51_partial",
    "Mapl.Props.C51_rule_partial",
    "Mapl.Props.C51_field",
    "Mapl.Props.C51_field_relative",
    "Mapl.Props.C51_violated_absolute",
    "Mapl.Props.C51_violated_connective",
    "Mapl.Props.C51_violated_negative",
    "Mapl.Props.C51_violated_base",
    "Mapl.Props.C51_violated_steps"
   ],
   "note": "Proved for every server and document for trees whose paths stand where the translation supports them (Scoped); field names of regular paths. The code violates the claim elsewhere: absolute paths inside ANY, KEY/VALUE below a connective inside ANY, negative conditions on keys, empty base field, overlapping added fields."
  },
  {
   "property": "C52",
   "status": "partial",
   "theorems": [
    "Mapl.Props.C52_translatable",
    "Mapl.Props.C52_rejects_partial",
    "Mapl.Props.C52_operator",
    "Mapl.Props.C52_violated_array",
    "Mapl.Props.C52_violated_deep"
   ],
   "note": "Exact characterisation of translatable trees, the rejections for every tree, and the operator of every translated condition. Violated: only lists at the end and deep scans at the start of a path are recognised; keys and values under a list in the middle of the path are translated, and so are deep scans further on and in conditions."
  },
  {
   "property": "C53",
   "status": "proved",
   "theorems": [
    "Mapl.Props.C53_simple",
    "Mapl.Props.C53_steps"
   ],
   "note": ""
  },
  {
   "property": "C54",
   "status": "partial",
   "theorems": [
    "Mapl.Props.C54_partial",
    "Mapl.Props.C54_distinct_partial",
    "Mapl.Props.C54_violated"
   ],
   "note": "Proved for message lists with distinct ids; violated when two messages share an id: the later one overwrites the entry of the earlier one."
  },
  {
   "property": "C55",
   "status": "proved",
   "theorems": [
    "Mapl.Props.C55_rule_coverage",
    "Mapl.Props.C55_distinct"
   ],
   "note": ""
  },
  {
   "property": "C56",
   "status": "proved",
   "theorems": [
    "Mapl.Props.C56_type",
    "Mapl.Props.C56_time",
    "Mapl.Props.C56_no_time"
   ],
   "note": "Rounding to float64 is assumed exact on whole numbers up to 2^53 and accurate to 2^-53 (RoundOk)."
  },
  {
   "property": "C57",
   "status": "proved",
   "theorems": [
    "Mapl.Props.C57_json",
    "Mapl.Props.C57_labels",
    "Mapl.Props.C57_null"
   ],
   "note": ""
  },
  {
   "property": "C58",
   "status": "partial",
   "theorems": [
    "Mapl.Props.C58_partial",
    "Mapl.Props.C58_violated_string",
    "Mapl.Props.C58_violated_inner",
    "Mapl.Props.C58_violated_rule",
    "Mapl.Props.C58_values",
    "Mapl.Props.C58_original",
    "Mapl.Props.C58_violated_original"
   ],
   "note": "Proved for lists of objects without braces in strings; violated for braces inside strings and for objects inside lists that are elements. C58_values is the same for what the text stands for; C58_original compares with the splitter that was replaced."
  },
  {
   "property": "C59",
   "status": "partial",
   "theorems": [
    "Mapl.Props.C59_alone",
    "Mapl.Props.C59_separate",
    "Mapl.Props.C59_ends",
    "Mapl.Props.C59_partial",
    "Mapl.Props.C59_policy_partial",
    "Mapl.Props.C59_violated_block",
    "Mapl.Props.C59_violated_allow",
    "Mapl.Props.C59_violated_message"
   ],
   "note": "Proved for checks of separate messages, and for a check whose rules use no path relative to the current element of ANY/ALL, in every interleaving with any checks of the same message. Violated otherwise: ANY and ALL store the current element in the shared message. C59_policy_partial has the condition on the rules as they are written, and gives the answer by what they say (C74). About documents as values: messages whose text documents are in one array can disturb each other by what C89 says."
  },
  {
   "property": "C60",
   "status": "partial",
   "theorems": [
    "Mapl.Props.C60_violated",
    "Mapl.Props.C60_violated_panic",
    "Mapl.Props.C60_partial"
   ],
   "note": "Violated: a rule prepared in place never applies to a message, and its check panics where the rule as parsed blocks (the copy made by Check has lost the compiled expressions but kept the converted mark; Go 1.18 as in go.mod). Proved: rules that were already given their table are not affected by a later preparation in place."
  },
  {
   "property": "C61",
   "status": "partial",
   "theorems": [
    "Mapl.Props.C61_partial",
    "Mapl.Props.C61_violated"
   ],
   "note": "Violated for values that refer to a label or a field of the receiver."
  },
  {
   "property": "C62",
   "status": "partial",
   "theorems": [
    "Mapl.Props.C62_partial",
    "Mapl.Props.C62_violated"
   ],
   "note": "Holds for time stamps in UTC; violated for every zone that is not a whole number of days away from UTC."
  },
  {
   "property": "C63",
   "status": "partial",
   "theorems": [
    "Mapl.Props.C63_partial",
    "Mapl.Props.C63_violated",
    "Mapl.Props.C63_never_applies"
   ],
   "note": "Only messages without a type keep it; every other type is erased."
  },
  {
   "property": "C64",
   "status": "proved",
   "theorems": [
    "Mapl.Props.C64_load",
    "Mapl.Props.C64_fields"
   ],
   "note": ""
  },
  {
   "property": "C65",
   "status": "partial",
   "theorems": [
    "Mapl.Props.C65_returns",
    "Mapl.Props.C65_partial",
    "Mapl.Props.C65_print",
    "Mapl.Props.C65_violated",
    "Mapl.Props.C65_violated_resource"
   ],
   "note": "Exactly the rules with (complete) conditions can be displayed; for types without colons, a resource type and no field reading \"default\" the display determines the fields. The code violates the rest: a rule without conditions panics, and without a resource type the resource name is not shown."
  },
  {
   "property": "C66",
   "status": "partial",
   "theorems": [
    "Mapl.Props.C66_partial",
    "Mapl.Props.C66_violated",
    "Mapl.Props.C66_violated_string"
   ],
   "note": "Proved when no object in the lists contains brackets that look like a list of lists ([[, ]], ],[) and braces in strings are balanced. The code violates the rest: a list of lists inside one object makes the quantifier fail, and such brackets in a string are rewritten, so that a rule matches a value that is not in the document."
  },
  {
   "property": "C67",
   "status": "partial",
   "theorems": [
    "Mapl.Props.C67_text_partial",
    "Mapl.Props.C67_partial",
    "Mapl.Props.C67_hash_partial",
    "Mapl.Props.C67_violated",
    "Mapl.Props.C67_violated_text"
   ],
   "note": "Proved for rules whose fields and trees do not contain the punctuation of the text form, written in lower case (for decisions). The code violates the rest: the text ignores the case of types although matching does not, and dashes in the operation are ambiguous."
  },
  {
   "property": "C68",
   "status": "proved",
   "theorems": [
    "Mapl.Props.C68_loaded",
    "Mapl.Props.C68_failed",
    "Mapl.Props.C68_succeeds"
   ],
   "note": "The loop over the decoded rules; the YAML decoding itself is a library."
  },
  {
   "property": "C69",
   "status": "partial",
   "theorems": [
    "Mapl.Props.C69_size_partial",
    "Mapl.Props.C69_json",
    "Mapl.Props.C69_text",
    "Mapl.Props.C69_violated"
   ],
   "note": "A number printed with an exponent (JSON numbers from 10^6 on, and many others) is no integer text: payloadSize rules with such a value are accepted and their check crashes."
  },
  {
   "property": "C70",
   "status": "partial",
   "theorems": [
    "Mapl.Props.C70_partial",
    "Mapl.Props.C70_any",
    "Mapl.Props.C70_nothing",
    "Mapl.Props.C70_violated",
    "Mapl.Props.C70_violated_inner",
    "Mapl.Props.C70_violated_text"
   ],
   "note": "Holds for paths in the whole document and for ANY. Violated by conditions with $RELATIVE return paths (null, or a nil dereference on text documents) and by conditions inside ANY, ALL and NOT, whose values are dropped."
  },
  {
   "property": "C71",
   "status": "partial",
   "theorems": [
    "Mapl.Props.C71_partial",
    "Mapl.Props.C71_violated",
    "Mapl.Props.C71_violated_check"
   ],
   "note": "Holds for tables read from a document, which are validated; a table built in the program has no resolved lists when given to a rule."
  },
  {
   "property": "C72",
   "status": "partial",
   "theorems": [
    "Mapl.Props.C72_text_partial",
    "Mapl.Props.C72_check_partial",
    "Mapl.Props.C72_identity",
    "Mapl.Props.C72_prepared",
    "Mapl.Props.C72_violated_check",
    "Mapl.Props.C72_violated_text"
   ],
   "note": "The code violates two parts: patterns for operations are lower-cased although methods of messages are not (GET no longer matches), and the text form keeps the case of the resource type while ToLower does not. Proved: exactly when the text is kept, that rules with capitals only where they are ignored keep their decisions, that equal texts of plain rules mean equal decisions once in lower case, and that an already prepared rule is not affected."
  },
  {
   "property": "C73",
   "status": "partial",
   "theorems": [
    "Mapl.Props.C73_text",
    "Mapl.Props.C73_label",
    "Mapl.Props.C73_json",
    "Mapl.Props.C73_violated_dot",
    "Mapl.Props.C73_violated_reference"
   ],
   "note": "EQ/NEQ on text attributes and labels: values without characters of patterns; the violations show why."
  },
  {
   "property": "C74",
   "status": "partial",
   "theorems": [
    "Mapl.Props.C74_policy",
    "Mapl.Props.C74_loaded",
    "Mapl.Props.C74_documents",
    "Mapl.Props.C74_returns",
    "Mapl.Props.C74_memory_partial",
    "Mapl.Props.C20_violated_memory"
   ],
   "note": "Composes the whole engine. The class of policies and messages is that of the statement: outside it are EQ on text attributes with characters of patterns (C73 shows that the claim fails there), names with other characters of patterns (see C10), and conditions that crash (C32). Rules with return values are covered by C74_returns. In memory (Model/Memory) false for a text document and an ANY or ALL with several parent paths, because the check then writes into the document (C89); the _memory_partial theorems hold for parsed documents, for one parent path, and for several if the library makes copies for all but the last; the other theorems are about documents as values."
  },
  {
   "property": "C75",
   "status": "partial",
   "theorems": [
    "Mapl.Props.C75_parts",
    "Mapl.Props.C75_frame",
    "Mapl.Props.C75_never_read",
    "Mapl.Props.C75_no_conditions",
    "Mapl.Props.C75_memory_partial",
    "Mapl.Props.C75_violated_memory"
   ],
   "note": "for rules as parsed or as prepared from parsed ones (Usable); C75_parts is the sharpest form, by the types and the protocol of each rule. In memory (Model/Memory) false for a text document and an ANY or ALL with several parent paths, because the check then writes into the document (C89); the _memory_partial theorem holds for parsed documents, for one parent path, and for several if the library makes copies for all but the last; the other theorems are about documents as values. Elsewhere the room behind the document decides (C75_violated_memory)."
  },
  {
   "property": "C76",
   "status": "partial",
   "theorems": [
    "Mapl.Props.C76_meaning",
    "Mapl.Props.C76_context",
    "Mapl.Props.C76_order",
    "Mapl.Props.C76_twice",
    "Mapl.Props.C76_senders_partial",
    "Mapl.Props.C76_receivers_partial",
    "Mapl.Props.C76_operations_partial",
    "Mapl.Props.C76_resources_partial",
    "Mapl.Props.C76_disjunction",
    "Mapl.Props.C76_laws_partial",
    "Mapl.Props.C76_violated_references",
    "Mapl.Props.C76_violated_order",
    "Mapl.Props.C76_violated_words"
   ],
   "note": "violated for lists that contain references (#a,#b is not resolved), for lists of the words read and write (read,write is read literally), and for laws that change which conditions are evaluated if these can crash (AND stops early); proved otherwise"
  },
  {
   "property": "C77",
   "status": "partial",
   "theorems": [
    "Mapl.Props.C77_reads_partial",
    "Mapl.Props.C77_rules_partial",
    "Mapl.Props.C77_error",
    "Mapl.Props.C77_file",
    "Mapl.Props.C77_every",
    "Mapl.Props.C77_unknown",
    "Mapl.Props.C77_policy",
    "Mapl.Props.C77_violated_dash",
    "Mapl.Props.C77_violated_repeated"
   ],
   "note": "Proved for documents without repeated keys in which no rule, sender or receiver has the key `-`. Both restrictions are needed: `-: true` makes a rule that never applies, and from a string the last of repeated keys counts."
  },
  {
   "property": "C78",
   "status": "partial",
   "theorems": [
    "Mapl.Props.C78_tree_partial",
    "Mapl.Props.C78_rules_partial",
    "Mapl.Props.C78_crash",
    "Mapl.Props.C78_violated"
   ],
   "note": "Proved if attributes, methods, parent paths and return values in conditions are texts. Violated otherwise: a condition whose method is left empty crashes the readers."
  },
  {
   "property": "C79",
   "status": "partial",
   "theorems": [
    "Mapl.Props.C79_tables_partial",
    "Mapl.Props.C79_unique",
    "Mapl.Props.C79_refused",
    "Mapl.Props.C79_every",
    "Mapl.Props.C79_unknown",
    "Mapl.Props.C79_policy",
    "Mapl.Props.C79_violated",
    "Mapl.Props.C79_repeated",
    "Mapl.Props.C79_unreadable",
    "Mapl.Props.C79_together_unique",
    "Mapl.Props.C79_repeated_unique"
   ],
   "note": "C79_tables_partial is for documents without repeated keys. Violated otherwise: of a list that is there twice the first is dropped without an error, from files too. C79_repeated and C79_unreadable say for all documents, with or without repeated keys, what is read and which are refused."
  },
  {
   "property": "C80",
   "status": "partial",
   "theorems": [
    "Mapl.Props.C80_single_partial",
    "Mapl.Props.C80_several",
    "Mapl.Props.C80_text_partial",
    "Mapl.Props.C80_violated_number",
    "Mapl.Props.C80_violated_inside",
    "Mapl.Props.C80_violated_text"
   ],
   "note": "Proved for lists of texts without quotes and brackets, and for JSON texts in which quotes and brackets do not meet. Violated: a list with one number does not count as the number; an object with a list inside equals the JSON text of another object; the text `[]` does not exist."
  },
  {
   "property": "C81",
   "status": "partial",
   "theorems": [
    "Mapl.Props.C81_reads_partial",
    "Mapl.Props.C81_accepts_partial",
    "Mapl.Props.C81_refused_partial",
    "Mapl.Props.C81_message_ok",
    "Mapl.Props.C81_policy",
    "Mapl.Props.C81_every",
    "Mapl.Props.C81_violated_fraction",
    "Mapl.Props.C81_violated_null",
    "Mapl.Props.C81_violated_repeated"
   ],
   "note": "Holds for documents without repeated keys in which sizes are whole numbers, the version is not spelled Null, and the keys of raw documents do not occur (those are not modelled). Violated: a fraction of a size is dropped silently, the version Null is read as 0 while null is none, and the first value of a repeated key is dropped."
  },
  {
   "property": "C82",
   "status": "partial",
   "theorems": [
    "Mapl.Props.C82_partial",
    "Mapl.Props.C82_partner",
    "Mapl.Props.C82_answer",
    "Mapl.Props.C82_violated"
   ],
   "note": "The decisions agree whenever the check with return values returns. Violated: a return value taken relative to an element where none is in scope crashes the check on text documents."
  },
  {
   "property": "C83",
   "status": "partial",
   "theorems": [
    "Mapl.Props.C83_same_partial",
    "Mapl.Props.C83_refused",
    "Mapl.Props.C83_text",
    "Mapl.Props.C83_reads_partial",
    "Mapl.Props.C83_every",
    "Mapl.Props.C83_violated_empty",
    "Mapl.Props.C83_violated_case",
    "Mapl.Props.C83_violated_number",
    "Mapl.Props.C83_violated_repeated"
   ],
   "note": "The code does not have the property: empty conditions, keys in other letter case, large integers and repeated keys are read differently (violations proved). Proved for all other documents without the key `-`."
  },
  {
   "property": "C84",
   "status": "partial",
   "theorems": [
    "Mapl.Props.C84_copy",
    "Mapl.Props.C84_partial",
    "Mapl.Props.C84_decisions_partial",
    "Mapl.Props.C84_violated"
   ],
   "note": "The code does not have the property, see C44: paths with quotes are changed or refused. Proved for rules whose conditions are copyable; C84_copy holds for all rules as parsed. Expanded lists of senders and receivers are not in the model of the text."
  },
  {
   "property": "C85",
   "status": "partial",
   "theorems": [
    "Mapl.Props.C85_tree_partial",
    "Mapl.Props.C85_noConditions",
    "Mapl.Props.C85_partial",
    "Mapl.Props.C85_hash_partial",
    "Mapl.Props.C85_decisions_partial",
    "Mapl.Props.C85_violated"
   ],
   "note": "The code does not have the property, see C44: paths with quotes are changed; names with NUL are refused by the driver. Proved for rules as parsed whose conditions are copyable. The bytes of BSON documents are not modelled."
  },
  {
   "property": "C86",
   "status": "proved",
   "theorems": [
    "Mapl.Props.C86_unique",
    "Mapl.Props.C86_refused",
    "Mapl.Props.C86_same",
    "Mapl.Props.C86_conditions",
    "Mapl.Props.C86_written"
   ],
   "note": "The grammar is stated independently of the decoder (Spec/JsonGrammar). Numbers out of the range of float64 and documents nested deeper than 10000 levels are not told apart from others, see DESIGN.md."
  },
  {
   "property": "C87",
   "status": "partial",
   "theorems": [
    "Mapl.Props.C87_json",
    "Mapl.Props.C87_rewritten",
    "Mapl.Props.C87_database",
    "Mapl.Props.safe_check",
    "Mapl.Props.C20_violated_memory"
   ],
   "note": "For the policies of C74. JSON documents without repeated keys and with keys in the spelling of the format (see C83); names without NUL in a database (see C85). About documents as values; in memory the same for parsed documents and for one parent path by safe_check, and false for a text document and an ANY or ALL with several parent paths (C20_violated_memory, see C89)."
  },
  {
   "property": "C88",
   "status": "partial",
   "theorems": [
    "Mapl.Props.C88_partial",
    "Mapl.Props.C88_reads",
    "Mapl.Props.C88_no_crash",
    "Mapl.Props.C88_violated_unknown",
    "Mapl.Props.C88_violated_size",
    "Mapl.Props.C88_violated_type",
    "Mapl.Props.C88_violated_labels",
    "Mapl.Props.C88_violated_comment",
    "Mapl.Props.C88_version",
    "Mapl.Props.C88_unknown",
    "Mapl.Props.C88_labels"
   ],
   "note": "The equivalence holds for plain values (C88_partial). Violated: an unknown key passes if two blanks hide another key from the comparison; a size of zero, the resource type, labels, null and comments with a colon are refused although all keys are known. C88_unknown: with any values on one line each, an unknown key is refused. C88_labels: every document with a label in one word is refused."
  },
  {
   "property": "C89",
   "status": "partial",
   "theorems": [
    "Mapl.Props.C89_partial",
    "Mapl.Props.C89_text",
    "Mapl.Props.C89_again",
    "Mapl.Props.C89_copies",
    "Mapl.Props.C89_violated_document",
    "Mapl.Props.C89_violated_rules",
    "Mapl.Props.C89_violated_again",
    "Mapl.Props.C89_parsed",
    "Mapl.Props.C89_several_partial",
    "Mapl.Props.C89_message",
    "Mapl.Props.C89_outside",
    "Mapl.Props.C89_arrays",
    "Mapl.Props.C89_others",
    "Mapl.Props.C89_next",
    "Mapl.Props.C89_violated_behind"
   ],
   "note": "Proved with slices and arrays for all rules whose ANY and ALL name one parent path (no comma), by refinement to the model with values: same results, no byte changed, a second check gives the same. The code violates the property for several parent paths: appending to a part of the document overwrites the document, so later rules and later checks of the same request decide differently (violations proved). C89_parsed: any number of parent paths, if the message has no text documents. C89_several_partial: several parent paths, if the library makes copies for all but the last. For all rules: the fields of the message are as before, and so are all bytes in other arrays and in front of the documents (C89_message, C89_outside, C89_arrays); a document that comes after in the same array can be overwritten (C89_violated_behind)."
  },
  {
   "property": "C90",
   "status": "partial",
   "theorems": [
    "Mapl.Props.C90_partial",
    "Mapl.Props.C90_rules",
    "Mapl.Props.C90_passed",
    "Mapl.Props.C90_violated",
    "Mapl.Props.C90_violated_lists"
   ],
   "note": "Proved for all histories in which maps of strings are left alone once they were given to SetGlobalPredefinedStringsAndLists (maps of lists, and maps given to rules, may be changed at will), and for rules that were given their tables without any condition. The code violates the property for the strings of the global table: the map is kept, not copied (violations proved)."
  },
  {
   "property": "C91",
   "status": "partial",
   "theorems": [
    "Mapl.Props.C91_partial",
    "Mapl.Props.C91_texts",
    "Mapl.Props.C91_file",
    "Mapl.Props.C91_crash",
    "Mapl.Props.C91_violated"
   ],
   "note": "Such documents are never accepted (no key repeated in the conditions), and keys outside of conditions change nothing; but the readers crash instead of returning an error, always if the key is at the top of the conditions of a rule (violations proved)."
  },
  {
   "property": "C92",
   "status": "partial",
   "theorems": [
    "Mapl.Props.C92_partial",
    "Mapl.Props.C92_entry",
    "Mapl.Props.C92_accepted",
    "Mapl.Props.C92_read",
    "Mapl.Props.C92_sender",
    "Mapl.Props.C92_receiver",
    "Mapl.Props.C92_sound",
    "Mapl.Props.C92_spelling",
    "Mapl.Props.C92_all_bits",
    "Mapl.Props.C92_spelling_violated",
    "Mapl.Props.C92_all_violated",
    "Mapl.Props.C92_mapped_violated"
   ],
   "note": "The code violates the property: a single address is compared as a text, '*' covers IPv4 addresses only, IPv6 subnets of less than 96 bits cover no IPv4 address. Proved that nothing else is missed and that nothing is covered that is not meant."
  },
  {
   "property": "C93",
   "status": "partial",
   "theorems": [
    "Mapl.Props.C93_condition_partial",
    "Mapl.Props.C93_statement_partial",
    "Mapl.Props.C93_check_partial",
    "Mapl.Props.C93_loaded_partial",
    "Mapl.Props.C93_same_partial",
    "Mapl.Props.C93_text",
    "Mapl.Props.C93_violated_escape",
    "Mapl.Props.C93_violated_scalars"
   ],
   "note": "Proved for paths of names and indices and plainly written texts, given what PathsOk assumes of the path libraries; the code violates the property for texts with escapes and for lists with elements that are not objects (violations proved), and for null (C33)."
  },
  {
   "property": "C94",
   "status": "partial",
   "theorems": [
    "Mapl.Props.C94_success",
    "Mapl.Props.C94_failure",
    "Mapl.Props.C94_retry_partial",
    "Mapl.Props.C94_check_partial",
    "Mapl.Props.C94_set",
    "Mapl.Props.C94_violated_again",
    "Mapl.Props.C94_violated_stale",
    "Mapl.Props.C94_violated_partly"
   ],
   "note": "The code violates the property: preparing in place again fails when conditions on a document have been prepared, values that were looked up stay when the tables change, and rules before the one that failed are spoilt (C60). Proved: what is left behind, and that the rule that failed still means what was read when entries are only added."
  },
  {
   "property": "C95",
   "status": "partial",
   "theorems": [
    "Mapl.Props.C95_rule",
    "Mapl.Props.C95_check",
    "Mapl.Props.C95_redundant",
    "Mapl.Props.net_unique",
    "Mapl.Props.number_says",
    "Mapl.Props.implies_meaning",
    "Mapl.Props.safe_check",
    "Mapl.Props.C20_violated_memory"
   ],
   "note": "For rules over the alphabet for which patterns are globs and conditions that say something of the message (Defined), loaded with the same tables. The relation Within is syntactic, part by part; it does not contain all pairs of rules one of which implies the other. About documents as values; in memory the same for parsed documents and for one parent path by safe_check, and false for a text document and an ANY or ALL with several parent paths (C20_violated_memory, see C89)."
  },
  {
   "property": "C96",
   "status": "partial",
   "theorems": [
    "Mapl.Props.C96_query_partial",
    "Mapl.Props.C96_check_partial",
    "Mapl.Props.C96_missing_partial",
    "Mapl.Props.C96_violated_missing",
    "Mapl.Props.C96_violated_boolean",
    "Mapl.Props.C96_violated_number",
    "Mapl.Props.C96_violated_unit",
    "Mapl.Props.C96_violated_empty",
    "Mapl.Props.C96_violated_expression",
    "Mapl.Props.C96_violated_list",
    "Mapl.Props.C96_violated_label",
    "Mapl.Props.C96_violated_field"
   ],
   "note": "Proved for all claims (AND, OR, NOT, ANY, ALL over conditions on the document) and all documents whose values are of the kind that the conditions compare (`Typed`: numbers with numbers without a unit, texts that are no numbers with texts, nothing that is missing with NEQ, no empty texts or lists); MongoDB is the interpreter `mongoDB`. The full property is violated: NEQ finds documents without the field, booleans and texts that are numbers are not found, values with units are texts in the query, empty texts exist for the query only, expressions do not match numbers, and lists are searched for elements. Rules about the entries of an object (ANY with one condition on $KEY or $VALUE) give aggregations and are included; violated for a name together with a value, for stored documents with a field addedField, for NEQ (C51_violated_negative) and for paths through each other (C51_violated_steps)."
  },
  {
   "property": "C97",
   "status": "partial",
   "theorems": [
    "Mapl.Props.C97_any_partial",
    "Mapl.Props.C97_all_partial",
    "Mapl.Props.C97_any_check_partial",
    "Mapl.Props.C97_all_check_partial",
    "Mapl.Props.C97_violated_last",
    "Mapl.Props.C97_violated_order",
    "Mapl.Props.C97_violated_query",
    "Mapl.Props.C97_any_memory_partial",
    "Mapl.Props.C97_all_memory_partial",
    "Mapl.Props.C97_check_memory_partial",
    "Mapl.Props.C97_any_apart_memory_partial",
    "Mapl.Props.C97_all_apart_memory_partial",
    "Mapl.Props.C97_violated_three",
    "Mapl.Props.C97_violated_nested"
   ],
   "note": "Proved for claims about documents (paths of names and indices, plainly written texts, PathsOk), where every path is there or the library is quiet about missing ones. The full property is violated: an error at the last path hides the elements of all others in a text, and queries take the list of paths for one field name. These are about documents as values. In memory (C89) a later evaluation sees what an earlier one with several paths has written; the first ANY or ALL with two paths is right (C97_any_memory_partial, C97_all_memory_partial; C97_check_memory_partial: as the last condition of a policy; C97_any_apart_memory_partial, C97_all_apart_memory_partial: the rule with two paths and the rule with one path each get the same result for the same bytes), with three paths, or where the byte behind the first part is in the second, it is not (C97_violated_three, C97_violated_nested)."
  },
  {
   "property": "C98",
   "status": "partial",
   "theorems": [
    "Mapl.Props.C98_key_partial",
    "Mapl.Props.C98_value_partial",
    "Mapl.Props.C98_any_partial",
    "Mapl.Props.C98_all_partial",
    "Mapl.Props.C98_label_partial",
    "Mapl.Props.C98_missing_partial",
    "Mapl.Props.C98_values_partial",
    "Mapl.Props.C98_names_partial",
    "Mapl.Props.C98_violated_escape",
    "Mapl.Props.C98_violated_paths"
   ],
   "note": "Conditions on $KEY and $VALUE, ANY and ALL over the entries of an object at a path, and the four kinds of label rules, for parsed documents and plainly written texts. Missing: values that are objects, and characters that json.Marshal escapes (violated: C98_violated_escape); numbers compared with words; several paths to objects (violated: C98_violated_paths); $VALUE.x (violated: C34_violated)."
  },
  {
   "property": "C99",
   "status": "partial",
   "theorems": [
    "Mapl.Props.C99_one_tree",
    "Mapl.Props.C99_append_partial",
    "Mapl.Props.C99_alone_partial",
    "Mapl.Props.C99_elsewhere",
    "Mapl.Props.C99_and_partial",
    "Mapl.Props.C99_or_partial",
    "Mapl.Props.C99_not_partial",
    "Mapl.Props.C99_loop",
    "Mapl.Props.C99_construct",
    "Mapl.Props.C99_parse",
    "Mapl.Props.C99_prepare_partial",
    "Mapl.Props.C99_parse_prepare",
    "Mapl.Props.C99_violated_shared",
    "Mapl.Props.C99_violated_loop",
    "Mapl.Props.C99_violated_late"
   ],
   "note": "Nodes are cells of a memory with addresses. Partial: Append is as stated if the appended tree does not contain the node (C99_loop: exactly then), and preparing if no node is shared. What the parser makes, and what a program makes that appends each node once, meets both. The code does not prevent the rest: a condition appended twice cannot be prepared (C99_violated_shared), a node appended to itself is never done (C99_violated_loop), and what is appended after the preparation is not prepared (C99_violated_late)."
  }
 ]
}
