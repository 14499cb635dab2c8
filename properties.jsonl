{"id": "C01", "title": "Most restrictive applicable rule wins", "statement": "Check returns as its decision the largest of the results of the individual rules in the order default < allow < alert < block, and returns default exactly when no rule has a non-default result; the decision string is the name of that decision.", "quantifier": "every message, every rule list of any length and content", "why_tests_cant": "the maximum must be right for every list length and every mix of results", "anchors": ["MAPL_engine/check.go:Check", "MAPL_engine/check.go:DecisionNames"]}
{"id": "C02", "title": "Block overrides everything", "statement": "If any one rule in the list blocks the message then Check blocks it, whatever the other rules say, however many there are and wherever the blocking rule stands.", "quantifier": "every message, every rule list, every position of the blocking rule", "why_tests_cant": "tests only sample positions and combinations", "anchors": ["MAPL_engine/check.go:Check"]}
{"id": "C03", "title": "Rule order does not change the decision", "statement": "Reordering the rules never changes the decision of Check nor the multiset of per-rule results.", "quantifier": "every message, every rule list, every permutation of it", "why_tests_cant": "n! permutations of unbounded lists", "anchors": ["MAPL_engine/check.go:Check"]}
{"id": "C04", "title": "The reported rule is the first decisive one", "statement": "relevantRuleIndex is -1 (and the description empty) exactly when the decision is default; otherwise it is the smallest index whose result equals the decision, and the returned description is that rule's 'description' metadata (or empty).", "quantifier": "every message and rule list", "why_tests_cant": "must hold for ties at every position", "anchors": ["MAPL_engine/check.go:Check"]}
{"id": "C05", "title": "Applied rules are listed exactly once, in order", "statement": "appliedRulesIndices is exactly the strictly increasing list of the indices whose result is not default, results has one entry per rule, and every result is default, allow, alert or block.", "quantifier": "every message and rule list", "why_tests_cant": "list lengths are unbounded", "anchors": ["MAPL_engine/check.go:Check"]}
{"id": "C06", "title": "Adding a rule never weakens the decision", "statement": "Inserting a rule anywhere in the list never makes the decision of Check less restrictive, and removing a rule never makes it more restrictive.", "quantifier": "every message, every rule list, every inserted rule, every position", "why_tests_cant": "monotonicity is a relation between two unbounded runs", "anchors": ["MAPL_engine/check.go:Check"]}
{"id": "C07", "title": "Rules are judged independently", "statement": "The result and the extra data reported for the i-th rule are what checking that rule alone gives: no rule influences the verdict on another one, although they are evaluated on one shared, mutated message.", "quantifier": "every message, every rule list, every index", "why_tests_cant": "interference through the shared message would show only for particular trees and orders", "anchors": ["MAPL_engine/check.go:Check", "MAPL_engine/check.go:CheckOneRule", "MAPL_engine/conditions_tree.go:evalAnyRawInterface"]}
{"id": "C08", "title": "Check has no side effects on message or rules", "statement": "After Check returns, the message (including the relative-document fields that ANY/ALL evaluation overwrites) is what it was before, and the rule list passed in is unchanged.", "quantifier": "every message, rule list, tree of any nesting depth", "why_tests_cant": "restoration must hold on every exit path of nested loops", "anchors": ["MAPL_engine/check.go:Check", "MAPL_engine/conditions_tree.go:evalAnyRawInterface", "MAPL_engine/conditions_tree.go:evalAllRawInterface", "MAPL_engine/conditions_tree.go:evalAnyRawBytes", "MAPL_engine/conditions_tree.go:evalAllRawBytes"]}
{"id": "C09", "title": "A rule applies exactly when all its parts match", "statement": "Checking one prepared rule returns its decision exactly when sender, receiver, operation, resource and conditions all match, and default with no extra data otherwise.", "quantifier": "every prepared rule and message", "why_tests_cant": "interaction of six independent parts", "anchors": ["MAPL_engine/check.go:CheckOneRule"]}
{"id": "C10", "title": "Name patterns mean globbing", "statement": "For a sender/receiver of type workload (or *) and for receiver hostnames, a comma separated list of patterns matches a name exactly when one of the patterns, with blanks removed, matches the whole name as a glob: * is any text, ? any single character, every other character itself (names and patterns without newline and without the remaining regular-expression metacharacters).", "quantifier": "every pattern list over the stated alphabet, every name", "why_tests_cant": "infinitely many patterns and names; the conversion goes through a chain of textual substitutions into a regular expression", "anchors": ["MAPL_engine/string_utils.go:ConvertStringToExpandedSenderReceiver", "MAPL_engine/check.go:TestSender", "MAPL_engine/check.go:TestReceiver"]}
{"id": "C11", "title": "Resource and operation patterns mean globbing", "statement": "A resource name (matched with the path, or the port for tcp) or an operation that is not a keyword matches exactly when one of its comma separated patterns, trimmed, matches the whole text as a glob (same alphabet restriction).", "quantifier": "every pattern list over the stated alphabet, every text", "why_tests_cant": "infinitely many patterns and texts", "anchors": ["MAPL_engine/string_utils.go:ConvertStringToRegex", "MAPL_engine/string_utils.go:ConvertOperationStringToRegex", "MAPL_engine/check.go:CheckOneRule"]}
{"id": "C12", "title": "Operation keywords", "statement": "Operation '*' matches every method; read/READ matches exactly GET, HEAD, OPTIONS, TRACE, read, READ; write/WRITE matches exactly POST, PUT, DELETE.", "quantifier": "every request method text", "why_tests_cant": "exactness is a statement about all other texts", "anchors": ["MAPL_engine/string_utils.go:ConvertOperationStringToRegex"]}
{"id": "C13", "title": "Subnet matching is prefix matching", "statement": "A subnet entry a.b.c.d/n matches exactly the IPv4 sources whose first n bits agree with it; a plain IP entry matches exactly that address text; '*' matches every IPv4 address.", "quantifier": "every network, prefix length and address", "why_tests_cant": "2^32 addresses times 33 prefix lengths per network", "anchors": ["MAPL_engine/check.go:TestSender", "MAPL_engine/string_utils.go:ConvertStringToExpandedSenderReceiver", "MAPL_engine/tools.go:isIpCIDR"]}
{"id": "C14", "title": "Protocol selects what the resource is compared with", "statement": "A rule with protocol tcp compares its resource with the destination port only and does not look at the message protocol; with protocol * no resource test is made; otherwise the protocol must agree up to case, the resource type must be * or equal, and the resource pattern must match the path.", "quantifier": "every rule and message", "why_tests_cant": "combinations of protocols, types and patterns", "anchors": ["MAPL_engine/check.go:CheckOneRule"]}
{"id": "C15", "title": "Unsupported sender or receiver types never match", "statement": "A rule whose sender type is not subnet, * or workload, or whose receiver type is not subnet, hostname, * or workload, never applies to any message.", "quantifier": "every such rule, every message", "why_tests_cant": "all messages", "anchors": ["MAPL_engine/check.go:TestSender", "MAPL_engine/check.go:TestReceiver"]}
{"id": "C16", "title": "Decision keywords", "statement": "A matching rule yields allow, alert or block only for the spellings lower, UPPER and Capitalised of those words; any other decision text yields default.", "quantifier": "every decision text", "why_tests_cant": "all other texts", "anchors": ["MAPL_engine/check.go:CheckOneRule"]}
{"id": "C17", "title": "Condition trees mean their boolean formula", "statement": "Whenever evaluation of a condition tree returns, the flag is the truth value of the tree read as a logical formula: AND/OR/NOT are the connectives, ANY/ALL quantify over the elements the parent path selects, leaves are the single conditions evaluated at the element in scope.", "quantifier": "every tree of any depth and width, every message", "why_tests_cant": "unbounded trees; short-circuiting and state mutation could make the result depend on order", "anchors": ["MAPL_engine/conditions_tree.go:And.Eval", "MAPL_engine/conditions_tree.go:Or.Eval", "MAPL_engine/conditions_tree.go:Not.Eval", "MAPL_engine/conditions_tree.go:Any.Eval", "MAPL_engine/conditions_tree.go:All.Eval"]}
{"id": "C18", "title": "Negation laws", "statement": "The flag of NOT AND(...) equals the flag of OR(NOT ...), NOT OR equals AND of NOTs, and double NOT is neutral.", "quantifier": "every tree and message on which both evaluations return", "why_tests_cant": "all trees", "anchors": ["MAPL_engine/conditions_tree.go:Not.Eval", "MAPL_engine/conditions_tree.go:And.Eval", "MAPL_engine/conditions_tree.go:Or.Eval"]}
{"id": "C19", "title": "ANY and ALL are dual", "statement": "ALL(path, c) gives the same flag as NOT ANY(path, NOT c); ANY over no elements is false and ALL over no elements is true.", "quantifier": "every path, tree and message", "why_tests_cant": "all trees and documents", "anchors": ["MAPL_engine/conditions_tree.go:Any.Eval", "MAPL_engine/conditions_tree.go:All.Eval"]}
{"id": "C20", "title": "Order of AND/OR children does not change the flag", "statement": "If the evaluations of both orders return, permuting the children of AND or OR nodes anywhere in the tree does not change the flag.", "quantifier": "every tree, every permutation at any depth, every message", "why_tests_cant": "all permutations at all depths", "anchors": ["MAPL_engine/conditions_tree.go:And.Eval", "MAPL_engine/conditions_tree.go:Or.Eval"]}
{"id": "C21", "title": "Returned values of ANY", "statement": "ANY with return values reports one entry per element satisfying its condition, in element order, computed on that element; without return values it reports none; NOT and ALL report none; OR concatenates the reports of its true children in order.", "quantifier": "every tree and document", "why_tests_cant": "unbounded element lists", "anchors": ["MAPL_engine/conditions_tree.go:evalAnyRawInterface", "MAPL_engine/conditions_tree.go:Or.Eval", "MAPL_engine/conditions_tree.go:Not.Eval", "MAPL_engine/check.go:getExtraDataFromInterface"]}
{"id": "C22", "title": "Extra data only with a match", "statement": "Checking a rule reports extra data only when the rule applies (result not default), and evaluating a tree to false yields no extra data.", "quantifier": "every rule, tree and message", "why_tests_cant": "all trees: AND keeps data of earlier children", "anchors": ["MAPL_engine/check.go:CheckOneRule", "MAPL_engine/conditions_tree.go:And.Eval"]}
{"id": "C23", "title": "Rules without conditions apply unconditionally", "statement": "A rule without a conditions tree applies to every message matching its other parts.", "quantifier": "every such rule and message", "why_tests_cant": "all messages", "anchors": ["MAPL_engine/check.go:CheckOneRule"]}
{"id": "C24", "title": "Map iteration order is not observable", "statement": "The decision for a message does not depend on the order in which Go happens to iterate over objects of the raw document.", "quantifier": "every iteration order at every range statement, every tree and document", "why_tests_cant": "the runtime picks a random order; a test run samples one", "anchors": ["MAPL_engine/check.go:ArrangeArrayInterface", "MAPL_engine/check.go:getArrayOfInterfaces", "MAPL_engine/check.go:getKeyValueFromInterface"]}
{"id": "C25", "title": "Comparison methods are consistent", "statement": "On numbers EQ and NEQ are complementary, LT/GE and GT/LE are complementary, LE is LT or EQ, and exactly one of LT, EQ, GT holds.", "quantifier": "every pair of numbers (int64 and float64)", "why_tests_cant": "infinite value space, NaN included", "anchors": ["MAPL_engine/check.go:compareIntFunc", "MAPL_engine/check.go:compareFloatFunc"]}
{"id": "C26", "title": "Positive and negative string methods are complementary", "statement": "For present values RE and NRE, EQ and NEQ, EX and NEX give opposite answers on text attributes.", "quantifier": "every text, every pattern", "why_tests_cant": "all texts", "anchors": ["MAPL_engine/check.go:compareRegexFunc", "MAPL_engine/check.go:compareStringWithWildcardsFunc", "MAPL_engine/check.go:compareStringFunc"]}
{"id": "C27", "title": "Missing json values", "statement": "A json path condition whose path selects nothing (or null, or an empty value) is true exactly for the method NEX/nex and false for every other method.", "quantifier": "every condition, document and method", "why_tests_cant": "all documents and methods", "anchors": ["MAPL_engine/check.go:testJsonPathConditionOnInterface", "MAPL_engine/check.go:whatToReturnInCaseOfEmptyResult", "MAPL_engine/check.go:testJsonPathCondition"]}
{"id": "C28", "title": "Label conditions", "statement": "A sender or receiver label condition looks only at the named label; EX holds exactly when the label exists and NEX exactly when it does not.", "quantifier": "every label map and condition", "why_tests_cant": "all label maps", "anchors": ["MAPL_engine/check.go:testSenderLabelCondition", "MAPL_engine/check.go:testReceiverLabelCondition"]}
{"id": "C29", "title": "Method synonyms and letter case", "statement": "NE means NEQ, and the lower-case spelling of every supported method means the same as the upper-case one.", "quantifier": "every condition, message and supported method", "why_tests_cant": "all conditions and messages", "anchors": ["MAPL_engine/validate_conditions.go:supportedMethodsSlice", "MAPL_engine/check.go:testOneCondition", "MAPL_engine/rules_load.go:ConvertConditionStringToIntFloatRegex"]}
{"id": "C30", "title": "IN and NIN are membership", "statement": "A condition with IN (or IS) and a list of plain words holds exactly when the compared text is one of the words; NIN is its complement on present values.", "quantifier": "every list of words without regex metacharacters, every text", "why_tests_cant": "all lists and texts; the list is turned into a regular expression", "anchors": ["MAPL_engine/rules_load.go:ConvertConditionStringToIntFloatRegex", "MAPL_engine/check.go:compareRegexFunc"]}
{"id": "C31", "title": "Units", "statement": "Number texts with a unit suffix (%, e3..e18, Ki..Ei, K..E, m) are read as the number in front times the unit's factor, and texts without a suffix as the plain number.", "quantifier": "every number text and suffix", "why_tests_cant": "all texts; the suffix table is searched in order and 'E', 'm', 'Ei' overlap", "anchors": ["MAPL_engine/string_utils.go:convertStringWithUnits", "MAPL_engine/validate_conditions.go:convertAndValidateNumericalValues"]}
{"id": "C32", "title": "Evaluation does not crash on validated rules", "statement": "Checking a message against rules that passed validation never panics.", "quantifier": "every validated rule list, every message and raw document", "why_tests_cant": "all documents; crashes need unusual combinations", "anchors": ["MAPL_engine/check.go:Check", "MAPL_engine/check.go:compareIntFunc", "MAPL_engine/check.go:compareFloatFunc", "MAPL_engine/check.go:ArrangeArrayInterface", "MAPL_engine/check.go:getKeyValueFromInterface", "MAPL_engine/check.go:testOneCondition"]}
{"id": "C33", "title": "Interface and byte documents agree", "statement": "Evaluating a condition on the parsed document and on its JSON text gives the same flag.", "quantifier": "every condition, every document", "why_tests_cant": "two separate implementations over all documents", "anchors": ["MAPL_engine/check.go:testJsonPathCondition", "MAPL_engine/check.go:testJsonPathConditionOnInterface", "MAPL_engine/check.go:getKeyValue", "MAPL_engine/check.go:getKeyValueFromInterface"]}
{"id": "C34", "title": "$KEY and $VALUE inside ANY/ALL over an object", "statement": "When ANY/ALL ranges over the entries of an object, $KEY is the entry's key, $VALUE its value and $VALUE.x the field x of its value.", "quantifier": "every object and condition", "why_tests_cant": "all objects", "anchors": ["MAPL_engine/check.go:getKeyValueFromInterface", "MAPL_engine/conditions_tree.go:prepareJsonpathQuery"]}
{"id": "C35", "title": "Predefined references are resolved or rejected", "statement": "A sender/receiver name or condition value starting with '#' is replaced by the list of that name (joined by commas; by | for RE/NRE), else by the string of that name, else preparation fails; anything else is left untouched.", "quantifier": "every rule, every predefined table", "why_tests_cant": "all tables and names", "anchors": ["MAPL_engine/rules_load.go:ReplaceStringsAndListsInOneRule", "MAPL_engine/rules_load.go:ReplaceStringsAndListsInCondition", "MAPL_engine/rules_load.go:isReplaceableList", "MAPL_engine/rules_load.go:isReplaceableString"]}
{"id": "C36", "title": "Validation of predefined lists", "statement": "Loading predefined lists replaces every '#name' element by the string of that name, keeps all other elements and the order, and fails exactly when some referenced string is missing.", "quantifier": "every table of strings and lists", "why_tests_cant": "all tables", "anchors": ["MAPL_engine/predefined_lists_load.go:validatePredefinedString"]}
{"id": "C37", "title": "Setting global tables is atomic", "statement": "SetGlobalPredefinedStringsAndLists either installs the validated table completely or fails and leaves the previous table in force.", "quantifier": "every history of calls", "why_tests_cant": "all histories", "anchors": ["MAPL_engine/rules_load.go:SetGlobalPredefinedStringsAndLists"]}
{"id": "C38", "title": "A successfully prepared rule is frozen", "statement": "Once SetPredefinedStringsAndLists(table) succeeded on a rule, every later check, condition test or Mongo translation of that rule uses that table, whatever happens to the global table, until the next call.", "quantifier": "every history of set/check/global-set operations", "why_tests_cant": "all histories", "anchors": ["MAPL_engine/rules_load.go:SetPredefinedStringsAndLists", "MAPL_engine/check.go:CheckOneRule", "MAPL_engine/check.go:TestConditions", "MAPL_engine/rule_mongo_plugin.go:ToMongoQuery"]}
{"id": "C39", "title": "A rule used unprepared sees the global table", "statement": "Check over a rule list uses, for rules never prepared, the global table in force at that call, at every call; rule.Check uses the global table in force at its first use and keeps it.", "quantifier": "every history of operations", "why_tests_cant": "all histories", "anchors": ["MAPL_engine/check.go:Check", "MAPL_engine/check.go:CheckOneRule", "MAPL_engine/rules_load.go:SetPredefinedStringsAndLists"]}
{"id": "C40", "title": "A failed preparation is not silently ignored", "statement": "After SetPredefinedStringsAndLists failed on a rule, a check of that rule does not use tables from an earlier preparation.", "quantifier": "every history of operations", "why_tests_cant": "all histories", "anchors": ["MAPL_engine/rules_load.go:SetPredefinedStringsAndLists", "MAPL_engine/check.go:CheckOneRule"]}
{"id": "C41", "title": "ValidateRule predicts preparation", "statement": "ValidateRule accepts a rule exactly when preparing it with empty tables succeeds.", "quantifier": "every rule", "why_tests_cant": "all rules", "anchors": ["MAPL_engine/rules_load.go:ValidateRule", "MAPL_engine/rules_load.go:PrepareOneRuleWithPredefinedStrings"]}
{"id": "C42", "title": "Validation characterises the accepted conditions", "statement": "A condition is accepted exactly when its attribute is supported and well formed, its method supported (and allowed for that attribute), numeric methods have numeric values and regex methods have valid regular expressions.", "quantifier": "every condition", "why_tests_cant": "all attribute/method/value texts", "anchors": ["MAPL_engine/validate_conditions.go:ValidateOneCondition", "MAPL_engine/validate_conditions.go:validateAttribute", "MAPL_engine/validate_conditions.go:validateMethod", "MAPL_engine/validate_conditions.go:convertAndValidateNumericalValues"]}
{"id": "C43", "title": "Preparing a condition never crashes", "statement": "Preparation of a condition either succeeds or returns an error; the index and slice expressions on attribute texts never go out of range.", "quantifier": "every attribute, method, value and table", "why_tests_cant": "all texts", "anchors": ["MAPL_engine/validate_conditions.go:validateArraysWithIndex", "MAPL_engine/rules_load.go:handleSenderReceiverLabelsAttribute", "MAPL_engine/rules_load.go:handleJsonpathAttribute", "MAPL_engine/conditions_tree.go:Condition.PrepareAndValidate"]}
{"id": "C44", "title": "Copying a rule preserves it", "statement": "The copy on which preparation works (JSON encode and decode of the rule) has the same condition tree as the original.", "quantifier": "every condition tree", "why_tests_cant": "all trees and all attribute/value texts; escaping is done by hand", "anchors": ["MAPL_engine/definitions_rule.go:Condition.MarshalJSON", "MAPL_engine/conditions_tree.go:Any.MarshalJSON", "MAPL_engine/conditions_tree.go:All.MarshalJSON", "MAPL_engine/conditions_tree.go:InterpretNode", "MAPL_engine/rules_load.go:SetPredefinedStringsAndLists"]}
{"id": "C45", "title": "Preparing and checking leave a rule's identity alone", "statement": "The text form, and with it the MD5 hash, of a rule does not change when the rule is prepared through SetPredefinedStringsAndLists or checked, any number of times.", "quantifier": "every rule and history", "why_tests_cant": "all histories", "anchors": ["MAPL_engine/rules_load.go:SetPredefinedStringsAndLists", "MAPL_engine/rules_load.go:RuleToString", "MAPL_engine/rules_load.go:RuleMD5Hash"]}
{"id": "C46", "title": "Parsing builds the written tree", "statement": "Parsing the document form of a tree (AND/OR lists, NOT maps, ANY/ALL maps with parent path and optional return values, condition maps, optional condition/conditionsTree wrappers) gives that tree.", "quantifier": "every tree", "why_tests_cant": "all trees", "anchors": ["MAPL_engine/conditions_tree.go:ParseConditionsTree", "MAPL_engine/conditions_tree.go:InterpretNode", "MAPL_engine/conditions_tree.go:getAnyAllNode", "MAPL_engine/conditions_tree.go:getNotNode"]}
{"id": "C47", "title": "Malformed trees are rejected", "statement": "A list of several nodes without a connective, a map with several connectives, an ANY/ALL without a parent path, an unknown node keyword or a scalar in place of a node is an error; nothing written in the document is silently dropped.", "quantifier": "every document", "why_tests_cant": "all documents", "anchors": ["MAPL_engine/conditions_tree.go:InterpretNode", "MAPL_engine/conditions_tree.go:handleMapStringInterface", "MAPL_engine/conditions_tree.go:handleInterfaceArray", "MAPL_engine/conditions_tree.go:getNodeByParentString"]}
{"id": "C48", "title": "Parsing is deterministic", "statement": "The tree obtained from a document does not depend on map iteration order.", "quantifier": "every document, every iteration order", "why_tests_cant": "the runtime picks a random order", "anchors": ["MAPL_engine/conditions_tree.go:getAnyAllNode", "MAPL_engine/definitions_rule.go:ReadCondition"]}
{"id": "C49", "title": "Hash ignores the order of AND/OR children", "statement": "Rules that differ only in the order of children of AND/OR nodes, at any depth, have the same text form and the same MD5 hash and are ConditionsEqual.", "quantifier": "every tree, every permutation at every depth", "why_tests_cant": "all permutations", "anchors": ["MAPL_engine/conditions_tree.go:AndOrString", "MAPL_engine/rules_load.go:RuleMD5Hash", "MAPL_engine/rules_load.go:ConditionsEqual"]}
{"id": "C50", "title": "Equal text forms mean equal conditions", "statement": "If two rules have the same conditions text then their conditions are the same up to the order of AND/OR children and redundant one-child connectives.", "quantifier": "every pair of trees", "why_tests_cant": "all pairs", "anchors": ["MAPL_engine/conditions_tree.go:AndOrString", "MAPL_engine/definitions_rule.go:Condition.String", "MAPL_engine/rules_load.go:ConditionsEqual"]}
{"id": "C51", "title": "Mongo translation preserves the boolean structure", "statement": "The Mongo query of a tree of AND/OR/NOT/ANY/ALL selects a document exactly when the tree's formula holds with each condition replaced by its own query.", "quantifier": "every translatable tree, every document", "why_tests_cant": "all trees and documents", "anchors": ["MAPL_engine/mongo_plugin.go:And.ToMongoQuery", "MAPL_engine/mongo_plugin.go:Or.ToMongoQuery", "MAPL_engine/mongo_plugin.go:Not.ToMongoQuery", "MAPL_engine/mongo_plugin.go:Any.ToMongoQuery", "MAPL_engine/mongo_plugin.go:All.ToMongoQuery"]}
{"id": "C52", "title": "Untranslatable trees are rejected", "statement": "Translation fails for conditions that are not json paths, for deep-scan parents, for KEY/VALUE inside arrays and under ALL; a condition never loses its operator.", "quantifier": "every tree", "why_tests_cant": "all trees", "anchors": ["MAPL_engine/mongo_plugin.go:Condition.ToMongoQuery", "MAPL_engine/mongo_plugin.go:All.ToMongoQuery"]}
{"id": "C53", "title": "Simple and aggregate queries", "statement": "The Mongo translation of a rule is simple exactly when no added-field step is needed; otherwise it is the list of those steps followed by one final match of the query.", "quantifier": "every rule", "why_tests_cant": "all rules", "anchors": ["MAPL_engine/rule_mongo_plugin.go:ToMongoQuery"]}
{"id": "C54", "title": "Message coverage", "statement": "A message is reported covered exactly when Check's decision is not default, with the ids and the decisions of exactly the applying rules, in order and aligned.", "quantifier": "every message and rule list", "why_tests_cant": "unbounded lists", "anchors": ["MAPL_engine/coverage.go:Coverage", "MAPL_engine/coverage.go:findNonDefaultDecisions"]}
{"id": "C55", "title": "Rule coverage", "statement": "Every rule id has an entry; it lists, in message order, the ids of the messages to which a rule with that id applied, and nothing else.", "quantifier": "every message list and rule list", "why_tests_cant": "unbounded lists, repeated ids", "anchors": ["MAPL_engine/coverage.go:Coverage"]}
{"id": "C56", "title": "Derived message fields", "statement": "Resource type is path for HTTP, port for TCP and empty otherwise; the time fields lie in [0,24) hours and agree with each other.", "quantifier": "every message", "why_tests_cant": "all time stamps", "anchors": ["MAPL_engine/messages_load.go:AddResourceType", "MAPL_engine/messages_load.go:AddTimeInfoToMessage"]}
{"id": "C57", "title": "Label text parsing", "statement": "Turning the bare label text {k:v,...} into JSON text gives, for keys and values without structural characters, the object with exactly those keys and string values.", "quantifier": "every label list", "why_tests_cant": "all lists", "anchors": ["MAPL_engine/messages_load.go:addQuotesToJsonString", "MAPL_engine/messages_load.go:parseLabelsJsonOfMessage"]}
{"id": "C58", "title": "Splitting a JSON array into objects", "statement": "The splitter used on JSON text returns exactly the top-level objects of the array, in order.", "quantifier": "every array text", "why_tests_cant": "all texts; braces inside strings", "anchors": ["MAPL_engine/check.go:getArrayOfJsonsFromInterfaceArray"]}
{"id": "C59", "title": "Checks that run at the same time do not disturb each other", "statement": "Two goroutines checking rules against one shared message value get the results they would get alone.", "quantifier": "every interleaving", "why_tests_cant": "schedules cannot be enumerated by tests", "anchors": ["MAPL_engine/conditions_tree.go:evalAnyRawInterface", "MAPL_engine/check.go:Check"]}
{"id": "C61", "title": "Values in MongoDB queries", "statement": "The query of a condition compares with the value the engine compares with: table lookups are resolved, and a value that refers to a label or a field of the receiver of a message, which does not exist for a stored document, is refused.", "quantifier": "every condition and every predefined table", "why_tests_cant": "all value forms", "anchors": ["MAPL_engine/mongo_plugin.go:Condition.ToMongoQuery"]}
{"id": "C62", "title": "Time fields are in UTC", "statement": "The fields RequestTime…FromMidnightUTC hold the time since midnight in UTC, so that two time stamps of the same instant give the same fields.", "quantifier": "every time stamp", "why_tests_cant": "all zones; the tests use one", "anchors": ["MAPL_engine/messages_load.go:AddTimeInfoToMessage"]}
{"id": "C63", "title": "A resource type given with a message is kept", "statement": "For protocols other than HTTP and TCP the resource type given in the message is kept, so that rules naming it can apply.", "quantifier": "every message and rule of such a protocol", "why_tests_cant": "all protocols", "anchors": ["MAPL_engine/messages_load.go:AddResourceType"]}
{"id": "C64", "title": "Loading messages", "statement": "Loading gives one message per message read, in order, each with fields derived from itself alone; it fails exactly when some time stamp cannot be read.", "quantifier": "every message list", "why_tests_cant": "unbounded lists", "anchors": ["MAPL_engine/messages_load.go:YamlReadMessagesFromString"]}
{"id": "C60", "title": "Rules prepared in place", "statement": "A rule that PrepareRules or PrepareRulesWithPredefinedStrings has prepared without an error gives, when it is then checked, the decision that the rule gives without that preparation; its check returns.", "quantifier": "for all rules, tables of predefined strings and lists, and messages", "why_tests_cant": "The tests never check rules that were prepared in place (the calls are commented out in the loaders), and whether the copy that Check makes of a prepared rule is usable depends on every field of the rule.", "anchors": ["MAPL_engine/rules_load.go:182-235", "MAPL_engine/rules_load.go:64-86", "MAPL_engine/rules_load.go:145-179", "MAPL_engine/check.go:174-210", "MAPL_engine/definitions_rule.go:111-112"]}
{"id": "C65", "title": "Displaying a rule", "statement": "GetRuleStrings and Print return for every rule, and rules that are displayed the same have the same sender, receiver, protocol, resource, operation, decision and conditions (up to the order of AND/OR children).", "quantifier": "every pair of rules", "why_tests_cant": "all rules; a test sees that one rule looks right, not that no other rule looks the same", "anchors": ["MAPL_engine/tools.go:GetRuleStrings", "MAPL_engine/tools.go:Print", "MAPL_engine/definitions_rule.go:Sender.String", "MAPL_engine/definitions_rule.go:Receiver.String", "MAPL_engine/definitions_rule.go:Resource.String"]}
{"id": "C66", "title": "Lists of lists in documents given as text", "statement": "If the parent path of an ANY or ALL selects a list of lists of objects, the condition ranges over the objects of all the lists, for documents given as text as for parsed ones.", "quantifier": "every document, every list of lists, every child condition", "why_tests_cant": "the text is flattened by replacing bracket sequences; which contents break it needs an argument over all texts", "anchors": ["MAPL_engine/check.go:getArrayFromArrayOfArrays", "MAPL_engine/check.go:getArrayOfJsons", "MAPL_engine/check.go:getArrayOfJsonsFromInterfaceArray"]}
{"id": "C67", "title": "Rules with the same hash are interchangeable", "statement": "Two rules with the same text form (RuleToString), and hence with the same RuleMD5Hash unless MD5 collides, have the same fields up to letter case and equivalent conditions, and decide the same on every message.", "quantifier": "every pair of rules, every message", "why_tests_cant": "all pairs of rules; the text form is built by concatenation and can be ambiguous", "anchors": ["MAPL_engine/rules_load.go:RuleToString", "MAPL_engine/rules_load.go:RuleMD5Hash", "MAPL_engine/check.go:CheckOneRule"]}
{"id": "C68", "title": "Rules loaded with a table", "statement": "YamlReadRulesFromStringWithPredefinedStrings returns either all rules of the document, in order and as written, each prepared with the given table and using it in all later checks whatever the global table is, or an error and no rules; it succeeds exactly if every rule can be prepared with the table.", "quantifier": "every list of rules, every table, every later history of calls", "why_tests_cant": "all histories after loading; a test checks one document and one message", "anchors": ["MAPL_engine/rules_load.go:YamlReadRulesFromStringWithPredefinedStrings", "MAPL_engine/rules_load.go:SetPredefinedStringsAndLists"]}
{"id": "C69", "title": "Numbers as values of conditions", "statement": "A condition whose value is written as a number in the rule document compares with that number, as if the number were written as text.", "quantifier": "every number, every comparison, every message", "why_tests_cant": "the number is printed and read again; which numbers survive this needs an argument over all numbers, tests use small ones", "anchors": ["MAPL_engine/definitions_rule.go:ReadCondition", "MAPL_engine/check.go:compareIntFunc", "MAPL_engine/check.go:compareFloatFunc"]}
{"id": "C70", "title": "Values that a rule asks to be returned", "statement": "A json path condition with return values that holds reports, for each name, the value its path selects: in the whole document for jsonpath:$.x, in the element in scope for jsonpath:$RELATIVE.x; ANY with return values does so for each element for which its condition holds; nothing is reported for conditions that do not hold.", "quantifier": "every condition and ANY with return values, every document, parsed or text", "why_tests_cant": "all documents and paths; tests compare a few reports", "anchors": ["MAPL_engine/definitions_rule.go:ConditionFromConditionNode", "MAPL_engine/check.go:getExtraData", "MAPL_engine/check.go:getExtraDataFromInterface", "MAPL_engine/check.go:getExtraDataFromByteArray", "MAPL_engine/conditions_tree.go:Any.SetReturnValueJsonpath"]}
{"id": "C71", "title": "A table has the same effect wherever it is set", "statement": "Checking a rule gives the same answer whether a table of predefined strings and lists is set globally and the rule used unprepared, or the table is given to the rule with SetPredefinedStringsAndLists.", "quantifier": "every table, every rule, every message", "why_tests_cant": "all tables; one of the two ways validates the table and the other does not", "anchors": ["MAPL_engine/rules_load.go:SetGlobalPredefinedStringsAndLists", "MAPL_engine/rules_load.go:SetPredefinedStringsAndLists", "MAPL_engine/predefined_lists_load.go:validatePredefinedString"]}
{"id": "C72", "title": "Writing a rule in lower case", "statement": "ToLower changes only how a rule is written: the rule keeps its text form and hash, and its decision on every message; and rules whose texts agree decide the same once both are written in lower case.", "quantifier": "for all rules, tables and messages", "why_tests_cant": "Every field takes part in matching in its own way (patterns, keywords, comparison up to case), so that whether lower-casing matters depends on the values of all fields and on the message.", "anchors": ["MAPL_engine/rules_load.go:498-509", "MAPL_engine/rules_load.go:542-549", "MAPL_engine/check.go:101-172", "MAPL_engine/string_utils.go:114-128"]}
{"id": "C73", "title": "Equality, patterns and existence on texts", "statement": "A condition on a text of the message, a label or a text that a json path selects means what its method says: EQ that the text is the value, NEQ that it is not, RE that the pattern is found in it, NRE that it is not, EX and NEX that there is such a text or not, IN and NIN that it is one of the listed words or not.", "quantifier": "for all attributes that are texts, labels and json paths, all values, all messages", "why_tests_cant": "The value becomes part of a regular expression for some attributes and methods and is compared literally for others, so the meaning depends on its characters.", "anchors": ["MAPL_engine/conditions_tree.go:Condition.PrepareAndValidate", "MAPL_engine/string_utils.go:ConvertStringToRegex", "MAPL_engine/check.go:testOneCondition", "MAPL_engine/check.go:compareStringWithWildcardsFunc"]}
{"id": "C74", "title": "A policy decides by its written meaning", "statement": "Take rules whose sender, receiver, operation and resource texts are names, wildcards, lists, subnets or references into the tables, and whose conditions combine by AND, OR, NOT, ANY and ALL comparisons that the validation accepts and that say something of the given message (sizes, hours and versions against numbers; texts, labels and selected json values against words, patterns, lists and references). Then loading and preparing the rules succeeds, and so does the check of the message. A rule applies exactly if all its parts and its statement, read as English, hold of the message; its result is its decision if it applies and default otherwise; the answer is the most severe decision of the rules that apply, and default if none does. This holds for rules as they come from the parser, with the global tables, and for rules loaded with their own tables, for which the global tables do not matter.", "quantifier": "for all such policies of any size, all tables, all messages with IPv4 addresses and texts without line breaks, all regexp, json and number libraries that keep the stated assumptions, all map iteration orders", "why_tests_cant": "It composes the parser, the reference tables, the preparation, the compilation of patterns, the evaluation of trees with their scopes and the choice of the decision, for policies of any size and any nesting.", "anchors": ["MAPL_engine/check.go:Check", "MAPL_engine/check.go:CheckOneRule", "MAPL_engine/rules_load.go:SetPredefinedStringsAndLists", "MAPL_engine/rules_load.go:YamlReadRulesFromStringWithPredefinedStrings", "MAPL_engine/conditions_tree.go:Eval", "MAPL_engine/conditions_parser.go:ParseConditionsTree"]}
{"id": "C75", "title": "A decision depends only on what the rules mention", "statement": "Two messages that agree on what the rules compare (the service of the sender and receiver for rules of type workload or `*`, the addresses for subnets, the host for hostnames, the port for tcp, protocol and path for other protocols, the operation always) and on every attribute that some condition of the rules names, get the same seven returned values from Check, or the same failure. In particular the identifier and the time of the message, the seconds and minutes and the label texts in json never matter, and rules without conditions look at the request alone.", "quantifier": "for all lists of rules as parsed or prepared, all tables, all pairs of messages that agree in that sense, all externals and iteration orders", "why_tests_cant": "It is a statement about pairs of messages that differ arbitrarily in everything not mentioned, for rules with trees of any size.", "anchors": ["MAPL_engine/check.go:Check", "MAPL_engine/check.go:CheckOneRule", "MAPL_engine/check.go:testOneCondition", "MAPL_engine/conditions_tree.go:Eval", "MAPL_engine/definitions_message.go:MessageAttributes"]}
{"id": "C76", "title": "Different ways to write a policy are equivalent", "statement": "A policy may be rewritten without changing what it can decide or whether it can fail, on any message: rules may be reordered and repeated; a rule for a list of senders, receivers, operations or resources may be split into rules for the parts of the list; a rule whose conditions are a disjunction may be split into one rule for each part; conditions may be rewritten by the laws of logic (double negation, flattening, reordering, repetition, De Morgan, distribution), inside each other; and any part of a policy may be replaced by an equivalent part.", "quantifier": "for all rules as parsed, all contexts of other rules, all tables, all messages, all externals, all iteration orders", "why_tests_cant": "Equivalence ranges over all messages and all iteration orders, for both policies, and over rewritings of trees of any size.", "anchors": ["MAPL_engine/check.go:Check", "MAPL_engine/check.go:CheckOneRule", "MAPL_engine/string_utils.go:ConvertStringToExpandedSenderReceiver", "MAPL_engine/conditions_tree.go:Eval", "MAPL_engine/rules_load.go:ReplaceStringsAndListsInOneRule"]}
{"id": "C77", "title": "A rules document gives the rules that are written in it", "statement": "Reading a YAML rules document, from a string or a file, gives exactly the rules that are written in it, in order: each text field is the scalar under its key as it was written, the sender, receiver, resource, metadata and condition tree are those of the nested mappings, missing and null keys leave the field empty, unknown keys are ignored, and a document that does not have this form gives an error and no rules. Every list of rules can be written, and a policy that is read from its document and tables decides by its written meaning.", "quantifier": "for all parsed YAML documents of any size and depth, all rules, all externals and iteration orders", "why_tests_cant": "It relates the reader to an independent description of the format for all documents, in both directions.", "anchors": ["MAPL_engine/rules_load.go:YamlReadRulesFromString", "MAPL_engine/rules_load.go:YamlReadRulesFromFile", "MAPL_engine/rules_load.go:YamlReadRulesFromStringWithPredefinedStrings", "MAPL_engine/rules_load.go:YamlReadRulesFromFileWithPredefinedStrings", "MAPL_engine/definitions_rule.go:Rule", "MAPL_engine/conditions_tree.go:UnmarshalYAML"]}
{"id": "C78", "title": "Reading a document does not crash", "statement": "Reading a rules document, whatever is in it, returns rules or an error; it does not crash the program.", "quantifier": "for all parsed YAML documents and all JSON condition trees, all externals and iteration orders", "why_tests_cant": "Absence of panics concerns all documents, in particular malformed ones that nobody thought of.", "anchors": ["MAPL_engine/rules_load.go:YamlReadRulesFromString", "MAPL_engine/rules_load.go:YamlReadRulesFromFile", "MAPL_engine/conditions_tree.go:ParseConditionsTree", "MAPL_engine/conditions_tree.go:UnmarshalYAML", "MAPL_engine/conditions_tree.go:UnmarshalJSON", "MAPL_engine/conditions_tree.go:ReadCondition"]}
{"id": "C79", "title": "A document of tables gives the strings and lists that are written in it", "statement": "Reading a YAML document of predefined strings and lists gives exactly the strings and lists that are written in it, with each #name in a list replaced by the string of that name; null is the empty table, string or list, unknown keys are ignored, and a document that does not have this form, or refers to a string that is not there, gives an error. All tables can be written, and a policy in two documents, one of tables and one of rules, decides by the written meaning of the rules with the written tables.", "quantifier": "for all parsed YAML documents, all tables, all policies, messages, externals and iteration orders", "why_tests_cant": "It relates the reader to an independent description of the format for all documents, in both directions.", "anchors": ["MAPL_engine/predefined_lists_load.go:YamlReadStringListsFromString", "MAPL_engine/predefined_lists_load.go:YamlReadStringListsFromFile", "MAPL_engine/predefined_lists_load.go:validatePredefinedString"]}
{"id": "C80", "title": "Conditions about lists and objects", "statement": "If a path selects a list with a single value, a condition on the path is a condition on that value. If it selects several texts, EQ with a text fails and NEQ holds, EX holds and NEX fails. Any other list, and any object, is compared by its JSON text.", "quantifier": "for all documents, parsed or given as text, all methods, values and tables, all externals with the stated properties", "why_tests_cant": "The code strips quotes and brackets wherever they meet; that this gives the meaning above, and for which contents it does not, needs an argument over all texts.", "anchors": ["MAPL_engine/check.go:testJsonPathConditionOnInterface", "MAPL_engine/check.go:testJsonPathCondition", "MAPL_engine/string_utils.go:removeQuotesAndBrackets", "MAPL_engine/string_utils.go:removeQuotesFromResult"]}
{"id": "C81", "title": "A document of messages gives the messages that are written in it", "statement": "Reading a YAML document of messages gives exactly the messages that are written in it, in order: each text as it stands, the size and the encryption version as numbers, missing keys and null as empty, unknown keys ignored; then the type is set from the protocol, the addresses, the clock and the labels from their texts, and nothing else. A document that does not have this form, or in which some message has no readable time stamp, gives an error and no messages; reading never crashes. Together with documents of tables and rules, each message is decided by the written meaning of the rules.", "quantifier": "for all parsed YAML documents, all messages, all policies, externals and iteration orders", "why_tests_cant": "It relates the reader to an independent description of the format for all documents, in both directions; the tests read a few files.", "anchors": ["MAPL_engine/messages_load.go:YamlReadMessagesFromString", "MAPL_engine/messages_load.go:YamlReadMessagesFromFile", "MAPL_engine/definitions_message.go:MessageAttributes"]}
{"id": "C82", "title": "Asking for values to be returned does not change the decision", "statement": "If the return values are removed from the conditions of a policy then the check of any message gives the same decision, the same result for each rule, the same applied and relevant rules and the same description, and no values are returned. In particular a policy with return values decides by its written meaning.", "quantifier": "for all policies, parsed or prepared with tables, all messages, externals and iteration orders", "why_tests_cant": "With return values ANY visits all elements instead of stopping at the first, and values are computed on the way; that none of this reaches the decision is a relation between two executions, for all trees and documents.", "anchors": ["MAPL_engine/conditions_tree.go:Any.Eval", "MAPL_engine/check.go:testOneCondition", "MAPL_engine/check.go:getExtraData", "MAPL_engine/check.go:Check"]}
{"id": "C83", "title": "A rules document in JSON is read as the same document in YAML", "statement": "If a JSON text and a YAML document say the same, then unmarshalling the text into Rules and reading the YAML document give the same rules, or both give an error. The rules are the ones written in the document. A JSON text with a value of the wrong type, or that is no JSON, gives an error.", "quantifier": "for all JSON texts and parsed YAML documents that say the same, all externals and iteration orders", "why_tests_cant": "It relates two decoders with different rules for keys, null, numbers and errors over all documents; the tests compare a handful of files.", "anchors": ["MAPL_engine/definitions_rule.go:Rules", "MAPL_engine/conditions_tree.go:UnmarshalJSON", "MAPL_engine/conditions_tree.go:UnmarshalYAML", "MAPL_engine/rules_load.go:YamlReadRulesFromString"]}
{"id": "C84", "title": "Rules written to JSON and read again are the same rules", "statement": "Marshalling rules to JSON and unmarshalling the text gives the same rules, field by field and condition by condition, so they decide as before. Writing and reading one rule is exactly what copying it does.", "quantifier": "for all lists of rules, all condition trees, externals and iteration orders", "why_tests_cant": "The text is put together from pieces by hand-written encoders, and escaping, empty fields and nesting interact; the tests store a few rules.", "anchors": ["MAPL_engine/definitions_rule.go:Rule", "MAPL_engine/conditions_tree.go:MarshalJSON", "MAPL_engine/conditions_tree.go:UnmarshalJSON", "MAPL_engine/rules_load.go:PrepareRules"]}
{"id": "C85", "title": "A rule stored in a database and read back is the same rule", "statement": "bson.Marshal of a rule gives a document, and bson.Unmarshal of the document gives the same rule: every field is equal, the metadata and the return values are the same maps, and the conditions are the same tree. The text and the MD5 hash of the rule do not change, and a list of rules that has been stored and read back gives the same answer to every message, with any tables, or fails in the same way.", "quantifier": "for all rules and lists of rules, all condition trees, tables, messages, externals and iteration orders", "why_tests_cant": "Conditions go through three encodings with hand-written pieces, and maps come back in another order; the repository's test stores a few rules and compares hashes.", "anchors": ["MAPL_engine/conditions_tree.go:MarshalBSON", "MAPL_engine/conditions_tree.go:UnmarshalBSON", "MAPL_engine/definitions_rule.go:Rule", "MAPL_engine/rules_load.go:RuleToString"]}
{"id": "C86", "title": "Rules are read from JSON texts and from nothing else", "statement": "A text that is not a JSON document by the grammar of RFC 8259 is refused with an error when it is unmarshalled into rules, without a crash. Two texts of the same JSON document give the same rules, however they are spaced and escaped. Of keys that are repeated inside of conditions the last one counts. What is written for a rule is a JSON document.", "quantifier": "for all texts, documents and rules", "why_tests_cant": "The texts are unbounded and nest arbitrarily; tests read a few well-formed files.", "anchors": ["MAPL_engine/conditions_tree.go:UnmarshalJSON", "MAPL_engine/definitions_rule.go:Rules", "MAPL_engine/unmarshal_test.go"]}
{"id": "C87", "title": "A policy decides by its written meaning however it is stored", "statement": "A policy that is written in a JSON document, written to JSON from memory and read again, or stored in a database and read back is loaded without an error, and every check of a message then returns the decision that the written statements of the policy mean, with no crash.", "quantifier": "for all policies of the class of C74, all JSON documents that write them, all tables, messages, externals and iteration orders", "why_tests_cant": "Every storage path has its own encoder and decoder, and decisions depend on all pieces in between; tests compare a few stored rules with the originals.", "anchors": ["MAPL_engine/check.go:Check", "MAPL_engine/conditions_tree.go:UnmarshalJSON", "MAPL_engine/conditions_tree.go:MarshalJSON", "MAPL_engine/conditions_tree.go:MarshalBSON", "MAPL_engine/conditions_tree.go:UnmarshalBSON"]}
{"id": "C88", "title": "A document with one message is accepted if and only if all its keys are known", "statement": "YamlReadMessageAttributes of a document of lines `key: value` with distinct keys returns the message that the lines write, with the resource type by its protocol, if all keys are known. If a key is not known then it returns an error. It never crashes.", "quantifier": "for all texts, documents, values and externals", "why_tests_cant": "The check compares numbers of matches of a regular expression in the document and in the JSON text of the message after twenty-seven replacements; which values upset the numbers cannot be seen from examples, and the function has no test.", "anchors": ["MAPL_engine/messages_load.go:YamlReadMessageAttributes", "MAPL_engine/tools.go:IsNumberOfFieldsEqual", "MAPL_engine/tools.go:compareJsonAndYaml", "MAPL_engine/definitions_message.go:ToJson"]}
{"id": "C89", "title": "Checks leave the documents of the caller as they are", "statement": "When a request carries its document as text (RequestJsonRaw), Check does not change any byte of it, and its results are those of the text that the caller passed: they do not depend on which rules or requests were checked before with the same document.", "quantifier": "for all rules, tables, messages, documents, memory contents and externals", "why_tests_cant": "Whether a result shares memory with the document depends on the paths, the capacity of the slices and the library that selects parts; tests compare decisions and do not look at the bytes afterwards, and each test uses its document once.", "anchors": ["MAPL_engine/check.go:getArrayOfJsons", "MAPL_engine/check.go:getArrayOfJsonsFromInterfaceArray", "MAPL_engine/check.go:Check", "MAPL_engine/conditions_tree.go:Any.Eval", "MAPL_engine/conditions_tree.go:All.Eval"]}
{"id": "C90", "title": "A table that was set does not change with the maps of the caller", "statement": "After SetGlobalPredefinedStringsAndLists or SetPredefinedStringsAndLists has returned, what the caller does to their own maps and lists has no effect on any later answer: every history of calls gives the answers of the history in which the tables are passed as they were at the time of the call.", "quantifier": "for all histories of calls and changes, tables, rules, messages, externals and map orders", "why_tests_cant": "The effect needs a change between two calls, at a place that no call mentions; tests build a table, pass it and never touch it again.", "anchors": ["MAPL_engine/rules_load.go:SetGlobalPredefinedStringsAndLists", "MAPL_engine/rules_load.go:SetPredefinedStringsAndLists", "MAPL_engine/predefined_lists_load.go:validatePredefinedString", "MAPL_engine/definitions_lists.go:PredefinedStringsAndLists"]}
{"id": "C91", "title": "Keys that are not texts are refused where names stand", "statement": "If a policy document has a number, a truth value or null as a key where the name of a field, a connective or a return value of a condition is expected (YAML reads 1, yes, on and ~ that way), YamlReadRulesFromString and YamlReadRulesFromFile return an error. Such keys elsewhere (metadata, unknown keys of rules) are read by their text and change nothing else.", "quantifier": "for all documents, externals and map orders", "why_tests_cant": "Whether a key is a text depends on how YAML resolves it, and the key can stand at any depth of any conditions; tests are written with the keys of the specification.", "anchors": ["MAPL_engine/conditions_tree.go:mapInterfaceToMapString", "MAPL_engine/conditions_tree.go:handleMapInterfaceInterface", "MAPL_engine/conditions_tree.go:getAnyAllNode", "MAPL_engine/definitions_rule.go:ReadCondition", "MAPL_engine/rules_load.go:YamlReadRulesFromString"]}
{"id": "C92", "title": "Subnets and addresses of both kinds, however they are written", "statement": "An entry of a list of subnets covers exactly the addresses that agree with it in their leading bits, IPv6 and IPv4 addresses alike and however both are written; a single address covers itself, '*' covers every address, and an entry that is neither a subnet nor an address is refused.", "quantifier": "for all entries, addresses in every notation (shortened, with leading zeros, in either case, with an IPv4 ending), prefix lengths and messages", "why_tests_cant": "2^128 addresses with many spellings each, times 129 prefix lengths; the tests have IPv4 addresses only.", "anchors": ["MAPL_engine/check.go:TestSender", "MAPL_engine/check.go:TestReceiver", "MAPL_engine/string_utils.go:ConvertStringToExpandedSenderReceiver", "MAPL_engine/tools.go:isIpCIDR", "MAPL_engine/messages_load.go:AddNetIpToMessage"]}
{"id": "C93", "title": "Conditions about a document are decided by the document", "statement": "A condition on a JSON path is decided by the value that the path leads to in the document of the message, ANY and ALL range over the elements of the list that their parent path leads to, and a path under $RELATIVE starts at the current element. It does not matter whether the message has the document parsed or as a text, nor how the text is laid out: Check gives the same decision and the same results.", "quantifier": "for all policies, tables, documents, and texts of a document (white space and order of members)", "why_tests_cant": "Parsed documents and texts are evaluated by different code with different path libraries; that they agree concerns all pairs of a policy and a document with all of its texts.", "anchors": ["MAPL_engine/check.go:Check", "MAPL_engine/check.go:testOneCondition", "MAPL_engine/conditions_tree.go:Any.Eval", "MAPL_engine/conditions_tree.go:All.Eval", "MAPL_engine/check.go:testJsonPathCondition"]}
{"id": "C94", "title": "A preparation that failed can be repeated", "statement": "PrepareRulesWithPredefinedStrings either prepares all rules or returns an error. After an error, the rules of the caller still mean what was read: when the missing entries have been added to the tables, preparing the rules again, giving them the tables with SetPredefinedStringsAndLists, or checking a message with the completed tables in force gives what it would have given without the failed attempt. The same holds after a failed SetPredefinedStringsAndLists.", "quantifier": "for all lists of rules, tables of the first and of the second attempt, and messages", "why_tests_cant": "Where the first attempt stops depends on the rules and the tables, and everything assigned before that point stays assigned; the claim is about all such points in all trees.", "anchors": ["MAPL_engine/rules_load.go:PrepareRulesWithPredefinedStrings", "MAPL_engine/rules_load.go:PrepareOneRuleWithPredefinedStrings", "MAPL_engine/rules_load.go:SetPredefinedStringsAndLists", "MAPL_engine/conditions_tree.go:PrepareAndValidate"]}
{"id": "C95", "title": "A rule that is made more specific never does more", "statement": "If a rule is made more specific (wildcards of its names, operations and resources filled in, names left out of lists, smaller subnets, an operation instead of a class of operations, conditions added with AND, cases of an OR left out, bounds of numbers tightened, texts restricted), it applies only to messages to which it applied before. A policy each of whose rules is more specific than some rule of another policy that is at least as severe never decides more severely, and a rule that is more specific than another one that is at least as severe can be dropped without changing any decision.", "quantifier": "for all rules, ways of making them more specific, tables, policies and messages", "why_tests_cant": "Which messages a rule applies to is an infinite set decided by globs, subnets and nested conditions with negations and quantifiers; containment of two such sets cannot be established by trying messages.", "anchors": ["MAPL_engine/check.go:Check", "MAPL_engine/check.go:CheckOneRule", "MAPL_engine/check.go:TestSender", "MAPL_engine/check.go:TestReceiver", "MAPL_engine/check.go:TestConditions", "MAPL_engine/conditions_tree.go:Eval"]}
{"id": "C96", "title": "The query of a rule finds the documents to which the rule applies", "statement": "ToMongoQuery and Check are two readings of one rule. For a rule with conditions on the document, the query that ToMongoQuery returns selects a stored document exactly if Check of a message with this document gives the decision of the rule, provided the sender, the receiver, the resource and the operation of the rule match the message: what is found by searching a collection is what would have been blocked.", "quantifier": "for all rules with conditions on documents, tables, base fields and documents", "why_tests_cant": "The query is run by another program with its own rules for types, missing fields and lists; agreement concerns all pairs of a condition tree and a document, and the values where the two programs differ are exactly those one does not think of in tests.", "anchors": ["MAPL_engine/rule_mongo_plugin.go:ToMongoQuery", "MAPL_engine/check.go:CheckOneRule", "MAPL_engine/mongo_plugin.go:ToMongoQuery", "MAPL_engine/check.go:testJsonPathCondition"]}
{"id": "C97", "title": "ANY and ALL with several paths", "statement": "The parent path of an ANY or ALL may be a list of paths with commas between them. An ANY with several paths applies exactly if the OR of the ANYs with one path each does, and an ALL exactly if the AND of the ALLs does, in checks of parsed documents, in checks of documents as texts and in queries; a path that leads to nothing contributes no elements and does not hide those of the other paths.", "quantifier": "for all lists of paths, conditions, documents and messages", "why_tests_cant": "The elements are collected in two unrelated ways (lists of values, concatenated texts that are cut again) and translated in a third; which paths exist, their order and how the library reports a missing one combine without bound.", "anchors": ["MAPL_engine/check.go:getArrayOfJsons", "MAPL_engine/check.go:getArrayOfInterfaces", "MAPL_engine/conditions_tree.go:SetParentJsonpathAttribute", "MAPL_engine/mongo_plugin.go:ToMongoQuery"]}
{"id": "C98", "title": "Rules about labels", "statement": "An ANY or ALL over an object, like the labels of a pod, is about its entries: with the conditions $KEY EQ k and $VALUE EQ v an ANY applies exactly to the documents in which the object has the entry k with the value v; with NOT and $KEY EQ k to those without the entry k; an ALL with $VALUE IN words, or with $KEY RE pattern, to those in which all values are among the words, or all names match. This is so for parsed documents and for documents as texts.", "quantifier": "for all objects, names, values, messages and rules", "why_tests_cant": "The entries of a parsed object are taken from a Go map in any order, those of a text are parsed, printed again one by one and parsed again by each condition; that nothing is lost on the way concerns all names and values.", "anchors": ["MAPL_engine/check.go:getArrayOfJsons", "MAPL_engine/check.go:getKeyValueFromInterface", "MAPL_engine/check.go:getKeyValue", "MAPL_engine/check.go:getArrayOfJsonsFromMapStringInterface"]}
{"id": "C99", "title": "Trees of pointers", "statement": "A tree of conditions that a program puts together with Append, or that the parser makes, is the tree one expects: Append to an AND adds a requirement, to an OR a possibility, and replaces the child of a NOT, ANY or ALL; other trees are not affected. Preparing the tree in place prepares each of its nodes once, and nothing else, so that all that holds for trees as values holds for the pointers.", "quantifier": "for all memories, trees, sequences of Append and documents", "why_tests_cant": "Whether nodes are shared or lie on a loop depends on the whole history of the memory; a test sees one memory.", "anchors": ["MAPL_engine/conditions_tree.go:Append", "MAPL_engine/conditions_tree.go:PrepareAndValidate", "MAPL_engine/conditions_tree.go:ParseConditionsTree", "MAPL_engine/conditions_tree.go:handleInterfaceArray"]}
{"id": "C100", "title": "Rules that no message can crash", "statement": "Whether a condition can make Check panic can be seen from its text: it cannot, if it compares sizes, times of day and the values of documents with numbers only, does not ask for the encryption version, the key or the value of an entry, and returns no values. A list of rules with such conditions, joined by AND, OR and NOT, is checked against every message whatsoever without a panic; with ANY and ALL the only possible panic is that something is selected that is neither a list nor an object, or from a document that is not there. A condition that is accepted but is not of this kind panics on some message.", "quantifier": "for all conditions, trees, lists of rules, tables and messages", "why_tests_cant": "It speaks about all messages at once, including incomplete ones and documents with unexpected types; no set of test messages shows that none is missing.", "anchors": ["MAPL_engine/check.go:testOneCondition", "MAPL_engine/check.go:compareIntFunc", "MAPL_engine/check.go:compareFloatFunc", "MAPL_engine/check.go:testJsonPathCondition"]}
{"id": "C101", "title": "The rules of the manual", "statement": "The rules that the manual gives as examples do what it says. The rule default_allow, with * everywhere and the decision allow, applies to every message, so that a policy that contains it, at any place, is a blacklist: a message is blocked or alerted if some rule says so and allowed otherwise. The rule about /books/* applies to exactly the messages in which A asks B over http for a path below /books/ with one of the methods that read stands for. The sender and receiver type service, lists separated by semicolons, and read and write for CONSUME and PRODUCE work as described.", "quantifier": "for all messages, all lists of rules that contain default_allow, rules parsed or prepared, and all tables", "why_tests_cant": "The manual speaks about all messages and about policies to which any further rules are added; tests take some of each.", "anchors": ["docs/MAPL_SPEC_v2.md", "MAPL_engine/check.go:Check", "MAPL_engine/rules_load.go:ConvertFieldsToRegex", "MAPL_engine/string_utils.go:ConvertOperationStringToRegex"]}
{"id": "C102", "title": "The conditions of the manual", "statement": "The examples of conditions in the manual about lists and objects hold of exactly the documents that the manual says. The rule of example 6a applies if and only if some container has no limit on the cpu or none on the memory; the rule of example 6b is equivalent to it. The rule of example 6c applies if and only if every container has a mount with the name xxx. The rules of example 6d apply if and only if there is a label with the key abc, a label with the value abc, a container with a label with the value DEF. All this is the same for parsed documents and for documents given as text.", "quantifier": "for all documents with lists of containers of any length, any limits, mounts and labels, parsed or as text, all other parts of the rules and messages", "why_tests_cant": "The claims are about all documents, and the equivalence of two rules is about all of them at once; tests compare some.", "anchors": ["docs/MAPL_Conditions_v2.md", "MAPL_engine/check.go:Check", "MAPL_engine/conditions_tree.go:Any.Eval", "MAPL_engine/conditions_tree.go:All.Eval"]}
{"id": "C103", "title": "Rules for hours of the day", "statement": "A rule whose conditions are any combination (AND, OR, NOT, nested) of comparisons of the time of day and of the payload size with numbers applies to a loaded message exactly if the combination is true of the time in the time stamp of the message and of its size. The time is compared to the nanosecond: no rounding in the conversion to hours or in the reading of the numbers makes a rule for, say, the time from 9:10 to 17:40 miss or include a moment. The time is that of UTC.", "quantifier": "for all formulas, all limits in whole minutes, all six comparisons in all their spellings, all time stamps to the nanosecond and all zones, all sizes, all other parts of the rules, all policies of such rules", "why_tests_cant": "There are 86400 billion moments in a day and each limit has two sides where floating point arithmetic could go wrong; tests try some moments far away from the limits.", "anchors": ["MAPL_engine/messages_load.go:AddTimeInfoToMessage", "MAPL_engine/check.go:testOneCondition", "MAPL_engine/check.go:compareFloatFunc", "docs/MAPL_Conditions_v2.md"]}
{"id": "C104", "title": "What a rule returns, in terms of the document", "statement": "A policy whose rules ask for values returns, under the index of each rule, what one reads off the document: for a rule that applies, the values under the given names and paths of each element of the lists that meets the condition of the ANY, in the order of the elements, one entry per element, and nothing of other elements; values flow up from ANY through AND and OR to the rule, from all the conditions that hold. For a rule that does not apply nothing is returned. All this is the same for parsed documents and for documents given as text.", "quantifier": "for all conditions made of ANY with any values, other claims, AND and OR, all documents, parsed or as text, all rules, policies, tables and messages", "why_tests_cant": "The values depend on lists of any length and on any nesting of conditions; tests look at one small document for each.", "anchors": ["docs/MAPL_Conditions_v2.md", "MAPL_engine/conditions_tree.go:Any.Eval", "MAPL_engine/conditions_tree.go:And.Eval", "MAPL_engine/conditions_tree.go:Or.Eval", "MAPL_engine/check.go:Check"]}
{"id": "C105", "title": "A deep scan is about every list at the end of the path, however deep", "statement": "A rule with ANY over `jsonpath:$..spec.containers` applies exactly if somewhere in the document, under whatever longer path, there is a list at the end of `.spec.containers` one of whose elements meets the condition; with ALL, if every element of every such list does. In particular it covers both `$.spec.containers` and `$.spec.template.spec.containers`. This is the same for parsed documents and for documents given as text, whatever else is in the document.", "quantifier": "for all paths of names and numbers, all conditions on the elements, all combinations with AND, OR and NOT, all documents, parsed or as text, all rules, policies, tables and messages", "why_tests_cant": "The lists can be anywhere in the document and there can be any number of them; the tests look at three documents with one list each.", "anchors": ["docs/MAPL_Conditions_v2.md", "MAPL_engine/conditions_tree.go:Any.Eval", "MAPL_engine/conditions_tree.go:All.Eval", "MAPL_engine/check.go:getArrayFromArrayOfArrays"]}
{"id": "C106", "title": "A message read alone is decided like the same message in a document of messages", "statement": "If YamlReadMessageAttributes reads a message, and YamlReadMessagesFromString reads a document in whose list the same message stands, then Check gives the same seven values for the two, with every list of rules.", "quantifier": "for all messages that both functions accept, all documents in which the message stands at any place, all lists of rules as parsed or prepared, all tables, externals and iteration orders", "why_tests_cant": "The two functions complete a message in different ways, and which rules notice it depends on the types and conditions of all rules; the tests read messages with one function or the other and never compare them.", "anchors": ["MAPL_engine/messages_load.go:YamlReadMessageAttributes", "MAPL_engine/messages_load.go:YamlReadMessagesFromString", "MAPL_engine/messages_load.go:AddNetIpToMessages", "MAPL_engine/messages_load.go:addTimeInfoToMessages", "MAPL_engine/messages_load.go:parseLabelsJsonOfMessages", "MAPL_engine/check.go:Check"]}
{"id": "C107", "title": "More entries in a predefined list never make a rule for the list stop applying", "statement": "Adding entries to predefined lists, with the rules as they are, has an effect in one direction only: rules that use the lists for their senders or receivers or with IN (or with NIN under a negation) still apply to every message to which they applied, and the decision of Check is at least as severe; rules that use the lists with NIN only (or with IN under a negation) apply to no message to which they did not apply, and the decision is at most as severe.", "quantifier": "for all tables and all entries added, written directly or as references to strings, all rules with conditions nested in any way, all policies, prepared or not, all messages", "why_tests_cant": "It compares two tables and all messages, for rules of any shape; the tests have fixed tables.", "anchors": ["MAPL_engine/predefined_lists_load.go", "MAPL_engine/definitions_lists.go", "MAPL_engine/check.go:Check", "docs/MAPL_SPEC_v2.md"]}
{"id": "C108", "title": "A reference may be replaced by the text it stands for", "statement": "Replacing a reference #name in a rule, in the name of the sender or the receiver or in the value of a condition, by what it stands for changes nothing: the predefined string of that name, or the entries of the list separated by commas (bars, for RE and NRE). The rule is still accepted, and Check gives the same decision and the same result for every rule, for every message.", "quantifier": "for all tables, all policies, prepared or not, conditions nested in any way, every choice of the references that are replaced, all messages", "why_tests_cant": "It compares two policies for all messages and all ways of nesting; the tests have a few rules with references and a few without.", "anchors": ["MAPL_engine/rules_load.go:PrepareOneRuleWithPredefinedStrings", "MAPL_engine/definitions_lists.go", "MAPL_engine/check.go:Check", "docs/MAPL_SPEC_v2.md"]}
{"id": "C109", "title": "Reading a file gives its content", "statement": "ReadBinaryFile returns the bytes of the file with the given name, all of them and nothing else; if it cannot, it returns an error.", "quantifier": "for all files of any length, and all ways in which the operating system may deliver the content", "why_tests_cant": "The function makes a single call of Read; whether that delivers everything depends on the length and the kind of the file. The tests read a few small regular files.", "anchors": ["MAPL_engine/tools.go:ReadBinaryFile"]}
{"id": "C110", "title": "Rules, messages and tables in a file are read like the same text in a string", "statement": "Each of the functions that read rules, messages or predefined lists from a file reads the file with the given name, and gives what the function that reads a string gives for its content. A file that cannot be read or is not YAML is an error with nothing else; in a file of rules so is a repeated key.", "quantifier": "for all names, all files and all documents, accepted or not", "why_tests_cant": "The tests name files with slashes only and read documents that are correct or wrong in one way.", "anchors": ["MAPL_engine/rules_load.go:YamlReadRulesFromFile", "MAPL_engine/rules_load.go:YamlReadRulesFromFileWithPredefinedStrings", "MAPL_engine/messages_load.go:YamlReadMessagesFromFile", "MAPL_engine/predefined_lists_load.go:YamlReadStringListsFromFile"]}
