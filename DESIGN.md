# Formal model of the MAPL policy engine

The subject is `/repo/MAPL_engine` (Go). The model and its theorems are Lean 4, in
`/verif/lean/Verif`. `properties.jsonl` lists the properties, `MANIFEST.json` maps them to
theorems, `seeded/LOG.jsonl` records the wrong programs the theorems were tried against.

## Layout

| directory | content |
|---|---|
| `Verif/Model/` | the code, function by function; every definition cites file and lines |
| `Verif/Spec/` | small specifications that do not mention the model's helpers |
| `Verif/Lemmas/` | helper lemmas |
| `Verif/Props/` | the property theorems, each with a non-vacuity `example` |

## Modelling conventions

* **Strings** are lists of characters (`Str := List Char`). A Go string is a byte sequence; the
  model covers the ones that are valid UTF-8. Indices and lengths are only used by the code
  between ASCII characters, where byte and character positions differ by a monotone shift.
  `strings.ToLower`/`ToUpper` are modelled on ASCII letters, string order (sorting) by code points,
  which is the order of the UTF-8 bytes.
* **Failure.** A Go function is a Lean function into `Go α := Except Fail α`. `Fail.err` is a
  returned `error`, `Fail.panic` a run-time panic (nil dereference, failed type assertion, index
  out of range). nil pointers are `none`; a nil `Node` is the constructor `Node.nil`.
* **Mutation.** A function that writes through a pointer returns the new value. Evaluation of
  ANY/ALL overwrites two fields of the message, so `eval` threads the message and returns it.
* **Maps** are association lists. Every `range` over a map whose order can be observed asks an
  oracle (`Env.ord`) for the order; the oracle is indexed by the dynamic position of the range
  statement, so that two executions of the same statement may use different orders. Only
  "is a permutation" (`Env.OrdOk`) is ever assumed about it. `Run env E` (Spec/Check) says that `E` is
  another execution with the same external functions; "possible outcome" means outcome of some run.
* **Floats** are `F64`: NaN, ±Inf or an exact rational (every finite float64 is one).
  Comparisons are exact; results of multiplications and divisions are rounded by an uninterpreted function.
* **External code** is the structure `Ext` of uninterpreted functions: Go regular expressions,
  `yalp/jsonpath`, `bhmj/jsonslice`, `tidwall/pretty`, `json.Marshal`/`Unmarshal` of documents, `strconv.ParseFloat`,
  number formatting, md5. `Env` adds the map order. Theorems quantify over every `Env`. Where a property
  needs to know what an external function does, the assumption is a named hypothesis:
  * `RegexpOk` (Spec/Regex): on a fragment of Go's syntax (characters, escapes, `.`, `*`, groups, `|`, `^`, `$`)
    with its own reader and relational semantics, `regexp` agrees with that semantics. Used by C10, C11, C12, C30, C73, C74, part of C29.
  * `NumbersOk` (Spec/Documents): `ParseFloat` reads whatever `ParseInt` reads, and no number begins with `#`, `$`, `r`. Used by C32, C33.
  * `RoundOk` (Spec/Messages): rounding to float64 is exact on whole numbers up to 2^53 and has a relative error of at most 2^-53. Used by C56, C62.
  * `Server` (Spec/Mongo): a MongoDB server is any interpretation of the test of one field, of the elements of a list field and of `$addFields`;
    `$and`, `$or`, `$nor`, `$elemMatch` have their documented meaning. Used by C51.
  The JSON decoder and the JSON encoder of strings and string maps are modelled as code (Model/JsonText), because copying rules depends on them.
* **Histories** (Model/State): the state is the global table and the rules of the caller; an operation is a call of an exported function (setting tables, `Check`, `rule.Check`, `rule.TestConditions`, `rule.ToMongoQuery`).
  Theorems about histories quantify over every list of operations and relate it to a state machine that only remembers tables (Spec/State).
* **Concurrency** (Model/Concurrent): a check is a program whose steps read or write the message; goroutines are interleaved step by step
  on a heap of messages. One condition reads all it looks at in one step, so the model has fewer interleavings than Go; the violations it
  shows are therefore interleavings of Go as well, while the positive theorem `C59_partial` only concerns checks that read fields that
  nobody writes, for which the granularity does not matter. `C59_alone` proves that a program run alone is the sequential model.
* `Verif/Demo.lean` has a concrete environment and concrete rules, for the `example`s and the witnesses of violations only.

## Trusted base

* Lean 4.33.0's kernel. No axioms of our own, no `sorry`, no `native_decide`/`bv_decide`. Axioms
  used by theorems: at most `propext`, `Classical.choice`, `Quot.sound`. Of the theorems in `MANIFEST.json`,
  `C56_type`, `C63_partial`, `C63_violated`, `C65_violated`, `C67_violated_text`, `C72_violated_text`, `C79_together_unique`, `C79_unknown`, `C79_violated`, `C99_one_tree`, `C109_error` use `propext` only;
  `C17_elements`, `C17_elements_of_scope`, `C35_values_unique`, `C49_complete`, `C58_partial`, `C58_violated_inner`, `C58_violated_original`, `C58_violated_string`, `C65_print`, `C65_returns`, `C72_text_partial`, `C79_every`, `C79_unique`, `C79_unreadable`, `C81_every`, `C83_every`, `C90_passed`, `C101_violated_lists`, `C109_length`, `C109_partial`, `C109_violated_long`, `C109_violated_parts`
  use `propext` and `Quot.sound`; `C107_tables` uses `Quot.sound` only; `C79_repeated_unique`, `C109_violated_size` use none; all others use all three (`#print axioms`).
* The reading of the Go code that the comments in `Verif/Model` document.
* The semantics of Go assumed in that reading (value copies in `range` loops of Go 1.18,
  `encoding/json` tags, map semantics) and of the libraries recorded below.

Modelled (`MAPL_engine`): `check.go` (all but logging and the parallel branch of `Check`, which is dead code), `conditions_tree.go` (nodes, evaluation, preparation, parsing, JSON encoding, text forms), `definitions_rule.go`, `definitions_message.go`,
`rules_load.go` (preparation, tables, regular expressions, text forms, hashes), `predefined_lists_load.go` (validation), `validate_conditions.go`,
`string_utils.go`, `mongo_plugin.go`, `rule_mongo_plugin.go`, `coverage.go`, `messages_load.go` (derived fields), `isIpCIDR`, `GetRuleStrings`
and `Print` (the printed fields) of `tools.go`. `Verif/Model/Decode.lean` models how `yaml.v2` decodes a
parsed YAML document into rules, condition trees and tables, and the four readers of rules and the reader of tables on top of it; `Verif/Model/DecodeMessage.lean`
does the same for messages (`YamlReadMessagesFromString`), without the raw documents. `Verif/Model/JsonRule.lean` models how `encoding/json` reads and writes rules.
`Verif/Model/Fields.lean` models `YamlReadMessageAttributes` with `compareJsonAndYaml`; the text of the document and its tree are both arguments, as the parser of YAML is not modelled.

Not modelled: the operating system (what a file name opens and what one read delivers are arguments in `Model/Files`), the parser of YAML texts (documents are trees of scalars, sequences and mappings, with text keys except in `Model/Keys`; aliases and merge keys resolved),
mappings with sequences or mappings as keys, BSON decoding to generic values, raw documents inside YAML messages (keys `json_raw…` and `interface_raw…`), logging, the bytes of BSON documents, `extras` (another package, not used by the engine).

Library facts taken from outside /repo (their sources are not in the sandbox):
`deepcopy.Copy` is JSON marshal followed by unmarshal; `slice.ContainsString` is membership;
`net.ParseIP`, `net.ParseCIDR`, `IPNet.Contains` as in Go 1.18's `net` package. `go.mod` says Go 1.18, in which `regexp.Regexp` has no text
encoding: a compiled expression in a copied rule is an empty `Regexp`, whose use is a nil dereference (C60 depends on this; with Go 1.21 or
later the copy would keep the expressions).

`gopkg.in/yaml.v2` v2.4.0 (C77 to C79): keys are compared with the tags exactly; the tag `-,omitempty` is the name `-` and does not hide the field; unknown keys are ignored;
a scalar that is decoded into a string gives its text as written; null gives the zero value; type errors are collected, the decoding goes on, and they are returned at the end; an
error of `UnmarshalYAML` ends it and a panic goes through; of repeated keys the last counts with `Unmarshal`, while `UnmarshalStrict` refuses them.
C81 in addition: a float that is decoded into an `int64` loses its fraction (up to 2^63; beyond the range below, the result is left open, parameter `wild`); `null`, `~` and the empty
scalar leave a pointer nil while `Null` and `NULL` give a pointer to zero; a text cannot be decoded into a `[]byte`.

`encoding/json` of Go 1.18 (C83, C84): a key sets the field with this name, else the first one whose name differs in letter case only (ASCII letters, the Kelvin sign and the long s);
the tag `-,omitempty` is the name `-`; null leaves a text, a flag or a struct as it is and empties a map, a list or a pointer; a value of the wrong type is remembered as an error, the
decoding goes on, and the error is returned at the end; an error of `UnmarshalJSON` ends it; `omitempty` does not drop structs; repeated keys are decoded one after the other into the same
field, and the elements of a list over the elements that are there. Not modelled: the limit of 10000 on the nesting; a number out of the range of float64 makes the whole text no document,
while Go skips it under a key that it does not know.

The MongoDB driver go.mongodb.org/mongo-driver 1.11.4 (C85): texts, lists, maps and nulls are written and read without loss; keys with the character NUL are refused; a nil map is null; documents are
read into maps; `omitempty` does not drop structs; the model compares keys as they are spelled. Trees are read from the JSON text of the document, in which `encoding/json` sorts the keys.

Aliasing: documents are values in `Model/Eval`. `Model/Memory` models them as slices of arrays, and C89 says when the two agree: ANY and ALL with
one parent path. With several paths `append(arrayData, ',')` in `getArrayOfJsons` writes into the document of the caller; what other properties (C02, C03, C06, C07, C08, C17, C18, C20, C74, C75 and
what is built on them: C58, C87, C95, C97, C107, C108, C110) say about text documents then holds of the values, not of the code. `Props/MemoryRules` and `Props/MemoryFrame` prove these claims in memory for parsed documents, for one parent path and for copies (`C02_memory_partial`, ...), and show
that each is false otherwise (`C02_violated_memory`, ...). The result of `jsonslice.Get` is a part of its input or a new array, by the parameter `place`
(the library returns "a simple subslice of the source" for simple paths; its source is not in the sandbox). The maps of predefined strings and lists are shared with the caller,
who can change them after the call: `Model/State` passes tables as values, `Model/Shared` has the maps in a heap, and C90 says when the two agree (caveat to C37, C39).

## Per property: model, proof, result

"Violated" means that the code does not have the property: the negation is proved with a concrete witness, and a `_partial` theorem
keeps the part that holds. `MANIFEST.json` has the theorem names.

**Aggregation, C01–C06** (Model/Check `aggregate`, `check`; Props/Decision). The loop as it is: results, running maximum, index, description,
applied list. Loop invariant by induction; maximum, permutation and insertion laws against list-level specifications. Proved.

**Independence and purity, C07, C08** (Props/Decision, Tree). Evaluation returns the message it was given (induction on trees, every exit path); then
the i-th result is the result of the rule alone, in some run. Proved.

**Rule matching, C09, C14, C15, C16, C23** (Props/Match). `RuleObj.check` branch by branch; the specification is a conjunction of match predicates. Proved,
for prepared rules, for rules as parsed, and down to the written texts.

**Patterns, C10–C12** (Props/Names). The textual conversion, a reader of regular expressions and their semantics; the specification is glob
matching. The theorem goes through the produced pattern text. Proved under `RegexpOk` for patterns without other special characters.

**Subnets, C13** (Model/Net, Props/Match). `net` functions for IPv4; specification: equality of the upper n bits as numbers. Proved. The parser of IPv6 addresses is modelled too, see C92.

**Trees, C17–C22, C24** (Model/Eval, Spec/Tree, Props/Tree). `eval` with short-circuits, mutation, panics and map order; `Holds` is the logical reading.
C17, C18, C20, C21 proved. C19 violated: when the path query on a JSON text fails, ANY and ALL are both false. C22 violated by AND, which
returns the extra data of children although it is false. C24 violated: `$KEY`/`$VALUE` of an object with several entries; proved otherwise.
Props/Runs has C24 for rules as they are written (`NoEntries`), prepared or not, and for everything that `Check` reports except the extra data (`SameRun`).

**Leaves, C25–C31, C33, C34** (Model/Compare, Props/Leaf, Synonyms, Documents, Units). Comparison functions and both evaluators of paths.
Violated: C25 (NaN), C26 (fields with RE/EX, empty labels, NE on JSON values), C27 (null in a text), C28 (NEX of a missing label), C29
(in/nin in lower case, NE on paths, re with a predefined list), C31 (a number whose text contains the unit), C33 (null, `$VALUE.x`,
number against text), C34 (`$VALUE.x` ignores x on parsed documents). The parts that hold are exact characterisations. C30 proved.

**Panics, C32, C43** (Props/Crash, Validate). C43 proved. C32 violated: six accepted rules whose check panics. `Safe` (Spec/Crash) is an explicit condition on rule and
message under which `Check` returns; general theorems say when conditions crash. Props/Panics closes the gap between the two: `C32_condition_exact`, `C32_tree_exact`,
`C32_rule_exact` and `C32_check_exact` are equivalences between "panics" and `Crashes`, `CrashesAt`, `PreparedCrashes`, `RuleCrashes` (Spec/Panics). These list the causes: a size, a
time or a version compared with what is no number; a message without version; the key or value of what is no object; a number found in a text compared with a word; a value to be
returned from a document that is not there; a list selected that is none; a rule that cannot be prepared. They also say what is not evaluated: behind a part of an AND that does not
hold (`C32_guarded`), but nothing in an OR (`C32_or_guards_nothing`). The model has errors as well as panics; `C32_returns_or_panics` shows, without any hypothesis, that `Check`
never fails with an error. `Crashes` mentions `testOneCondition` in one place: a value is only asked for where the condition, without the return values, holds.

**Tables and preparation, C35–C42, C45** (Model/Load, State; Props/State, Validate, Hash). Replacement, validation, conversion and the state machine of a rule; histories of calls.
C35–C39, C42, C45 proved. C40 violated: after a failed preparation the rule is used with its old tables, or panics if it had none.
C41 violated: `ValidateRule` ignores references as sender or receiver.

**Copying, C44** (Model/Marshal, JsonText; Props/Copy). The `MarshalJSON` methods, the decoder and the parser composed; round trip by
induction on trees. Violated: control characters and empty connectives make the copy fail, a parent path with quotes is copied to another path.

**Parsing, C46–C48** (Model/Parse, Spec/Parse, Props/Parse). The specification is a grammar of documents (`Writes`, `Reads`). C46 proved. C47 violated:
NOT lists keep the last element, AND/OR above a map vanish, ANY/ALL may lack a child or lose one of two. C48 violated for ANY/ALL with two
children; proved for all other documents.

**Text forms, C49, C50** (Model/Hash, Props/Hash). C49 proved both ways (sorted lists are unique). C50 violated: the text form is not injective (punctuation inside
texts, return values), so `ConditionsEqual` identifies rules that decide differently; injective on plain trees.

**MongoDB, C51–C53, C61** (Model/Mongo, Spec/Mongo, Props/Mongo). Translation into a query syntax with a semantics on documents. C53
proved. C52 says exactly which trees are translated; violated: keys and values under a list in the middle of a path, and deep scans that do not start the path of an ANY or ALL, are translated instead of refused. C51 violated: absolute paths inside ANY, keys and values below a connective inside ANY, negative conditions on keys, an empty
base field, overlapping added fields; proved for the trees whose paths stand where the translation supports them. C61 violated:
values that refer to the receiver of a message are compared literally.

**Coverage, C54, C55** (Model/Coverage, Props/Coverage). Specification by filters over the message list. C55 proved. C54 violated when two messages have the same id.

**Messages, C56, C57, C62–C64** (Model/Messages, Props/Messages). `time.Parse` is an uninterpreted function to clock times with a zone. C56, C57, C64 proved.
C62 violated: the fields named UTC are local to the zone of the time stamp. C63 violated: a given resource type is erased.

**Splitting lists, C58** (Model/Eval, Model/Original, Props/Split, Props/SplitValues). Violated: braces inside strings, objects inside lists that are elements. Proved for lists of objects without braces in strings,
for texts built from items (`C58_partial`) and for every text that stands for a list by the grammar of JSON (`C58_values`, by induction on its derivation). `C58_original`: the splitter that was replaced, which decodes
and encodes again, gives texts of the same objects.

**Concurrency, C59** (Model/Concurrent, Props/Concurrent). See above. Violated for checks of one message; proved for separate messages, and for rules without relative paths.
Props/Together has the last for rules as they are written (`Statement.FromDocument`), with the answer given by what the rules say (C74).

**Preparation in place, C60** (Props/InPlace). Violated: the copy that `Check` makes of a rule prepared in place is unusable. Proved for rules that have been given their table before.

**Displaying, C65** (Model/Display, Props/Display). The strings that `GetRuleStrings` returns and `Print` prints. Exactly the rules with complete conditions can be
displayed (`C65_returns`). The display determines the fields if types have no colon, there is a resource type and no field reads `default`; for plain trees also the
conditions up to the order of children. Violated: a rule without conditions panics; without a resource type the resource name is not shown.

**Lists of lists in texts, C66** (Spec/Split, Props/Lists). The bracket replacements of `getArrayFromArrayOfArrays`. Proved for a non-empty list of lists of objects
in which no object contains `[[`, `]]` or `],[` and braces in strings are balanced. Violated: a list of lists inside one object makes the quantifier fail, and such brackets in a string are rewritten.

**Identity, C67** (Spec/Identity, Props/Identity). Plain rules have the same text exactly when they are the same up to letter case and the order of children; plain, lower-case, copyable
rules with the same text give the same result on every message on which both checks return (under C09's hypothesis on keys), and the same with equal hashes if MD5 does not collide on the two texts. Violated:
the text ignores the case of types, matching does not; a dash in the operation makes the text ambiguous.

**Loading with tables, C68, C71** (Model/Loading, Props/Loading). The loop over the decoded rules. C68 proved. C71 violated: `SetGlobalPredefinedStringsAndLists` validates the table,
`SetPredefinedStringsAndLists` does not, so the lists of a table built in the program are unknown to the rule. Proved for tables read from a document.

**Numbers, C69** (Props/Numbers). From parsing to evaluation. Violated: a `payloadSize` value that is printed with an exponent (Go prints 10^6 as `1e+06`) is accepted, and its check panics on
every message. Number formatting is uninterpreted, so the theorem assumes that the printed form is no integer text. Proved for numbers printed as integer texts, for values written as texts, and for JSON
values if printing and reading a number gives the number.

**Return values, C70** (Spec/Returns, Props/Returns). The specification reads the written path. Proved for paths in the whole document and for ANY. Violated: a
condition's `jsonpath:$RELATIVE.x` keeps its `$RELATIVE` (definitions_rule.go:151 overwrites line 150), so null is reported, or on texts the
check panics; return values of conditions inside ANY without a return value, ALL and NOT are dropped.

**Lower case, C72** (Model/Hash `Rule.lower`, Spec/Identity, Props/Lower). `ToLower`, related to text form, hash and matching. Violated: the operation `GET` becomes `get`, which no
longer matches the method `GET`; the text form keeps the case of the resource type. Proved: the text is kept exactly when the resource type is in lower case; decisions are kept
if capitals occur only where they are ignored; plain rules with equal texts decide the same once in lower case.

**Texts, C73** (Spec/Texts, Props/Texts). `TextMeans` and `ScalarMeans` give the English meaning of a method with a value; the theorems show that the answer is that meaning: for text
attributes and labels with values that are words without characters of patterns, or patterns, of which EQ and NEQ say that the whole text fits or does not (`C73_text`, `C73_label`), and for texts that json paths select, with any value that is no reference to the receiver
(`C73_json`; for EQ and NEQ the text is not a number, for which see C25). Violated: EQ on text attributes and labels reads its value as a pattern, so `domain EQ a.b` holds of `axb` whatever regexp library
in line with `RegexpOk` is used; EQ on json paths cuts a value like `$receiver.cluster` to `$receiver`.

**Policies, C74** (Spec/Policy, Lemmas/Policy, Props/Policy). The end-to-end theorem. `Statement` is a condition tree as written, `Says` the English meaning of one comparison (built from the
meanings of C25, C27, C28, C30 and C73), `Meaning` that of a tree (C17), with ANY and ALL over the elements of the documents in scope; `WrittenSays` adds the texts of the rule (C10 to C16, C35). None of them
mentions preparation or execution. `C74_policy`: parsed or prepared rules, any global tables; `C74_loaded`: rules given to the loader with tables, which also loads them without error;
`C74_documents`: each such statement is written by some document and every document that writes it is read as it. Assumed of the libraries (`Assumed`): regexp on the fragment of
`readPattern`, maps are iterated in some order, numbers (`NumbersOk`), the empty list is marshalled as `[]`. The example at the end is a policy of two rules with tables, decided
through the theorem, on a parsed document and on the same document held as text (there `Ranges` uses the list and object texts of C58). `C74_returns` (Props/Bare) extends it to rules with return values, see C82. Statements must say something of the message (`Defined`), but in an AND only up to the first that does not hold, so that a condition may guard the ones behind it (the example `guarded`). Not in the class: the cases in which C10, C32 and C73 show that the code departs from the English meaning.

**Frame, C75** (Spec/Frame, Lemmas/Frame, Props/Frame). `Field` names the attributes conditions can read, `RuleMentions` those that the conditions of a rule name (through references: as prepared), `SameRequest` the
agreement on what sender, receiver, operation and resource are compared with. `C75_frame`: messages that agree in this way get the same seven values or the same failure. `C75_parts` is sharper: `SameFor` asks only
for the parts that the types of sender and receiver and the protocol of a rule call for. `C75_never_read` lists fields that no
rule reads; `C75_no_conditions` is the case without conditions. The source and destination addresses are in `SameRequest` as they are read for subnets.

**Rewriting, C76** (Spec/Refactor, Lemmas/Refactor, Lemmas/Trees, Lemmas/Elements, Lemmas/TreeLaws, Props/Refactor). `Equivalent` compares the sets of decisions that executions can reach and whether one can fail, over all iteration orders; oracles for the parts
of a policy or tree are put together into one for the whole (`combine`, `graft`). `C76_meaning` says what equivalence gives an observer. Conditions are those of C44 (`Copyable`), as `Check` works on copies.
Lists of operations and of resources are split in Lemmas/Lists and Props/SplitLists (`C76_operations_partial`, `C76_resources_partial`).
Violated: `read` and `write` are words for several operations only if they are alone, so `read,write` is not `read` and `write` (`C76_violated_words`); a list that contains references is not resolved (`#a,#b`), so it cannot be split (`C76_violated_references`); AND stops at the first condition that is not met while OR evaluates all, so reordering a conjunction, De Morgan and
distribution can hide or expose a crash (`C76_violated_order`); they are proved for conditions that never fail (`NeverFails`, met by all conditions on texts: `neverFails_text`, `neverFails_path`).
The laws can be used below ANY and ALL, whose elements are judged in any order and each with its own answer (`graftOn`); ANY distributes over OR and ALL over AND if no values are returned. ANY and NOT ALL NOT differ on documents in which the path selects nothing, so there is no such law.

**Rules documents, C77** (Model/Decode, Spec/Decode, Lemmas/Decode, Props/Decode). `Yaml` is a parsed document; `RulesDoc` says key by key which rules it writes, on top of C46's `Writes`/`Reads` for condition trees;
`Denotes` is the value of a YAML node as the tree parser sees it (`Yaml.generic`). `C77_reads_partial` and `C77_rules_partial` are the two directions (they differ in the condition trees: those that lose nothing and those that are
read, as in C46), `C77_every` that all rules can be written, `C77_policy` composes with C74 from the document to the decisions. Violated: the tag `-,omitempty` of the internal flag makes `-` a key that users can write, after which
the rule never applies; a repeated key is not noticed when reading from a string.

**No crash in the readers, C78** (Lemmas/Texts, Props/Loads). `NoPanic` through decoder and parser, by induction on documents. Violated: the parser asserts that attribute, method and parent path are texts, so that `method:` with nothing
behind it panics (`C78_crash`: always).

**Tables documents, C79** (Model/Decode, Spec/Decode, Lemmas/Tables, Props/Tables). As C77, for tables; an equivalence, composed with C36. `C79_policy` is the end-to-end theorem from two documents. Violated for repeated keys, which are not
refused in files of tables either. `C79_repeated` and `C79_unreadable` (Props/Repeated, by induction on the document from its end) say what every document gives, with repeated keys too: `Together` collects the entries below a
key since the last null, `LastOf` says that of the entries with one name the last counts.

**Lists and objects, C80** (Spec/Leaf `CompoundText`, Lemmas/Leaf, Props/Compound). `SelectsText`, on which C25, C26, C29, C30, C33, C73 and C74 rest, says which text a selected value is compared as; it covers lists and
objects, so these theorems do too. `CompoundText` is the effect of the removal of quotes and brackets on JSON texts. Violated as stated there: `[3]` is not 3 although `["3"]` is, `{"a":["x"]}` equals the text `{"a":"x"}`, the text
`[]` counts as missing.

**Message documents, C81** (Model/DecodeMessage, Spec/DecodeMessage, Lemmas/DecodeMessage, Props/DecodeMessage). As C77 and C79, for messages, composed with C56, C57 and C64: `MessagesDoc` says what is written, `Completes` what
loading adds. `C81_policy` is the end-to-end theorem from three documents. Violated for fractions of sizes (dropped without an error, `C81_violated_fraction` has a rule that this evades), for the version `Null`, and for repeated keys.

**Return values, C82** (Spec/Bare, Lemmas/Bare, Props/Bare). `bare` drops the return values of a tree. `C82_partial`: if the check of a policy returns then so does the check without the return values, with the same
answer in every field; `C82_partner` shows that every loaded rule has such a partner. The proof has to cover that an ANY with return values looks at all elements while one without stops at the first.
Violated in the other direction: `C82_violated`, a relative return path with nothing in scope crashes on text documents. `C74_returns`: no crash, and the answer of the English meaning, if such paths occur only inside of ANY and ALL.

**JSON documents, C83, C84** (Model/JsonRule, Spec/JsonRule, Lemmas/JsonPrefix, JsonRule, JsonYaml, Props/JsonRule). `Same` relates a JSON document to the YAML document that says the same. `C83_same_partial`: decoding either gives
the same rules, error or crash, by induction on the document with the invariant that a field has not been set before its key; `C83_refused`: a document whose values are of wrong types is refused. With C77 this gives
`C83_reads_partial`, the rules that are written. Violated: `conditions: {}` is no condition in JSON and an error in YAML; keys in other letter case count in JSON and are ignored in YAML; a large integer is printed with an
exponent in JSON only; of repeated lists of rules, in JSON the later rules take over what they do not say from the earlier ones. `C84_copy`: what `json.Marshal` writes for a rule is read as the copy that `copyRule` models, errors included. This ties the field-wise model of copying to the texts; its proof needs that
the JSON parser reads a text the same whatever follows it (`parse_append`), as the texts of conditions are put together without looking at them. `C84_partial` is the round trip of a list of rules. Violated as C44 is.

**The JSON texts, C86** (Spec/JsonGrammar, Lemmas/JsonGrammar, Props/JsonGrammar). `JsonDoc` is the grammar of RFC 8259 as inductive relations, with the meaning of escapes and surrogates; it shares nothing with the decoder.
`jsonScan_iff`: the decoder accepts exactly these texts and gives their documents; soundness by induction on the bound, completeness by induction on the grammar. C83 and C86 are stated with `JsonDoc`. `Reduced` is the document
without members that are given again later, which is what conditions are read from.

**Rules in a database, C85** (Model/Bson, Spec/Bson, Lemmas/Shuffle, Bson, Props/Bson). A document is the value that it denotes. `StoredAs`: equal up to the order of maps. `C85_partial`: a rule with conditions that can be
copied (C44) and names without NUL is stored and read back as the same rule. The proof shows that the grammar of conditions documents (C46) is closed under sorting keys (`writes_sorted`). `C85_hash_partial`: same text and hash.
`C85_decisions_partial`: rules that are the same up to the order of maps are prepared, evaluated and aggregated alike, including failures and crashes (`Outcomes`); the values that are returned are the same maps. Violated:
a path with quotes is changed as in C44, and a name with NUL cannot be stored.

**Stored policies, C87** (Props/Stored). The end-to-end theorem C74 composed with C83 and C86 (a JSON document), C84 (written to JSON and read again) and C85 (a database). The meaning of the policy is the one of C74, the documents
are related to it by `Same` and `RulesDoc`, so that no theorem mentions how a document is decoded. Proved, for the policies of C74 with metadata that has no repeated names (and, in a database, no name with NUL).

**One message, C88** (Model/Fields, Spec/Fields, Lemmas/Fields, Props/Fields). The function compares the number of matches of `^.*[:][ ]\S+` in the document with that in the JSON text of the message after 27 replacements. `C88_partial`: for lines
whose values are plain (`OneWord`: one word, no characters or words that the comparison treats in a special way), a document is accepted exactly if all keys are known. The proof shows that the replacements work line by line
(`step_lines`), that they leave a line with a plain value as it is (`clean_line`; `infix_word` splits an occurrence of a pattern over name and value), and counts the keys on both sides. `C88_reads`: whatever is accepted is
read as it is written. `C88_version`: a version that is infinite or not a number is refused. Violated: a key that is not known is not noticed behind two blanks in another line; a size of zero, the type of the resource, labels, null and comments with a colon are refused.
For lines with any values after one blank (Props/FieldLabels: quoted, with blanks, of a wrong kind) the text of the message has at most one match for each known key (`json_atMost`), so an unknown key is refused (`C88_unknown`) and so is every document with a label `name:value` in one word (`C88_labels`); numbers are assumed to be written without a line break.

**Documents in memory, C89** (Model/Memory, Spec/Memory, Lemmas/Memory, Lemmas/MemoryRules, Props/Memory). Evaluation of trees, rules and `Check` over arrays of bytes and slices, with `append` in place when the capacity suffices. The proof is a
refinement: collecting, flattening and scanning give slices whose texts are the texts of `Model/Eval` (`collects_one`, `flatten_spec`, `scan_spec`, `elements_spec`), every step leaves the arrays that there are as they are, and induction over the tree
carries both through (`evalM_spec`, `ruleM_spec`, `checkM_spec`). `C89_partial`: rules that were read with one parent path per ANY and ALL. `C89_text`, `C89_again`: the bytes afterwards, and a second check. `C89_copies`: any number of paths, if the library
made copies; so the sharing is the only reason. `C89_parsed`: any number of paths, if the message has no text document (Lemmas/MemoryParsed: such an evaluation does not depend on where the library takes its results from). `C89_several_partial`: several paths, if the library makes copies for all but the last (Lemmas/MemoryCopied). Props/MemoryRules carries C02, C03, C06, C07, C08,
C17, C20 and C74 over to memory under `SafeDocuments`, Props/MemoryFrame C18 and C75; C01, C04 and C05 hold there without conditions (Props/MemoryResults). `C89_message`, `C89_outside`, `C89_arrays`, `C89_others`: for all rules, what a check can change is the bytes of the documents of its message and what comes behind them in their arrays, nothing else; by an invariant on all slices that an evaluation makes (Lemmas/MemoryOutside). Violated: a document that comes behind in the same array is written over (`C89_violated_behind`); a rule over `$.a,$.b` overwrites `"b":[{"x"` with `[{"x":2}]`; the next rule does not find `$.c`, and the request that was blocked is not blocked when it is checked again.

**Tables and the maps of the caller, C90** (Model/Shared, Spec/Shared, Lemmas/Shared, Props/Shared). Histories in which the caller changes their maps between calls. `Passed` says which calls with values such a history makes. `C90_partial`: same answers, if no map of strings
is changed after it was given to `SetGlobalPredefinedStringsAndLists`; a simulation (`run_together`) up to the table that a rule remembers and the lists as written, which nobody reads again (`alike_rule`, `twin_check`, `twin_step`). `C90_rules`: rules that are prepared are not
affected by anything. Violated: the map of strings of the global table is the map of the caller; after a change lists use the old string and conditions the new one.

**Keys that are not texts, C91** (Model/Keys, Spec/Keys, Lemmas/Keys, Props/Keys). The readers of rules again, for documents whose keys are what YAML resolves them to. `C91_texts`: if the keys in conditions are texts, the result is that of
`Model/Decode` on the document with its keys as texts (`interpretK_texts`, `genericK_texts`), so all properties of reading carry over. `C91_partial`: a document with another key among the names in conditions (`Misplaced`) is never accepted, by induction on
where the key stands (`interpretK_stuck`). `C91_crash`: the readers panic if it is a key of the mapping under `conditions`. The code violates the property there. How `fmt` prints a value with such keys is the parameter `printed`.

**IPv6, C92** (Model/Net, Spec/Address, Lemmas/Address, Lemmas/Covers, Props/Address). `net.parseIPv6` and `net.xtoi` of Go 1.18 as code. The specification is a grammar of addresses and subnets (`V6Text`, `AddressText`, `NetText`) with their
numbers of 128 bits; it shares nothing with the parser. `parseIPv6_iff`, `parseIPv4_iff`: the parsers accept exactly the grammar; soundness by induction on the rounds of the loop, completeness by induction on the grammar. `masked_iff`: equal after
masking means equal leading bits, by induction on the bytes; `contains_v6` adds the detour of `IPNet.Contains` through four bytes. `C92_entry`, `C92_sender`, `C92_receiver`: an entry covers an address exactly as `Covers` says; C09, C74, C79, C81, C87 are
stated with it and hold for messages with any address or none. `C92_sound`: nothing is covered that is not meant. Violated: a single address is compared as a text (`::1` does not cover `0:0:0:0:0:0:0:1`), `*` covers no IPv6 address, `::/0` no IPv4 address.
`C92_partial`: these are the only exceptions.

**Documents and paths, C93** (Spec/Place, Lemmas/Place, Props/Place). `Leads` says what a path of plain steps (`$.a.b[0]`, `$RELATIVE.a`) leads to in a document, `Claim` is a statement about a document, `Holds` what it says; neither mentions the evaluation. `PathsOk` is what is
assumed of the two path libraries, number printing and the joining of matches: for plain paths and plainly written texts (`Plainly`: any white space and any order of members, no escapes, no null, no repeated members) they find what `Leads` says. `place_ok` shows that the
assumptions can be met. The parent path of ANY and ALL is written with or without a mark (`ListPath`: `$.spec.containers`, `$.spec.containers[:]`, `$.spec.containers[*]`); with a mark it is assumed that the libraries return the elements of a list that is not empty.
There may be several paths, with commas (`Claim.any` and `Claim.all` have lists of paths). A path that leads to nothing, or with a mark to an empty list, may give nothing, an empty list or an error; but for the last path an error is excluded (`QuietAbsent`, or the list is there), see C97. `C93_check_partial`, `C93_loaded_partial`: the decision is the one that the claims have, by induction on the claim (`claim_meaning`), for the parsed document and for every such text; so `C93_same_partial`: all messages with the same document get the same
decision. Violated: `a\u0026b`, which is how the Go encoder writes `a&b`, is compared as it stands in a text; ANY and ALL range over all elements of a list if it is parsed and only over the objects if it is a text.

**Repeated preparation, C94** (Model/InPlace, Spec/InPlace, Lemmas/InPlace, Props/Again). `prepareIn` and `prepareOneRuleIn` follow `PrepareAndValidate` and `PrepareOneRuleWithPredefinedStrings` on the values of the caller, also when they fail; `rule_outcome`: with `prepareOneRule`
they agree on what is returned. `C94_success`, `C94_failure`: what `PrepareRulesWithPredefinedStrings` leaves behind. `C94_retry_partial`, `C94_check_partial`: the rule that failed still means what was read, for `SetPredefinedStringsAndLists` and `Check` with tables that only add
entries, by induction on the tree: the text to which the partly prepared tree is encoded is that of a tree whose references are replaced by what they stand for. `C94_set`: a failed `SetPredefinedStringsAndLists` has no effect on the next. Violated: preparing in place again fails if
there are conditions on the document; a value once looked up stays when the tables change; the rules before the one that failed do not apply any more.
Not followed: what a panic in the middle of a preparation leaves behind.

**More specific rules, C95** (Spec/Narrow, Props/Narrow). `Wording.Within` compares two rules as they are written: patterns filled in (`FilledIn`), lists with fewer or filled-in entries, subnets and addresses inside of subnets (`EntryWithin`, by the leading bits of the addresses),
operations of a class, and conditions that follow from each other (`Implies`: AND, OR, NOT, ANY, ALL, bounds of numbers, restrictions of texts). `C95_rule`: the more specific rule holds of fewer messages, by induction over `FilledIn` and `Implies`; `net_unique`: a text is read as a
subnet in one way. `C95_check`, `C95_redundant`: with `C74_policy`, the decision of `check` is monotone, and covered rules can be dropped. Under a NOT the direction is reversed. NEQ with a number in the document is not a premise in `Implies`: of texts that are not numbers it says that
the texts differ, and nothing about numbers follows.


**Searching documents, C96** (Spec/Find, Props/Find). C51 says that the query is the formula of the tree with the queries of its conditions; C93 says that `check` decides by the document. C96 joins them: both say what the claim says of the document (`Claim.Holds`, Spec/Place).
`claim_formula` is an induction over the claim; the case of a condition is `test_query`, where the operators of MongoDB (`mongoDB` in Spec/Mongo, an interpreter of the fragment of the query language that is generated, written after MongoDB's manual) meet the comparisons of the engine. They agree on
documents that are `Typed`; the violations show for each clause of `OneKind` what happens without it (`C96_violated_missing`, `_boolean`, `_number`, `_unit`, `_empty`, `_expression`, `_list`; the units are listed as a limitation in docs/Mongo_Plugin.md, the others are not). `NoNumberNames` excludes objects with names like `0`, because MongoDB does not distinguish `a[0]` from `a.0`.
ANY and ALL have one path here (`Findable`); for several paths see C97.
An ANY about the entries of an object gives an aggregation: `$addFields` puts the entries as a list into `addedField`, and the query asks this list. `steps_done` (Lemmas/Added) says what the document is after all steps: the data as before, and the list of entries for each path, if no path
goes through another one and `addedField` is not in the document (`Claim.Apart`, `Claim.Unused`; `C51_violated_steps`, `C96_violated_field`). The ANY has one condition, with a method that holds for a list if it holds for one element (`EntryTest`; `C51_violated_negative`, and `C96_violated_label` for a name together
with a value). `C96_missing_partial` is the case of a missing label in the terms of C98. An ALL about entries has no query, the code returns an error.

**Several paths, C97** (Props/Paths). `parentJsonpathAttribute` may be a list, `jsonpath:$.spec.containers[:],$.spec.template.spec.containers[:]` (files/rules/with_parentjsonpath_list). `C97_any_partial` and `C97_all_partial`: such an ANY says what the OR of the ANYs with one path each says,
such an ALL what the AND of the ALLs says; `C97_any_check_partial`, `C97_all_check_partial`: the two rules get the same result. Both sides go through `claim_meaning`; the work is in `paths_ranges` (Lemmas/Place): for a parsed document the lists found are put together, for a text the parts are joined with commas,
white space is removed and the result is cut into objects again. Violated where one would not look: only the error of the last path counts in `getArrayOfJsons`, so if the library reports an error there, nothing is found whatever the other paths give (`C97_violated_last`, for all trees and messages; `C97_violated_order` with a library of
this kind: the order of the paths decides); and `ToMongoQuery` takes the list for the name of one field (`C97_violated_query`), so the query finds nothing. The tests of the project show that `jsonslice` is quiet for the paths that are used there.
In memory (Props/MemoryPaths, the model of C89): `C97_any_memory_partial`, `C97_all_memory_partial`: the first ANY or ALL with two paths that looks at a text gets the elements that the values have, although it may write over the document, if the byte behind the first part
is not in the second (`NotBehind`) and the condition inside is about the current element (`AboutElement`). Lemmas/MemoryTwo: the two appends are followed byte by byte (`collect_two`), and for the loop the whole document does not matter (`eval_whole`). `C97_check_memory_partial`: so the last condition of the last rule of a policy may be of this kind (`TwoPaths`). `C97_any_apart_memory_partial`, `C97_all_apart_memory_partial`: for two paths
from the document (`TwoLists`) and a claim about the element (`Claim.OfElement`), the rule and the one with a path each get the same result, each in a check of the same bytes. `C97_violated_three`: with three paths the third is looked up in a
document that is already damaged, so an element under it is missed in the very first check; `C97_violated_nested`: two paths, where the second leads to the object that the first list ends.

**Labels, C98** (Props/Entries). Claims have `anyEntry` and `allEntries`, an ANY or ALL over the entries of an object, with conditions on `$KEY` and `$VALUE` (`key`, `value`). In scope is an object with one entry. `entries_range` (Lemmas/Place): a parsed object gives its entries; the text of an object is
read by `json.Unmarshal`, each entry is printed by `json.Marshal`, and each condition reads it again. `PathsOk` assumes of these that plainly written texts are read as what they are, and that values without objects and without `<`, `>`, `&` are printed plainly (`ShownValue`; objects are printed with their names in order,
which is another list of entries). From this C93 holds for rules with such claims, and the four common kinds of rules about labels mean what one expects: `C98_label_partial` (an entry with this name and this value), `C98_missing_partial` (no entry with this name), `C98_values_partial` (all values in a list), `C98_names_partial`
(all names match), each for the parsed document and for the text. Violated: a value with `&` in a text is compared with its escaped form (`C98_violated_escape`), and several paths to objects in a text give nothing (`C98_violated_paths`). For the queries of such rules see C96.

**Nodes in memory, C99** (Model/Nodes, Spec/Nodes, Props/Nodes). Everywhere else conditions trees are values; in Go they are interfaces with pointers, `PrepareAndValidate` and `Append` write through them. Model/Nodes has a memory of cells
(one for each `And`, `Or`, `Not`, `Any`, `All`, `Condition` made, and for simplicity one for each `True` and `False`, which are values in Go and never written) and the parser, the preparation and `Append` on it. `TreeAt h r n as` says which tree
the pointers from `r` make up. The parser on the memory does what the parser of trees does and makes only new, unshared nodes (`C99_parse`), preparing an unshared tree in place is `Node.prepare` (`C99_prepare_partial`, through `prepareIn` of C94),
and a program that makes the nodes and appends each once has the tree it wrote (`C99_construct`). So the tree model of the other sections is right for rules from YAML and JSON. `Append` is as stated exactly if the appended tree does not contain
the node (`C99_loop`). The slices `Nodes` are not modelled as arrays: each belongs to one node and no code takes a part of it. Objects are visited in an order that does not depend on the values (`OrdNatural`), which is needed because both parsers
ask for the order of their own lists. Violated for shared nodes, loops and late `Append` (`C99_violated_shared`, `C99_violated_loop`, `C99_violated_late`).


**Rules that no message can crash, C100** (Spec/Harmless, Props/Harmless). The message is quantified away from the exact theorems of C32: `Harmless` looks at attribute, method and value as written (the value after references are
replaced) and `C100_condition` says that an accepted condition without return values answers on all messages exactly if it is harmless. `C100_check`: lists of rules with harmless conditions and without ANY and ALL return for every
message. `C100_tree`: with ANY and ALL the only cause left is `SelectFails`. Note that EQ and NE are comparisons too: `jsonpath:$.kind EQ Pod` is not harmless, because a text in which `kind` is a number makes it panic.

**The rules of the manual, C101** (Spec/Manual, Props/Manual). The two policies which `docs/MAPL_SPEC_v2.md` shows most are turned into statements about all messages: `AllowsAll` is the rule `default_allow`, `BooksRule` the third
rule of the example. `C101_allow_all` needs no assumption about the message: the rule applies exactly if the two service names are without line breaks (`.*` does not match them). `C101_blacklist` puts it at any place of any list
of rules. `C101_books_partial` spells out what the rule about books says. Where the manual and the code disagree the code is taken as it is and the difference proved: the type `service`, which all examples of the manual have, is
none that the code knows (`C101_violated_service`); names are separated by commas, not by semicolons (`C101_violated_lists`); and `read` and `write` leave out CONSUME and PRODUCE (`C101_violated_read`).

**The conditions of the manual, C102** (Spec/Examples, Props/Examples). The examples 6a to 6d of `docs/MAPL_Conditions_v2.md` are written as they stand there; the right-hand sides are statements about the document (`Leads`, membership),
not about claims. The proofs go through C93 and C98. 6a and 6b, which the manual calls equivalent, are, where there are containers; without containers they differ for texts if the library reports an error for a path that leads to
nothing (`C102_violated_missing`), because ALL is then false.

**Rules for hours of the day, C103** (Spec/Hours, Props/Hours). C56 (the conversion of time stamps) and C74 (policies) are joined into one statement about rules as they are written: formulas over `utcHoursFromMidnight` with limits in
whole minutes and over `payloadSize`, evaluated on the clock of the time stamp. The point of the proof is that neither the float64 divisions nor the reading of a limit such as `9.1666…` moves a limit over a nanosecond
(`hours_order`); the only assumption about floats is `RoundOk`. The hours are those of the zone of the time stamp, not of UTC: `C103_violated_utc` for every such time stamp, `C103_violated_manual` for the rule of the manual.

**What a rule returns, C104** (Spec/Reported, Lemmas/Reported, Props/Reported). C21 and C70 say what a node returns in terms of the parts it evaluates; C104 says it in terms of the document. An `Ask` is a claim of C93, an ANY with the
values that it asks for, or an AND or OR of these; `Ask.Gives` describes the values on the document itself with `Leads` and `Gathers`. `ask_eval` is the induction over the conditions; the rest follows the proofs of C74. For AND the code
keeps the values of the last condition that returns any, so `Ask.Gives` says that, and `C104_violated_and` and `C104_violated_lost` show that this is not what the manual says. `C104_flows` is example 6e of the manual. Not
included: values asked for by single conditions (C70), ALL and NOT, which return nothing, and whole elements (`$RELATIVE*`) of documents that are texts. For a value that an element does not have there is no entry or the entry is null,
depending on the library.

**Deep scan, C105** (Spec/Deep, Lemmas/Deep, Props/Deep). `Somewhere d p v` says that some longer path which ends in the steps `p` leads to `v`; `DeepClaim` is a claim of C93, an ANY or ALL with a path like `$..spec.containers`, or AND, OR, NOT of these.
`DeepOk` is what is assumed of the two json path libraries, which are not modelled: if everything the path finds is a list of objects, a deep scan gives the list of these lists or the list of all their elements (as a value, or as a text that `ugly` makes compact); for a text it may give nothing
if there are none. The engine then flattens lists of lists: on values only if all of them are lists (`C105_violated_mixed`), on texts by replacing brackets, which fails if there is a list of lists further inside (`C105_violated_text`). `C105_covers` is the example of the manual (section 7),
`C105_paths` says when a deep scan is the same as an ANY over explicit paths. `deepEnv` in Props/Deep satisfies all assumptions.

**Messages read alone, C106** (Spec/Alone, Props/Alone). `StandsAt` says that a mapping stands at a place of the list of messages of a document; `alone_listed` uses C81 and C88 to relate both readings to the
same message as written. `YamlReadMessageAttributes` (messages_load.go:15) sets the type of the resource only; `YamlReadMessagesFromString` (messages_load.go:38) also sets addresses, clock and labels.
`C106_partial` is for rules that look at none of these (`NeedsNothing`, through `C75_parts`). `C106_subnets`: no rule for subnets applies to any message that is read alone. `C106_violated` has one message that three rules block in a list and none blocks alone.

**Growing lists, C107** (Spec/Grow, Props/Grow). `MoreWritten` says of two tables as written that lists have more entries, `Grown` of the tables as used; `C107_tables` is the step between (through C36). `Follows` is the polarity of a statement:
lists are used with IN or NIN under an even or odd number of negations. `C107_partial` and `C107_less_partial` compare the answers of `Check` through C74; single results as well as the decision. `C107_violated_empty` is why lists must not be empty to begin with.

**References written out, C108** (Spec/WriteOut, Props/WriteOut). `WritesOut` is a choice of texts for the values of conditions, each the value itself or what it stands for; `ReferencesOut` relates a rule to one with some of its references written out.
Acceptance (`Sound`), meaning and definedness of a statement are the same for both, by induction on the statement, and `decides_unique` gives equal results through C74. `C108_violated_reference`: a string that is written like a reference is not looked up a second time, so writing it out changes what it means.

**Files, C109 and C110** (Model/Files, Spec/Files, Props/Files). `ReadBinaryFile` makes one call of `Read` on a `bufio.Reader`, into a slice as long as `Stat` says. The model of that call follows Go 1.18: at most one read of the file, directly into the slice if it
has at least 4096 bytes. `RegularFile` is the usual case, with Go's limit of a gigabyte for one read; `Delivers` allows any shorter delivery. The readers of documents take the content and the parser as arguments (`Disk`); what is proved is which file they read,
and that they give what the readers of strings give. `C110_policy_partial` (Props/FilePolicy) joins this with C81: a policy and messages in files, decided by what the files say. `C110_violated_backslash`: on systems where a backslash is an ordinary character of names, the readers of rules read another file than the one that is named.
