# Formal model of coveooss/gotemplate in Lean 4

## 1. What is here

* `properties.jsonl`: the English properties (C01, C02, ...).
* `lean/Verif/Model/*.lean`: the model. Each definition cites the Go file and lines it models and every simplification.
* `lean/Verif/Spec/*.lean`: small specifications written without reference to the model's helpers.
* `lean/Verif/Lemmas/*.lean`: helper lemmas.
* `lean/Verif/Props/*.lean`: one theorem group per property, with `example`s that show the hypotheses can be met.
* `MANIFEST.json`: property -> theorem names.
* `seeded/LOG.jsonl`: deliberate bugs put in a scratch copy of the model, and the theorems that caught them.

## 2. Trusted base

* Lean 4.33.0's kernel, and the axioms `propext`, `Classical.choice`, `Quot.sound`. Nothing else: no `sorry`,
  no own axioms, no `native_decide`, no `bv_decide`. `AXIOMS.md` (made by `tools/sync.py --axioms`) lists the axioms of every property theorem.
* The reading of the Go code. The code is never run; the tie is the citation next to each definition.
* Modelling conventions (section 3).

## 3. Modelling conventions

* **Text** is `List Char` where Go code works on whole strings through byte-transparent functions (Split, Replace,
  Index, HasPrefix: UTF-8 is self-synchronising, so these agree on code points and on bytes for valid UTF-8). Functions
  that index single bytes (`GetWordAtPosition`) are modelled on lists of bytes.
* **Order on strings**: Go compares bytes; on valid UTF-8 this is the order on code points used here.
* **Integers**: Go `int`/`int64` is `Int` where no overflow can occur for in-memory sizes, `BitVec 64` where the property
  is about the 64-bit representation.
* **Floating point** is not modelled, except (a) float values as opaque scalars identified by their printed form, (b) exact
  rounding of integers to 53 bits (C32), (c) decimal numbers for the ranges (C33, C34).
* **Errors** are values (`Except`/`Option`); a Go panic that is trapped into an error is an error; a panic that is not
  trapped is a separate outcome.
* **Maps** are association lists; the order of the list stands for the (arbitrary) iteration order, and statements about
  results range over every permutation.
* **Aliasing** is modelled with an explicit heap (C07, C12, C13, C50) and ignored (pure values) elsewhere; the comment of
  each definition says which.
* **External functions** (regexp, text/template, yaml/json/hcl parsers, the operating system) are parameters of the model;
  what is assumed about them is stated as an explicit hypothesis of each theorem.

## 4. Plan per property

| id | model | proof idea |
|----|-------|-----------|
| C01 | `Unique` as the fold of the Go loop over `Value` lists, equality through `Sprint` | induction on the list; sublist, no-duplicate and idempotence lemmas |
| C02 | `Union`, `Intersect`, `Without` | membership lemmas from C01 |
| C03 | `Remove`, `GetIndexes`, `Pop` | index filter compared with a specification by positions |
| C04 | `Reverse` as index writes into a nil-filled list | equality with `List.reverse` |
| C05 | `SetIndex` (enlarging loop) | get/set laws, induction over a list of writes |
| C06 | `Clone` through `NewList` | exact characterisation: equal unless the list is a single list; negation by witness |
| C07 | heap of arrays, slices = (array, length, capacity), Go `append` | invariant on ownership; negation by witness with spare capacity |
| C08 | `Contains`, `Find` | iff lemmas |
| C09 | dictionary as association list with `set`/`erase` | refinement to `Key -> Option Value` for every operation list |
| C10 | `KeysAsString` = sort of the key list | sortedness, permutation invariance |
| C11 | `deepMerge` as fold over the source map | path lookup specification, permutation invariance, associativity |
| C12 | `deepMerge` on a heap of dictionaries | negation by witness; partial: any number of sources whose overlaps the target covers, by an invariant over the whole merge; sources without nested dictionaries |
| C13 | dictionary `Clone` on the heap | freshness of all dictionary cells reached; negation for dictionaries inside lists |
| C14 | `Omit`, `Clone(keys)` | lookup characterisation |
| C15 | `pluck`, `pickv` as written | negation by witness; exact description of what they return |
| C16 | `Transpose`, `Add` | relation of mentions by induction |
| C17 | `delete` loop | induction on the key list |
| C18, C19 | `Protect` scanner and `RestoreProtected` as a left-to-right token replacement | induction on the text; independent grammar of literals |
| C20 | `WrapString` line loop | word concatenation invariant, width bound; negation of the exact bound |
| C21 | `CenterString` | arithmetic |
| C22 | `Indent`, `UnIndent` | split/join lemmas |
| C23 | `IndexAll` | greedy occurrences |
| C24 | byte-level scan | maximal run; negation for multi-byte words |
| C25 | `GetContextAtPosition` with Go slices that can panic | no-panic and prefix/suffix lemmas |
| C26 | `SplitLines`, `JoinLines`, `Split2` | round trips |
| C27-C29 | `sliceList`, `selectElement`, `safeIndex`, `sliceMap` | integer arithmetic, comparison with `take`/`drop` |
| C30, C31 | text of hexadecimal numbers; `BitVec 64` | digit round trip; bit lemmas |
| C32 | rounding of integers to 53 bits | exact below 2^53; negation by witness |
| C33, C34 | range loop with fuel over exact decimals | progression closed form; negation of termination |
| C35 | expression trees -> token lists (`nodeValue`) and a parser of template pipelines | parse (print e) = e by induction |
| C36 | `indexExpression` on text | per-form equations, then composed with C27 |
| C37 | `assignExpressionInternal` | decision table against an independent specification; negation for custom delimiters |
| C38 | generation of the rules from the table | negation by witness; partial: rules that do not use the affected metaclasses |
| C39 | cache keyed by printed delimiters | negation by witness (blank in a delimiter); partial: delimiters without blanks |
| C40 | protect/restore with the shared buffer | round trip for every initial buffer |
| C41 | step machine of goroutines | negation by witness schedule; partial: atomic protect steps |
| C42-C45 | content pipeline with the engine, razor and regex as parameters | case analysis, replacement lemmas |
| C46, C47 | file decision logic over an abstract file system | decision table, induction over the batch |
| C48 | delimiter specification parser | case analysis |
| C49 | `setConstant` loop | induction; negation (early return) |
| C50 | include with context on a heap | restore by case analysis on outcomes; negation for arguments |
| C51 | function table registration | permutation invariance when aliases do not collide; negation otherwise |
| C52 | walker over a link graph with fuel | depth bound; negation of termination |
| C53 | context construction | fold of updates, last definition wins |
| C54 | `extend`, `exclude` | list lemmas |
| C55 | `InitReplacers`, `Substitute` | parsing cases, fold |
| C56 | converter list sorted by name | permutation invariance, first success |
| C57 | `flatten` | no entry lost; negation if the code loses data |
| C58 | identifier test | character-level characterisation; negation for `[ \ ] ^` and backquote |
| C59 | `MarshalGo`, `transformElement` | structural induction |
| C60 | `toBash` | structural induction |
| C61 | kinds and zero values | case analysis |
| C62 | `TryConvert` on trees of native/collection nodes | structural induction |
| C63 | retry loop over abstract errors | termination measure |
| C64 | `RemoveEmpty`, `RemoveNil` | induction over the list, comparison with `List.filter` |
| C65 | `createDict` | induction over the arguments |
| C66 | `generateNumericArray` on decimals | error analysis of rounding: every value stays within 1/8 of a grid step |
| C67 | `divide`, `modulo` | rational arithmetic on rounded numbers |
| C68 | `compareNumerics` | induction over the list |
| C69 | contexts before and after a rendering | frame lemma over the content pipeline; negation for retries |
| C70 | binding of the arguments of functions defined by templates, on values and on the heap | lookup lemmas for merges; frame lemma for merges of dictionaries that are apart |
| C71 | loop over the configuration of such functions, for any visiting order | invariant of the loop |
| C72 | writer of HCL (three forms, any indentation) | own tokenizer and reader of HCL as specification; induction over the data: every written part is tokens that read back to the data |
| C73 | flow of the command with the parser, the file system and the processing as parameters | case analysis over all ways a run can end |
| C74 | same model | the list of names as a function of the parsed flags, with C54 for the exclusions |
| C75 | table as an association list in any order, filters, sections and columns | sorted lists with the same elements are equal; exchange of the two loops of the layout |
| C76 | functions over values with the arguments as they are after the call | case analysis over the dictionary of C12, lookup after an update |
| C77 | same model | reduction to C08 (lists) and C23 (texts) |
| C78 | the two substitutions, characters one by one and runs | induction over the text |
| C79 | the functions on lists; the two substitutions as searches of the marks from left to right | induction over the values, a mark cannot begin in one piece and end in another |
| C80 | the expression piece by piece with greedy repetitions that give back | the longest choices succeed for a script; any success gives a script |
| C81 | the choice of the command over an environment (commands that exist, files that match) | reading again the temporary file gives the same program (C80) |
| C82 | templates with addresses of maps in a heap, operations on any template | invariant: options and children are never shared, functions and aliases always are |
| C83 | disks of folders and files, paths followed name by name, the folder computed lexically | places that a walk goes through are folders, so that writing a file does not change it |
| C84 | values with an abstract arithmetic, arguments converted as in the code | case analysis on which arguments are read as numbers |
| C85 | the groups of the expression are given; protect, match of parentheses and restore as in the code | induction on the structure of the arguments: the protected text has closed parentheses and restores to the arguments |
| C86 | `Lookup` models the search with the table of templates (`associate` of text/template), `LookupSpec` says what a source designates; fold over the definitions for the table, induction over the sources for stability |
| C87 | `Ellipsis` models the construction of the code and the conversions, on top of `ConvertData`; `SpreadSpec` describes the call; induction over the arguments |
| C88 | `Regex` models the syntax and the search of regular expressions, `RazorEngine` the loop over the rules, `RegexSpec` what an expression matches; the search is proved sound and complete, the expressions are analysed by the kernel (characters avoided, factors needed), lines are kept by induction over the replacements |
| C89 | the rules before `@@` need something that the text has not (an automaton shows that an address needs a single @), the others need an @ or another sign; the mark is put and removed by literal rules |
| C90 | the search of the rule is proved to stop at the end of the word of every address; induction over the words of the text |
| C91 | an automaton of 31 states reads the text, with any number of global and local variables and their signs; the kernel computes that every match of the 129 rules before the one of variables leads it to a state that the text cannot reach; the greedy searches of the rules of global and of local variables are computed, the two rules between them cannot match; the later rules need a sign that the result has not |
| C92 | The expressions are parsed and run by the model of regular expressions (with the ends of words); each pass is shown equal to the hiding of the delimiters before a name, passes compose when the names are apart, and the rules give back a text whose delimiters are all hidden |
| C93 | Model `run` and `exec` on a disk with the failures of each step and an arbitrary command; follow the temporary file through all the paths; use C80 and C81 for the command. |
| C94 | Model the table of templates of each folder with `associate` of text/template; invariant over the list of files; an iteration is any permutation of the tables and of their entries. |
| C95 | The program is an oracle over the history of executions; induction over the folders for any order. |
| C96 | the parsers are parameters (for HCL the reader of C72); the enumeration of a mapping is a permutation | fuel monotonicity of the reader, tokens without the surrounding blanks, composition with C72; lookup after a fold of updates |
| C97 | Model `compareNumerics` and `compareStrings` over the values and the abstract numbers of C84 | the loops choose the first element of an order, then case analysis on how the arguments are read as numbers; independence from the order by uniqueness of the first element. |
| C98 | the JSON writer of the standard library with both layouts, `%q` | induction on values against an own JSON reader |
| C99 | the functions on the rational model of floating point numbers | bounds of the integer part, monotone rounding |
| C100 | the functions of templates over Indent | lines of joined texts |
| C101 | isZero over the function default of sprig | cases on values |
| C102 | process with the conversion to a byte | reading of printed integers |
| C103 | AddLineNumber with the logarithm as a parameter | lines of joined texts, number of digits |
| C104 | PrintTemplates over a list of templates | sorting, longest name, paths that are relative |
| C105 | FuncInfo with the printed types | induction on parameters |
| C106 | options as functions to booleans, tables of functions as relations | case analysis, invariants of the iteration over maps |
| C107 | registration of a library under documented names, with the orders as permutations | invariant of the iteration for one name; kernel evaluation on the documentation of the code |
| C108 | the 165 rules in their order, on the model of regular expressions of C88 | automata that show that 40 + 86 + 33 rules cannot match; exact matches of the two rules by induction on the text; the texts between the rules as a relation |
| C109 | the tables of the eight addons with the names of the Go functions, and the calls of AddFunctions | all names and aliases are different (evaluated by the kernel), then the invariant of C51 for each call and induction over the calls |
| C110 | the protection of literals, the three loops of replacements in any order, the leading dots, the completion of slices and the return of the marks | each replacement works separately on both sides of a quote, of an operator or of a space; texts as characters and marks, with a uniqueness argument for the reserved words |
| C111 | Go's scanner and expression parser, the tree walk of razor_expr.go on texts with marks, the composition of all passes | grammar of texts by levels; induction over it: what the passes do on both sides of each operator, one list of tokens, the parser against the grammar by levels, the walk on texts with marks against the walk on trees of C35 |
| C112 | `applyRazor` with the functions of the two rules of expressions between parentheses (`expressionParserInternal` without index nor selection) | an automaton shows that the 140 rules before do nothing; the rules of names and expressions by what they match: the first rule of expressions takes a line up to its last parenthesis and leaves it when it is not an expression, the second one stops at a delimiter; no sign of the rules after is in the codes (induction over the expressions); the marks of the calls are removed at the end |
| C113 | `applyRazor` with the functions of the rules of commands, assignments and expressions | an automaton shows that the rules before those of commands do nothing, except the one that makes `@range(` of `@for (` and `@foreach (`; the rules of commands, else, end and assignments by what they match, with what the next ones see of their codes; then C112 on what remains |
| C114 | `applyRazor` with arbitrary functions of the rules | an expression that matches no end of line and whose anchors are those of lines finds in a text what it finds in its lines; all rules but three are such, and these three (addresses, two kinds of comments) are treated apart, with the parts of the text that the rules before them keep |
| C115 | `indexedParser` (the index and the selection of a match) in `applyRazor` | the rules before that of indices are idle on the text by an automaton, the match takes all up to the closing bracket, the call is that of C36 with the codes of C35, and the rules that follow find none of their signs in it |
| C116 | `expressionParser` for the rule of calls in `applyRazor` | the rules before that of calls are idle on the text: by an automaton, by the words that begin commands, or by the signs they need; the match takes all up to the last parenthesis of the line, its code is that of C35, and the rules that follow find none of their signs in it |
| C117 | the functions of all the rules together in `applyRazor` | C114 cuts the template in its parts, and the theorem of its kind tells what each part becomes |
| C118 | the rules of the commands of a single line in `applyRazor` | an automaton shows that no rule before applies, the expression is the longest and the action the shortest, and no rule after applies |
| C119 | the rules of the commands with braces in `applyRazor` | the rules of the semicolon do not apply, the expression is the longest and the action the shortest, and no rule after applies |

## 5. Results

The status of each property and what its theorems cover are in `MANIFEST.json` (field `note`). Names of theorems:

* `Cnn_name`: a part of the property, proved in full generality for the model;
* `Cnn_name_partial`: proved under a hypothesis the English property does not have; the comment says what is missing;
* `Cnn_not_name`: the code violates the property; a concrete witness is evaluated by the kernel, or the failure is proved for a class of inputs.

A property is `proved` when its theorems have no missing case, `partial` otherwise. A `partial` property is partial because the code violates the full statement (the
negation is then proved), except for the cases named in its note.

## 6. Where the code disagrees with the properties

These were found while modelling, by reading the code; none of them was checked by running it.

| id | what happens | theorem |
|----|--------------|---------|
| C06 | `Clone` of a list whose only element is a list gives that element | `C06_clone_singleton` |
| C07 | two `Append` on a list with spare capacity share their storage | in `Props/Append` |
| C11 | `Merge` is not associative | in `Props/Dicts` |
| C12, C13 | `Merge` modifies nested dictionaries of its first source; `Clone` shares what is in lists | in `Props/Sharing` |
| C15 | `pluck` always gives an empty list; `pickv` loses the keys | in `Props/Dicts` |
| C16 | `Transpose` loses keys with nil values | in `Props/Dicts` |
| C20 | `WrapString` lines are one byte longer than the width | in `Props/Strings` |
| C24 | words with characters whose UTF-8 form has separator bytes are cut | in `Props/Strings` |
| C26 | `Split2` panics for two empty texts | in `Props/Strings` |
| C27 | `slice` with both bounds before the start, or huge bounds | `C27_not_before_start`, `C27_not_huge`, `C27_not_after_text` |
| C32 | integer arithmetic through 64-bit floating numbers | `C32_not_add`, `C32_not_mul`, `C32_not_sub` |
| C33 | steps of a million or more give results which are not integers | `C33_not_large_step` |
| C34 | ranges that never end | `C34_not_always_ends`, `C34_not_negative`, `C34_not_small_step`, `C34_not_end` |
| C35 | razor literals with `$` or `*`, calls of calls, variables named `slice` | `C35_not_...` |
| C36 | colons in quotes inside an index | `C36_not_quoted_colon` |
| C37 | assignments test for a literal `@` whatever the delimiter; names with dashes | `C37_not_...` |
| C38 | rules with a literal `@` or `}}` for custom delimiters | `C38_not_...` |
| C39 | two sets of delimiters with blanks share a cache entry | `C39_not_blanks` |
| C40, C41 | raw strings: triple backquotes, marker texts, unsynchronised shared buffer | `C40_not_...`, `C41_not_...` |
| C42-C45 | substitutions and script lines change plain text; placeholder texts in the source; extensions that are a part of `.gt,.gte,.template`; errors and pauses after a retry | `C42_not_...` to `C45_not_...` |
| C46, C47 | an existing `.original` is overwritten; interruption while overwriting; printing a `.tf` file panics; the option to print stays on | `C46_not_...`, `C47_not_...` |
| C49 | constants are not all defined when the context has one with the same value | `C49_not_defined` |
| C50 | the argument dictionary of `include` is modified and can become cyclic | `C50_not_...` |
| C51 | functions of the user are replaced by predefined ones; a shared alias depends on the iteration order | `C51_not_...` |
| C52 | a link to its own folder is followed for ever; files found twice; order-dependent depth | `C52_not_...` |
| C53 | unnamed values are lost | `C53_not_unnamed`, `C53_not_missing` |
| C55 | separators that are not ASCII; blanks at the end of replacements; `\$` with `d` | `C55_not_...` |
| C56 | the simplified form breaks URLs and quoted values | `C56_not_...` |
| C58 | `[A-za-z]` accepts six characters that are not letters | `C58_not_identifier` |
| C59 | nil pointers in structures panic; null becomes an empty dictionary; numbers from 2^63 | `C59_not_...` |
| C60 | empty and nil elements, newlines and special characters in bash variables | `C60_not_...` |
| C61, C62 | structures are never zero; printing changes from `map` to `dict`; pointers | `C61_not_zero`, `C62_not_...` |
| C63, C69 | endless retries; retries change the context | `C63_not_...`, `C69_not_kept` |
| C70 | a call modifies nested default values; a text given alone is converted to data, a nil given alone is lost | `C70_not_...` |
| C71 | two names of a setting make the result depend on the order of the map; the configuration is modified; blank arguments panic | `C71_not_...` |
| C72 | null under a key, lists of maps with labels, empty blocks under two keys give text that is no HCL; the internal marker in a text removes its key; texts that end with an end of line lose blanks and backslashes | `C72_not_...` |
| C73 | arguments that cannot be read give status zero; errors of terraform fmt are ignored; an invalid exclusion does not stop the processing | `C73_not_...` |
| C74 | values of options that begin with `@` keep an internal mark; overwriting by default in another folder has no effect | `C74_not_...` |
| C75 | a filter with a blank matches over the boundary of two names | `C75_not_within` |
| C76 | nil given as key before the dictionary is taken for the dictionary; `set` on nil has no effect and no error; `content` loses entries | `C76_not_...` |
| C77 | a text is searched only when exactly one element is given, and with the arguments inverted | `C77_not_...` |
| C78 | the result is not always an identifier (digit first, empty); a long replacement can stay doubled; `$0` keeps the characters | `C78_not_...` |
| C79 | `formatList` of a list of one list is wrong; `raw` of one value has no effect; an empty raw value, or one with spaces and a quote at its end, joins with the next value | `C79_not_...` |
| C80 | a first line with two arguments (`#! /usr/bin/env python -u`) is not recognised; the program can be taken from the second line | `C80_not_...` |
| C81 | arguments of a text run by the shell are neither separate nor protected; a file with an unknown word has no effect and no error | `C81_not_...` |
| C82 | a local alias is visible in other folders; aliases are not visible in the next file of the same folder; functions of an option that is turned off remain | `C82_not_...` |
| C83 | nil and the empty list are saved as nothing; save makes one missing folder only; exists is an error below a file | `C83_not_...` |
| C84 | a list of one number gives a number, an empty list nil; the third list is lost; mul 3 "ab" is an error | `C84_not_...` |
| C85 | a percent sign on the line is a part of the format | `C85_not_percent` |
| C86 | the second attempt translates by razor the code already translated; the name inline designates the last code used; a file that contains its own name is 'not found' | `C86_not_again`, `C86_not_stable`, `C86_not_include` |
| C87 | the text 1 becomes a number; the text null is a panic; a text that is the name of a file (or contains code) is executed once more | `C87_not_type`, `C87_not_null`, `C87_not_text` |
| C88 | a line that ends a comment is changed although it has no @ | `C88_not_comment` |
| C89 | _=!AT!=@@ gives another text; a text that turns razor off keeps its doubled delimiters | `C89_not_mark`, `C89_not_off` |
| C90 | #joe@example.com and root@localhost are translated | `C90_not_mail` |
| C91 | @endpoint gives {{ end }}point, @elsewhere gives {{ else }}where, @_name prints name, the dot that ends a sentence is taken in the name, global or local, @_$name prints the global variable _ | `C91_not_name` |
| C92 | @foo@bar with bar ignored before foo; @@foo with foo ignored; foo|bar; café; the delimiters $ and ( | `C92_not_order`, `C92_not_doubled`, `C92_not_alternatives`, `C92_not_unicode`, `C92_not_delimiter` |
| C93 | The temporary file is left when writing it fails: its name is only returned after the writing. `run` on a file whose content is one unknown word gives nil without error. | C93_not_removed, C93_not_reported |
| C94 | Files of two folders define the same name: the definition that remains is chosen by the iteration over the map of the children. | C94_not_deterministic |
| C95 | When the second execution in a folder fails, `errors.Must` panics: the folders that follow are not formatted. | C95_not_all |
| C96 | `1` followed by a line `b = 2` is loaded as 1; a tab in a YAML text is loaded as four spaces; {1: a, "1": b} is loaded with either value | `C96_not_hcl_rest`, `C96_not_yaml_tabs`, `C96_not_yaml_keys` |
| C97 | `min` of a list of texts gives the text of the whole list; `min 10 9 "a"` is 10; `max (list 4 5) 7` is the text `[4 5]`; `min` of an empty list or of nil is an error | `C97_not_list`, `C97_not_numeric`, `C97_not_nested`, `C97_error` |
| C98 | quoted JSON with a delete character is not JSON; nil and integers above 2^53 are not read again as they were | `C98_not_quoted_json`, `C98_not_null`, `C98_not_large` |
| C99 | floor of a number just below an integer may give that integer; floor, ceil, trunc and abs of 2^63 and more give -2^63 | `C99_not_digits`, `C99_not_large` |
| C102 | char of a number above 255 gives another character | `C102_not_large` |
| C103 | the default width is one too small for 1000 lines, since math.Log10(1000) is 2.9999999999999996 | `C103_not_aligned` |
| C105 | Arguments and Result of an alias ignore the description of the function, which a function defined in a template always has | `C105_not_alias_arguments` |
| C106 | main.go:103-112 looks for the word --base in the arguments: GOTEMPLATE_BASE is ignored for the addons, and a file named --base counts as the flag | `C106_not_variable`, `C106_not_word` |
| C107 | `without` is an alias of both `all` and `withoutSprig`: which function these names designate depends on the order of the iteration over a map | `C107_not_all` |
| C108 | razor.go: the expression of `end` takes the blanks and any of if, range, define, block, with, for after it, even when these letters begin another word | `C108_not_kept` |
| C109 | extra_math.go: names of arguments are declared under names that no function has (nextafter, signbit, copysign, erf...) | `C109_not_arguments` |
| C110 | razor_repl_expr.go: `a and not b` is given to Go as `a&&not b` or `a and!b`, with the order of a map, and is an error in both cases; variables named like the other keywords of Go cannot be used in expressions; a name that contains `__REPL_7__` becomes another name | `C110_not_neighbours`, `C110_not_order`, `C110_not_keyword`, `C110_not_marks` |
| C111 | razor_repl_expr.go:84-86: the spaces around a word operator are removed with the word, so `a lt -1` is given to Go as `a<-1` and is an error, `a sub -1` as `a--1`, and `a band ^b` as `a&^b`, which is another operator | `C111_not_signs` |
| C112 | razor.go:70 and 133: the class of an expression is every character up to the last parenthesis of the line; `@(a + b) (c)` becomes `{{ a + b) (c }}`, which is not a template | `C112_not_alone` |
| C113 | razor.go:101: `else[sp]if` allows no blank between the words; `@elseif ($x)` becomes `{{ elseif $x }}`, which is not an action of templates | `C113_not_elseif` |
| C113 | razor.go:106: the names of assignments may contain `+`, `-`, `*`, `%`; `@x+=1` assigns the variable `x+` | `C113_not_operator` |
| C113 | razor.go:102-103: the rules of `end` and `else` do not look at what follows; `@endpoint := 5` becomes `{{ end }}point := 5` | `C113_not_end` |
| C113 | razor_repl_assign.go:18-: a value that is a call of a method of the context stays without parentheses; `@x := .m(5)` becomes `set $ "x" .m 5`, with four arguments | `C113_not_method` |
| C114 | razor.go:79, razor_repl_literal.go:28-37: an address after `#` at the beginning of the text is no address, but it is one at the beginning of any other line | `C114_not_address` |
| C115 | razor.go:115: the index runs to the last closing bracket of the line, and what is between may not be an expression | `C115_not_bracket` |
| C116 | razor.go:113: a call runs to the last closing parenthesis of the line, and the words of the text that are between are put in the code | `C116_not_alone`, `C116_not_valid` |
| C118 | razor.go:99: the expression of a command of a single line runs to the last closing parenthesis of the line, even if it is in the action, and the code is then not valid; a semicolon in the action ends it | `C118_not_alone`, `C118_not_semicolon` |

## 7. What is modelled and what is not

| Go file | model | left out |
|---------|-------|----------|
| collections/implementation/list_helper.go, generic.go | `ListOps`, `SliceHeap`, `HeapOps` | `Join`, `TypeName`, printing of lists of the formats |
| collections/implementation/dict_helper.go | `DictOps`, `HeapOps` | printing by the formats (JSON, YAML, HCL text) |
| collections/implementation/base_helper.go | `GoVal`, `Value` | types of elements of native maps beyond `NodeTy` |
| collections/string.go, string_util.go | `Strings`, `Protect` | conversions that only call the library |
| collections/convert_data.go | `ConvertData`, `Marshal`, `Bash` | `GoMarshaler` (not implemented by any type) |
| collections/utils.go | `GoVal` | |
| json, yaml, hcl, xml | `Marshal`, `Hcl`, `HclOut`, `Quote`, `Load` | the parsers and printers of the libraries; C72 uses an own reader for HCL (values, blocks, labels; no comments, no texts in several lines, no interpolation) |
| utils/io.go, substitute.go | `FindFiles`, `Args` | `doublestar`, `regexp`, errors of the file system |
| main.go, utilities.go, context.go | `Main`, `Args`, `CmdContext` | types of collections chosen from the data, kingpin, logging, help |
| template/math_*.go | `Math`, `Arith`, `MinMax`, `Numbers`, `Float64` | trigonometry and other functions of `math` |
| template/slice.go | `Slice` | |
| template/razor*.go | `RazorRules`, `RazorExpr`, `RazorIndex`, `RazorAssign`, `RazorLiteral`, `AutoWrap`, `Regex`, `RazorEngine`, `RazorPrepare`, `RazorTranslate`, `RazorInsert`, `RazorIgnore` | of `go/parser`, what `RazorTranslate` rejects (characters between simple quotes, comments, line ends, keywords, composite literals, types, conversions, slices with three bounds); regular expressions are modelled for the rules only; traces and the debug mode |
| template/template_handler.go, template_error_handler.go, template_process.go | `Content`, `Files`, `Batch`, `Path` | text/template (a parameter), logging |
| template/template.go | `Batch`, `Contexts`, `Extensions` | logging, the list of directories of libraries |
| template/func_table.go, add_funcs.go, func_category.go, template_help.go | `FuncTable`, `FuncHelp` | the help texts, colours and widths |
| template/extra_runtime.go | `Include`, `Lookup`, `UserFunc`, `Ellipsis` | running external commands, attributes and methods of objects |
| template/extra_data.go | `DictOps`, `ListOps`, `Slice`, `DataFuncs`, `Ellipsis` | conversions to formats |
| template/extra_utils.go, utils/list.go | `Ident`, `ListFuncs` | `lorem`, `diff`, `color` |
| utils/exec.go | `Script`, `Files`, `Run` | `getDefaultShell`, the process itself (its outcome is a parameter) |
| utils/terraform.go | `Terraform` | the formatter itself (its outcome is a parameter) |
| template/extra_os.go | `OsFuncs`, `Script` | links, refusals of permissions, users, `diff`, `lastMod` |
| template/extra_net.go, extra_git.go, extra_logging.go, lorem.go | | environment, processes, network |
