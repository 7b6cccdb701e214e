{"id": "C01", "title": "Unique keeps exactly one element per textual value", "statement": "For every list l, l.Unique() has no two elements with the same printed form, every element of l has an element with the same printed form in the result, the result is a subsequence of l that keeps the first occurrence of each printed form, and Unique is idempotent.", "quantifier": "every list of arbitrary values (nested lists and dictionaries included)", "why_tests_cant": "Needs to hold for every length, duplicate pattern and element type; tests use a handful of lists.", "anchors": ["collections/implementation/list_helper.go:ListHelper.Unique", "collections/implementation/list_helper.go:ListHelper.Contains", "collections/implementation/list_helper.go:ListHelper.Add", "template/extra_data.go:unique"]}
{"id": "C02", "title": "Set algebra of lists: Union, Intersect, Without", "statement": "For every list l and every list of values vs: an element is (textually) in Union iff it is in l or vs, in Intersect iff in both, and Without keeps exactly the elements of l (with multiplicity and order) whose text is not that of any v; Union and Intersect contain no textual duplicates.", "quantifier": "every receiver list and every list of arguments", "why_tests_cant": "Membership equivalences range over all pairs of lists.", "anchors": ["collections/implementation/list_helper.go:ListHelper.Intersect", "collections/implementation/list_helper.go:ListHelper.Without", "collections/implementation/generic.go:baseList.Union", "template/extra_data.go:intersect/union/without"]}
{"id": "C03", "title": "Remove and Pop take out exactly the addressed positions", "statement": "For every list and every list of indexes (negative ones counted from the end, out of range ones ignored, repeats allowed) Remove keeps exactly the elements at the other positions in their original order; Pop returns the value(s) Get returns for the same indexes together with that remaining list, and with no index it splits off the last element.", "quantifier": "every list, every sequence of integer indexes", "why_tests_cant": "Index arithmetic must be right for every length, sign and repetition.", "anchors": ["collections/implementation/list_helper.go:ListHelper.Remove", "collections/implementation/list_helper.go:ListHelper.GetIndexes", "collections/implementation/generic.go:baseList.Pop"]}
{"id": "C04", "title": "Reverse is an order-reversing involution", "statement": "For every list l, l.Reverse() has the same length, its i-th element is l's (len-1-i)-th element, l.Reverse().Reverse() equals l, and l itself is not modified.", "quantifier": "every list and every position", "why_tests_cant": "Loop writes by index into a pre-sized list; boundary errors only show for particular lengths.", "anchors": ["collections/implementation/list_helper.go:ListHelper.Reverse", "template/extra_data.go:reverse"]}
{"id": "C05", "title": "Set on a list: read-your-write, frame and enlargement", "statement": "For every list l, index i and value v: if i is negative Set fails and returns no list; otherwise the returned list has length max(len l, i+1), holds v at i, agrees with l at every other position below len l, and holds nil at every newly created position.", "quantifier": "every list, index and value; and every sequence of Set operations", "why_tests_cant": "Universally quantified over lengths, indexes and histories of writes.", "anchors": ["collections/implementation/list_helper.go:ListHelper.SetIndex", "collections/implementation/list_helper.go:ListHelper.Add"]}
{"id": "C06", "title": "Clone of a list is equal to the list", "statement": "For every list l, l.Clone() holds the same elements in the same order as l.", "quantifier": "every list, including lists that contain a single list", "why_tests_cant": "The unit tests clone only flat lists; the exceptional shape (one element that is itself a list) must be characterised exactly.", "anchors": ["collections/implementation/list_helper.go:ListHelper.Clone", "collections/implementation/base_helper.go:BaseHelper.NewList"]}
{"id": "C07", "title": "A derived list never changes an older one (Append persistence)", "statement": "Appending to a list returns a list with the new elements at the end and leaves the contents observed through every previously obtained list value unchanged, in particular two lists derived from the same list by Append are independent.", "quantifier": "every heap of lists, every capacity, and every history of Append/Prepend calls", "why_tests_cant": "The failure depends on spare capacity in a shared backing array, i.e. on the history of the value.", "anchors": ["collections/implementation/list_helper.go:ListHelper.Add", "collections/implementation/base_helper.go:BaseHelper.CreateList", "collections/implementation/generic.go:baseList.Append"]}
{"id": "C08", "title": "Contains and Find agree with textual equality", "statement": "For every non-empty list, Contains(vs) holds iff every v in vs has the printed form of some element; Find(v) is exactly the strictly increasing list of positions whose element prints as v; the strict variants do the same with Go equality (and can only be stricter); on an empty list Contains is always false.", "quantifier": "every list and every list of values", "why_tests_cant": "Equivalence over all inputs, including the empty cases on both sides.", "anchors": ["collections/implementation/list_helper.go:ListHelper.Contains", "collections/implementation/list_helper.go:ListHelper.Find", "template/extra_data.go:contains/find"]}
{"id": "C09", "title": "A dictionary behaves as a finite map under every history of operations", "statement": "After any sequence of Set, Delete, Flush, Pop and Default calls on a dictionary, Get(k) returns the value most recently set for the text of k unless it was removed since, Has/Default/Len/keys agree with that map, and each operation returns what the abstract map operation returns.", "quantifier": "every sequence of operations, all keys and values", "why_tests_cant": "Histories are unbounded.", "anchors": ["collections/implementation/dict_helper.go:DictHelper.Set/Get/Has/Delete/Flush/Pop/Default"]}
{"id": "C10", "title": "Key and value enumeration is sorted, complete and history independent", "statement": "KeysAsString/GetKeys lists every key exactly once in increasing order, GetValues lists the values in the order of those keys, and both, like the printed form of the dictionary, depend only on the contents and not on insertion order or Go's map iteration order.", "quantifier": "every dictionary content and every iteration order of the underlying map", "why_tests_cant": "Go randomises map iteration; a test observes one order per run.", "anchors": ["collections/implementation/dict_helper.go:DictHelper.KeysAsString/GetKeys/GetValues", "collections/implementation/dict_helper.go:baseDict.String"]}
{"id": "C11", "title": "Merge: first definition wins, recursively", "statement": "For target.Merge(s1..sn): at every level the earliest of target, s1..sn that defines a key decides; if that definition is a dictionary, the later dictionaries found at the same key are merged into it recursively and later values of another kind are ignored, otherwise that value is kept as it is. The result is independent of the map iteration order, merging a dictionary into itself changes nothing, and Merge is associative.", "quantifier": "every nesting depth, every number of sources, every iteration order", "why_tests_cant": "Recursion over arbitrary depth and randomised iteration order.", "anchors": ["collections/implementation/dict_helper.go:DictHelper.Merge/deepMerge", "template/extra_data.go:merge"]}
{"id": "C12", "title": "Merge does not modify its sources", "statement": "After target.Merge(A, B, ...) the dictionaries A, B, ... hold what they held before the call.", "quantifier": "every heap of (shared, nested) dictionaries and every list of sources", "why_tests_cant": "Depends on sharing between nested dictionaries, not on values alone.", "anchors": ["collections/implementation/dict_helper.go:DictHelper.deepMerge", "utils/reflect.go:MergeDictionaries"]}
{"id": "C13", "title": "Clone isolates a dictionary from later mutations", "statement": "After c := d.Clone(), no operation through c (at any nested level) changes what is observed through d, and conversely.", "quantifier": "every heap, every nesting of dictionaries and lists, every later history of writes through the clone", "why_tests_cant": "Aliasing of nested structures only shows after particular histories of writes.", "anchors": ["collections/implementation/dict_helper.go:DictHelper.Clone", "collections/implementation/list_helper.go:ListHelper.Clone", "template/template_handler.go:processContentInternal (context clone)"]}
{"id": "C14", "title": "Omit and Clone(keys) partition a dictionary", "statement": "For every dictionary and key list, Omit(keys) has exactly the entries whose key is not listed and Clone(keys) (pick) exactly one entry for each listed key (the value, or nil if absent); the original dictionary is unchanged.", "quantifier": "every dictionary and every key list (repeated, missing and non-string keys included)", "why_tests_cant": "Set identities over all key lists.", "anchors": ["collections/implementation/dict_helper.go:DictHelper.Omit/Clone/Flush", "template/extra_data.go:omit/pick"]}
{"id": "C15", "title": "pick, pickv and pluck return the selected entries", "statement": "pluck key d1..dn returns, in order, the values of the dictionaries that have the key; pickv returns the dictionary restricted to the requested keys, and an error if the dictionary has other keys than the requested ones.", "quantifier": "every list of dictionaries and keys", "why_tests_cant": "Functional specification over all inputs.", "anchors": ["template/extra_data.go:pluck", "template/extra_data.go:pickv"]}
{"id": "C16", "title": "Transpose inverts the key/value relation", "statement": "For every dictionary d, in d.Transpose() the entry for text t mentions exactly the keys k of d whose value prints as t or is a list containing an element printing as t, in key order, as the single key if there is one mention and as the list of mentions otherwise.", "quantifier": "every dictionary with scalar and list values", "why_tests_cant": "Relation-level equivalence over all dictionaries.", "anchors": ["collections/implementation/dict_helper.go:DictHelper.Transpose/Add"]}
{"id": "C17", "title": "Delete of missing keys is reported", "statement": "Delete(keys) succeeds iff each key is present when its turn comes (so a key listed twice fails) and then removes exactly those keys; when it fails, the error names the first missing key, exactly the keys before it are gone and all others are intact.", "quantifier": "every dictionary and key sequence", "why_tests_cant": "Error-path state must be right for every prefix.", "anchors": ["collections/implementation/dict_helper.go:DictHelper.Delete/delete"]}
{"id": "C18", "title": "Protect/RestoreProtected is a round trip", "statement": "For every text s that does not contain the internal marker, restoring the protected form of s gives s back; the protected form is the text outside the literals, verbatim, with one token for each literal.", "quantifier": "every text: any mix of quotes, backticks, escapes, unterminated literals", "why_tests_cant": "Quote/escape automaton over unbounded text.", "anchors": ["collections/string.go:String.Protect", "collections/string.go:String.RestoreProtected"]}
{"id": "C19", "title": "Protect isolates exactly the complete string literals", "statement": "The literals extracted by Protect are exactly the maximal left-to-right sequence of backtick strings and double-quoted strings whose closing quote is preceded by an even number of backslashes; everything outside them is kept verbatim; an unterminated literal stops the extraction and the rest is kept verbatim.", "quantifier": "every text", "why_tests_cant": "Backslash runs and nesting of both quote kinds are unbounded.", "anchors": ["collections/string.go:String.Protect"]}
{"id": "C20", "title": "WrapString keeps the words and respects the width", "statement": "For every text and width the sequence of words is unchanged by WrapString and every produced line that holds several words is at most width long.", "quantifier": "every text and every width", "why_tests_cant": "The width bound must hold for every combination of word lengths.", "anchors": ["collections/string_util.go:WrapString", "template/extra_utils.go:wrap"]}
{"id": "C21", "title": "CenterString pads to the requested width", "statement": "For every text of at most width characters the result has exactly width characters, contains the text unchanged, and left/right padding differ by at most one (extra on the right); a longer text is returned unchanged.", "quantifier": "every text and every width (negative widths included)", "why_tests_cant": "Arithmetic for all widths and lengths.", "anchors": ["collections/string_util.go:CenterString", "template/extra_utils.go:center"]}
{"id": "C22", "title": "Indent and UnIndent", "statement": "Indent prefixes every line and changes nothing else; UnIndent removes one common white-space prefix from all non-blank lines or returns the text unchanged, never alters the text after the prefix, and undoes Indent for texts of more than one line whose first non-blank line starts with a non-space.", "quantifier": "every text and indentation string", "why_tests_cant": "Unbounded number of lines with arbitrary blank lines and prefixes.", "anchors": ["collections/string_util.go:Indent/UnIndent/IndentN"]}
{"id": "C23", "title": "IndexAll lists all non-overlapping occurrences", "statement": "IndexAll returns increasing positions, each an occurrence of the substring, no two overlapping, and no occurrence lies completely between two of them (greedy leftmost); replacing those occurrences is the same as strings.ReplaceAll; the empty substring gives none.", "quantifier": "every text and every substring", "why_tests_cant": "Positions relative to re-sliced strings; errors appear only on particular periodic texts.", "anchors": ["collections/string.go:String.IndexAll"]}
{"id": "C24", "title": "GetWordAtPosition returns the maximal word around a position", "statement": "For every text and position, the result is the maximal run of non-separator characters containing the position (empty on a separator, position -1 out of range) and the returned position is its start.", "quantifier": "every text (ASCII and not), every position, every accept list", "why_tests_cant": "Boundaries at both ends, multi-byte characters.", "anchors": ["collections/string.go:String.GetWordAtPosition"]}
{"id": "C25", "title": "GetContextAtPosition returns a delimited context", "statement": "Whenever a context is returned it is a substring of the text at the reported position, starts with the left and ends with the right delimiter, the reported position is not after the requested one, and no input makes the function fail.", "quantifier": "every text, position and pair of delimiters (empty, equal and multi-character ones included)", "why_tests_cant": "Slice expressions with computed bounds: a panic or wrong bound shows only on particular nestings.", "anchors": ["collections/string.go:String.GetContextAtPosition"]}
{"id": "C26", "title": "Line splitting and joining are inverse", "statement": "JoinLines(SplitLines(s)) gives s without its final newline, SplitLines(JoinLines(ls)) gives ls for newline-free lines whose last one is not empty, and Split2(s, sep) recomposes s around the first separator; no input makes them fail.", "quantifier": "every text, every list of lines", "why_tests_cant": "Round trips over unbounded texts.", "anchors": ["collections/string_util.go:SplitLines/JoinLines/Split2"]}
{"id": "C27", "title": "slice on lists", "statement": "For every list and integers a, b: slice a b returns the elements from the smaller to the larger bound (negative bounds counted from one past the end, bounds clamped to the list), in reverse order when b designates a position before a; rest and initial together with first and last recompose the list.", "quantifier": "every list and every pair of integers", "why_tests_cant": "Clamp and sign arithmetic over all integers.", "anchors": ["template/slice.go:sliceList/sliceInternal", "template/extra_data.go:rest/initial"]}
{"id": "C28", "title": "slice and extract never return a wrong element: errors instead", "statement": "Selecting one index (negative from the end) returns that element or an error if it does not exist; extract returns the list of the selected elements in the requested order or an error; safeIndex returns the default exactly when the index is out of range.", "quantifier": "every list or string and every index list", "why_tests_cant": "Out-of-range combinations of signs and lengths.", "anchors": ["template/slice.go:selectElement/safeIndex/sliceInternal"]}
{"id": "C29", "title": "slice on dictionaries selects a key range", "statement": "For every dictionary and two keys, slice returns the values of exactly the keys between the two (inclusive) in key order, or in reverse key order when the first key is greater.", "quantifier": "every dictionary and pair of keys", "why_tests_cant": "All key orders.", "anchors": ["template/slice.go:sliceMap"]}
{"id": "C30", "title": "hex and dec are inverse on 64-bit integers", "statement": "dec (hex n) = n for every 64-bit signed integer n, hex is injective, and dec rejects any text that is not a hexadecimal number in the 64-bit range.", "quantifier": "every 64-bit signed integer; every text", "why_tests_cant": "2^64 inputs.", "anchors": ["template/math_bits.go:hex/decimal"]}
{"id": "C31", "title": "Bitwise functions implement 64-bit two's complement", "statement": "bor, band, bxor and bclear on two or more arguments compute, bit by bit, the or/and/xor/and-not of the 64-bit representations, independently of argument order (bclear: of the order of the cleared masks); lshift and rshift by n are multiplication and floor division by 2^n (modulo 2^64 for lshift), and a negative shift count is an error.", "quantifier": "every list of 64-bit integers, every shift count", "why_tests_cant": "2^64 values per argument and unbounded argument lists.", "anchors": ["template/math_bits.go", "template/math_utilities.go:process"]}
{"id": "C32", "title": "Integer arithmetic of templates is exact", "statement": "add, sub and mul of integers return the exact integer result.", "quantifier": "every list of 64-bit integers whose exact result fits in 64 bits", "why_tests_cant": "Rounding appears only for values above 2^53.", "anchors": ["template/math_base.go:add/subtract/multiply", "template/math_utilities.go:simplify/toFloat"]}
{"id": "C33", "title": "Numeric ranges: to and until", "statement": "to and until with integer arguments return exactly the arithmetic progression from start toward stop with the given step (its absolute value), in the right direction, including stop for `to` only when it is hit and never for `until`; a zero step is an error.", "quantifier": "every start, stop and step", "why_tests_cant": "Direction/boundary combinations over all integers.", "anchors": ["template/math_utilities.go:generateNumericArray"]}
{"id": "C34", "title": "Generating a numeric range always terminates", "statement": "For every numeric start, stop and non-zero step the functions to/until return after finitely many iterations.", "quantifier": "every triple of numbers, fractional steps included", "why_tests_cant": "Non-termination for particular fractional steps cannot be found by a finite set of tests.", "anchors": ["template/math_utilities.go:generateNumericArray"]}
{"id": "C35", "title": "Razor expressions are translated without changing their structure", "statement": "The template pipeline produced for a Go-like razor expression denotes the same operation tree as the source expression: parsing the produced template text as a template pipeline gives back every operator, operand, call and argument in the same nesting.", "quantifier": "every expression tree of operators, calls, selectors, indexes, slices and literals", "why_tests_cant": "Expression trees are unbounded.", "anchors": ["template/razor_expr.go:nodeValue/nodeValueInternal/operators"]}
{"id": "C36", "title": "Partial slices of razor index expressions are completed", "statement": "In an index expression an omitted lower bound means from the start, an omitted upper bound means to the end, [] means everything and [-n:] (a negative literal) runs backwards from the n-th element from the end to the first one, for every operand and at every level of nesting; complete index expressions are unchanged; an index with : becomes a slice between its two bounds and an index without : an extraction of the listed elements.", "quantifier": "every index expression text", "why_tests_cant": "Chain of textual replacements that may interfere.", "anchors": ["template/razor_repl_expr.go:indexExpression", "template/slice.go:sliceList"]}
{"id": "C37", "title": "Razor assignments target the intended variable", "statement": "@x := e and @$.x and @.x assign a (global/context) entry, @$x and @{x} assign a template-local variable unless the name is dotted in which case the sub-object is set, compound operators assign the operation applied to the current value of the same variable, and only = in validated mode adds the existence check; this holds whatever the delimiters.", "quantifier": "every identifier, operator, expression text, delimiter set and validation mode", "why_tests_cant": "Decision table crossed with all identifiers and delimiters.", "anchors": ["template/razor_repl_assign.go:assignExpressionInternal"]}
{"id": "C38", "title": "Changing the delimiters does not change the language", "statement": "A template written with custom delimiters has, after renaming the delimiters, the same razor translation as with the default ones.", "quantifier": "every razor delimiter and every rule of the translation table", "why_tests_cant": "Rules are generated by text substitution; each delimiter gives a different program.", "anchors": ["template/razor.go:ensureInit/customMetaclass/expressions", "template/razor_repl_assign.go", "template/razor_repl_autowrap.go"]}
{"id": "C39", "title": "The razor rule cache never serves the rules of another delimiter set", "statement": "Each template is translated with the rules generated for its own delimiters, whatever other templates were processed before in the process.", "quantifier": "every history of templates with arbitrary delimiter triples", "why_tests_cant": "Collisions depend on the history of previously used delimiters.", "anchors": ["template/razor.go:ensureInit/applyRazor"]}
{"id": "C40", "title": "Multi-line raw strings survive the razor translation", "statement": "Every multi-line backtick string of a template is found unchanged in the razor output, whatever was processed before.", "quantifier": "every template text, every earlier history of templates", "why_tests_cant": "Shared, growing buffer across templates.", "anchors": ["template/razor_repl_literal.go:protectMultiLineStrings", "template/razor.go:applyRazor"]}
{"id": "C41", "title": "Concurrent rendering does not mix multi-line strings", "statement": "When several goroutines translate razor templates at the same time, each obtains its own multi-line strings.", "quantifier": "every interleaving of any number of goroutines", "why_tests_cant": "Data race on a package-level buffer: only some schedules fail.", "anchors": ["template/razor_repl_literal.go:longStrings"]}
{"id": "C42", "title": "Text without template code is returned untouched", "statement": "A content without left delimiter and without razor delimiter is returned byte for byte, reported as unchanged, and no file is written in the same folder.", "quantifier": "every content, option set and substitution-free template", "why_tests_cant": "Quantifies over all texts.", "anchors": ["template/template_handler.go:processContentInternal", "template/template.go:IsCode/IsRazor"]}
{"id": "C43", "title": "Pausing protects the paused lines", "statement": "Lines between a pause and a resume marker are emitted exactly as written (neither go template nor razor code in them is interpreted) and lines outside are processed normally; a razor-only pause leaves go template code active.", "quantifier": "every content, position of markers and delimiter set", "why_tests_cant": "Line state machine with replacement and reversal of delimiters over unbounded contents.", "anchors": ["template/template_handler.go:processContentInternal (pausing)"]}
{"id": "C44", "title": "A failing non-strict template leaves the content unaltered, a strict one fails", "statement": "If rendering reports an error, the caller gets the original content with no error and changed=false unless strict mode is on, the source contains the explicit marker, or the file has a gotemplate extension, in which cases the error is returned.", "quantifier": "every content, file name and option set", "why_tests_cant": "Decision logic over all file names.", "anchors": ["template/template_handler.go:processContentInternal (deferred handler)"]}
{"id": "C45", "title": "Missing values are detected, and only generated ones", "statement": "Unless AcceptNoValue is set, a result with a generated <no value> or <nil> is reported as an error, and occurrences already written in the source are restored and do not cause an error.", "quantifier": "every source text and rendered text", "why_tests_cant": "Overlapping textual replacements.", "anchors": ["template/template_handler.go:processContentInternal (no value)"]}
{"id": "C46", "title": "Output files: naming, overwrite and no clobbering", "statement": "The result of a template file is written to the name without its template extension (with .generated inserted unless overwriting), a changed plain file is first renamed to .original unless overwriting, an unchanged file in the same folder is never written, and the template is removed only when overwriting in the same folder.", "quantifier": "every file name, option set, folder relation and rendering result", "why_tests_cant": "Decision table over options and all names.", "anchors": ["template/template_handler.go:processTemplate"]}
{"id": "C47", "title": "Processing several files: independence and completeness", "statement": "Every template of a batch is processed even if others fail, the error aggregates exactly the failures, the result lists exactly the written files in order, and a file that turns on stdout output does not affect the next files or later batches.", "quantifier": "every list of templates and every per-file outcome", "why_tests_cant": "Histories over batches of files.", "anchors": ["template/template_handler.go:ProcessTemplatesWithHandler"]}
{"id": "C48", "title": "Delimiters are parsed and kept", "statement": "A delimiter specification of up to three comma separated parts replaces the corresponding default delimiters, empty parts keep the default, more than three parts are refused.", "quantifier": "every specification text", "why_tests_cant": "All texts.", "anchors": ["template/template.go:NewTemplate"]}
{"id": "C49", "title": "Contexts: constants never override user data", "statement": "setConstant defines a name only where the user did not define another value, and every listed name ends up defined.", "quantifier": "every context and list of names", "why_tests_cant": "All contexts and name lists.", "anchors": ["template/template.go:setConstant"]}
{"id": "C50", "title": "Including a template restores and does not modify the caller's context", "statement": "After include/run of a sub-template, successful or not, the caller's context is the one it had before, and argument dictionaries are not modified.", "quantifier": "every context, argument list and sub-template outcome", "why_tests_cant": "Error paths and aliasing of dictionaries.", "anchors": ["template/extra_runtime.go:runTemplate/optimizedRunTemplate"]}
{"id": "C51", "title": "Function table: every alias resolves to its function", "statement": "After registration every function and each of its aliases resolves to the same implementation and documentation, and the table does not depend on the iteration order of the registration maps.", "quantifier": "every set of functions with aliases and every iteration order", "why_tests_cant": "Go map iteration order is random while the map is being extended.", "anchors": ["template/func_table.go:addFunctions"]}
{"id": "C52", "title": "File search respects depth and terminates", "statement": "Finding files visits every matching file at most max depth below the start and none deeper, visits no file twice, and terminates even when symbolic links are followed and form cycles.", "quantifier": "every directory tree / link graph, depth and pattern list", "why_tests_cant": "Arbitrary link graphs.", "anchors": ["utils/io.go:FindFilesMaxDepth"]}
{"id": "C53", "title": "Later context sources override earlier ones", "statement": "The context built from the command line has, for every key, the value of the last source (files imported if they exist, imported files, then variables, in order) that defines it; a required file that is missing is an error, and no given value is lost.", "quantifier": "every list of files and variables", "why_tests_cant": "Unbounded lists of sources.", "anchors": ["context.go:createContext"]}
{"id": "C54", "title": "Pattern and exclusion lists", "statement": "extend splits comma separated patterns, trims them and drops empties; exclude removes exactly the files that match an exclusion and keeps the order of the others.", "quantifier": "every list of patterns and files", "why_tests_cant": "All lists.", "anchors": ["utilities.go:extend/exclude"]}
{"id": "C55", "title": "Substitutions are parsed and applied in order", "statement": "A substitution made of a separator character, an expression, the separator and a replacement is accepted iff the expression is not empty and the separator occurs nowhere else, and the replacement d removes the matches; substitutions are applied left to right, each on the result of the previous one, and an empty list leaves the content unchanged.", "quantifier": "every list of substitution specifications and contents", "why_tests_cant": "Unbounded lists and texts.", "anchors": ["utils/substitute.go:InitReplacers/Substitute"]}
{"id": "C56", "title": "Data conversion tries the formats in a fixed order", "statement": "Loading data succeeds iff some registered format accepts it as something else than a plain text that looks like data, or the simplified form (name = value name = value) does; the result is that of the first accepting format in alphabetical order of the names whatever the registration order, and the simplified form gives every name its value.", "quantifier": "every set of converters and every data", "why_tests_cant": "Map of converters with random iteration order.", "anchors": ["collections/convert_data.go:ConvertData"]}
{"id": "C57", "title": "HCL flattening keeps all the data", "statement": "After HCL decoding, at every depth a list holding a single map is replaced by that map; every other list keeps its elements in order, every map keeps its keys, scalars are unchanged, and doing it again changes nothing.", "quantifier": "every decoded HCL tree", "why_tests_cant": "Arbitrary nesting.", "anchors": ["hcl/utilities.go:flatten/transformElement"]}
{"id": "C58", "title": "HCL identifiers are quoted when necessary", "statement": "A key is written bare in HCL output iff it is a valid HCL identifier, otherwise it is written quoted.", "quantifier": "every key text", "why_tests_cant": "All texts.", "anchors": ["hcl/utilities.go:id/identifierRegex"]}
{"id": "C59", "title": "Conversion to native Go values is total, structure preserving and idempotent", "statement": "Converting any value to native types yields only native lists, maps and scalars with the same shape and the same content, structures become maps of their exported fields, and converting again changes nothing; integral floating numbers decoded from JSON become integers and other data decoded from JSON or YAML keep their content.", "quantifier": "every value tree", "why_tests_cant": "Recursion over arbitrary trees.", "anchors": ["collections/convert_data.go:MarshalGo", "json/json.go:transformElement", "yaml/yaml.go:transformElement"]}
{"id": "C60", "title": "Bash rendering quotes what needs quoting", "statement": "ToBash renders every scalar containing a blank, bracket or parenthesis as one quoted word that bash reads back as the scalar, renders every element of a list and every key of a dictionary exactly once in order so that bash reads back the elements and entries, and declares arrays and associative arrays with the right type.", "quantifier": "every value tree", "why_tests_cant": "Arbitrary trees and texts.", "anchors": ["collections/convert_data.go:toBash/quote"]}
{"id": "C61", "title": "Conditional helpers: IIf, Default, IfUndef", "statement": "IIf returns its second argument exactly when the tested value is not the zero value of its kind, Default returns the value unless it is zero, IfUndef returns the default only for no value or nil.", "quantifier": "every value", "why_tests_cant": "All values of all kinds.", "anchors": ["collections/utils.go:IIf/Default/IfUndef/IsEmptyValue"]}
{"id": "C62", "title": "Values are converted to collections consistently", "statement": "Storing any value in a list or dictionary converts native maps and slices (at every depth) to the collection types and leaves scalars unchanged; converting an already converted value changes nothing, and printing it is unaffected.", "quantifier": "every value tree of native and collection nodes", "why_tests_cant": "Arbitrary nesting.", "anchors": ["collections/implementation/base_helper.go:BaseHelper.TryConvert/TryAsDictionary/TryAsList/NeedConversion"]}
{"id": "C63", "title": "The error handler's retry loop terminates", "statement": "Processing a template with any number of faulty lines ends after finitely many retries and reports at least one error if any line is faulty.", "quantifier": "every content and every sequence of parser/runtime errors", "why_tests_cant": "Termination over all error sequences.", "anchors": ["template/template_error_handler.go:Handler"]}
{"id": "C64", "title": "RemoveEmpty and RemoveNil take out exactly the empty elements", "statement": "For every list, RemoveNil keeps in order exactly the elements that are not nil, and RemoveEmpty keeps in order exactly the elements that are neither nil, nor the empty text, nor an empty list (zero, false and an empty dictionary are kept).", "quantifier": "every list of arbitrary values", "why_tests_cant": "The elements kept must be right for every value type and every position.", "anchors": ["collections/implementation/list_helper.go:ListHelper.RemoveEmpty", "collections/implementation/list_helper.go:ListHelper.RemoveNil"]}
{"id": "C65", "title": "dict builds exactly the given associations", "statement": "The template function dict, given alternating keys and values, fails exactly when the number of arguments is odd; otherwise the result maps each key (by printed form) to the last value given for it and contains no other key.", "quantifier": "every sequence of arguments", "why_tests_cant": "Ranges over every number of arguments, repeated keys and keys of every type.", "anchors": ["template/extra_data.go:createDict"]}
{"id": "C66", "title": "Ranges with decimals", "statement": "to and until with decimal bounds and a decimal step return, in order, the floating point numbers nearest to the exact terms of the progression: every term strictly before stop, none beyond stop, and stop itself exactly when the progression hits it and the function is to.", "quantifier": "every decimal start, stop and non-zero step", "why_tests_cant": "Accumulated rounding errors appear only for particular combinations of bounds and steps.", "anchors": ["template/math_utilities.go:generateNumericArray"]}
{"id": "C67", "title": "Division and remainder of integers", "statement": "div by zero is an error; div returns the exact integer quotient when the division is exact and the nearest floating point number otherwise; mod returns the remainder of the division truncated toward zero, with the sign of the dividend and smaller than the divisor.", "quantifier": "every pair of integers up to 2^53 in absolute value", "why_tests_cant": "Sign combinations and rounding over all pairs of integers.", "anchors": ["template/math_base.go:divide", "template/math_base.go:modulo"]}
{"id": "C68", "title": "min and max", "statement": "min (max) of a non-empty list of integers returns one of them, and every other is at least (at most) that one.", "quantifier": "every non-empty list of integers up to 2^53 in absolute value", "why_tests_cant": "Ranges over every order and every repetition of values.", "anchors": ["template/math_utilities.go:compareNumerics"]}
{"id": "C69", "title": "Rendering a content does not change the context of later ones", "statement": "Rendering a content with a template, whether it succeeds or fails, leaves the variables that the template gives to the contents rendered after it unchanged.", "quantifier": "every content, context and engine outcome", "why_tests_cant": "Histories of renderings with side effects on shared state, including the ones made again after an error.", "anchors": ["template/template_handler.go:processContentInternal (cloneContext)", "template/template_error_handler.go:Handler"]}
{"id": "C70", "title": "Functions defined by templates receive their arguments", "statement": "The code of a function defined with func sees, in order of priority: the values given by the caller (by position under the declared names, the remaining ones as the list ARGS, or by name when one dictionary is given to a function that has not exactly one argument), the default values of the function, the context of the template. A call changes neither the default values nor the dictionary of the caller nor the context.", "quantifier": "every list of declared arguments, default values, context and list of arguments; every history of calls of the same function", "why_tests_cant": "Any number of names, arguments and nested dictionaries; the effect of a call on later ones is a matter of histories and sharing.", "anchors": ["template/extra_runtime.go:addAlias (fi.function)", "template/template.go:Context", "collections/implementation/dict_helper.go:Merge"]}
{"id": "C71", "title": "Configuration of functions defined by templates", "statement": "The settings of a function (description, group, arguments, aliases, default values) are recognised under any of their names in any case; unknown names and values of the wrong type are refused; the result does not depend on the order in which Go enumerates the configuration, and the configuration of the user is not changed.", "quantifier": "every configuration and every order of enumeration of a map, including the visit of keys added meanwhile", "why_tests_cant": "The order of a Go map is random; a test sees one order per run.", "anchors": ["template/extra_runtime.go:addAlias (configuration)"]}
{"id": "C72", "title": "HCL written by the tool denotes the data", "statement": "The text written for a value in HCL (compact or pretty, with blocks, for Terraform variables, or for use inside of HCL) is HCL and, read back, gives the same data; it does not depend on the order in which Go enumerates maps.", "quantifier": "every value made of maps, lists, texts, numbers, booleans and null; every indentation of blanks; every order of enumeration", "why_tests_cant": "The data nests without bound, and the layout depends on lengths, on ends of lines in any part of it and on the random order of maps.", "anchors": ["hcl/utilities.go:marshalHCL", "hcl/hcl.go:MarshalIndent, MarshalInternal, MarshalTFVarsIndent"]}
{"id": "C73", "title": "The exit status tells what happened", "statement": "The command ends with status zero only if nothing that was asked failed, with 1, 3 or -1 otherwise; nothing is processed when something before it failed; the temporary folder is removed.", "quantifier": "every command line, every behaviour of the file system, of the parser and of the processing of files", "why_tests_cant": "The failures combine; a test provokes one of them at a time.", "anchors": ["main.go:runGotemplate", "utilities.go:cleanup"]}
{"id": "C74", "title": "The command processes what it is given", "statement": "The files processed are those found with the patterns, those given as arguments and the standard input, without the excluded ones and in order; folders, printing, overwriting and arguments are taken as given; results written to another folder overwrite by default.", "quantifier": "every command line and every file system", "why_tests_cant": "Arguments are any texts; the options interact.", "anchors": ["main.go:runGotemplate", "utilities.go:exclude", "utilities.go:extend"]}
{"id": "C75", "title": "The list of functions is complete", "statement": "The listing shows each function of the table once, in order, whatever the order in which the table is visited; the categories share the functions; the filters keep the names in which they are found, whatever the case; the columns show every name.", "quantifier": "every table of functions and aliases, every choice of options and filters", "why_tests_cant": "Go visits maps in any order; the table, the filters and the length of the list are free.", "anchors": ["template/func_table.go:getFunctionsInternal", "template/func_category.go:getCategories", "template/template_help.go:filterFunctions", "template/template_help.go:PrintFunctions", "template/template_help.go:printFunctionsShort"]}
{"id": "C76", "title": "get, hasKey, set and unset", "statement": "The dictionary and the key can be given in either order; get gives the entry or the default values; set and unset change the entry of the key and nothing else; key and content give the entry of a dictionary with a single one, or those of a list of them.", "quantifier": "every dictionary, key, value and list of default values", "why_tests_cant": "Keys and values are of any type; each function takes its arguments in two orders.", "anchors": ["template/extra_data.go:get", "template/extra_data.go:hasKey", "template/extra_data.go:set", "template/extra_data.go:unset", "template/extra_data.go:key", "template/extra_data.go:content", "template/slice.go:getSingleMapElement"]}
{"id": "C77", "title": "contains and find", "statement": "contains tells whether all elements are in the list, which can be given after the element; between texts it looks for the first in the second; find gives the positions, in lists and in texts, in order.", "quantifier": "every list, text and element", "why_tests_cant": "Elements of any type are compared by their text; the functions guess which argument is the list.", "anchors": ["template/extra_data.go:containsInternal", "template/extra_data.go:findInternal"]}
{"id": "C78", "title": "id makes identifiers", "statement": "id replaces each character that is not a letter, digit or underscore by the replacement (an underscore unless another is given) and joins runs of it; its result has only allowed characters, keeps the pieces between them in order, and applying it again changes nothing.", "quantifier": "every text and every replacement of one character; any literal replacement for the characters of the result", "why_tests_cant": "Texts have any characters in any order and runs of any length.", "anchors": ["template/extra_utils.go:id"]}
{"id": "C79", "title": "repeat, mergeList, formatList and raw", "statement": "repeat gives n times the value; mergeList the elements of all lists in order; formatList the text of each element; values written with raw are shown without quotes if they have no space and in quotes otherwise, wherever they are in the result, and the text around them does not change.", "quantifier": "every number, value, list of lists, format, and every text with any number of raw values in it", "why_tests_cant": "Values and the text around them are arbitrary; the two substitutions could join marks of different values.", "anchors": ["template/extra_utils.go:repeat", "template/extra_utils.go:rawPrint", "template/extra_utils.go:rawList", "utils/list.go:MergeLists", "utils/list.go:FormatList", "template/template.go:NewTemplate"]}
{"id": "C80", "title": "The first line of a script", "statement": "A text that begins with #!, a program and at most one argument on their line is a script with that program, that argument and the rest as source; any other text has no program; a result is made executable exactly if it names a program.", "quantifier": "every text", "why_tests_cant": "The expression has six repetitions that compete for the same characters; texts are arbitrary.", "anchors": ["utils/exec.go:shebang", "utils/exec.go:ScriptParts", "utils/exec.go:IsShebangScript"]}
{"id": "C81", "title": "The command that run and exec start", "statement": "A script is started with its program, the argument of its first line, the file and the arguments; the name of a command with the arguments, each one argument; an unknown word is an error; another text is run by the shell. Arguments with wildcards are replaced by the files that match.", "quantifier": "every text, file, list of arguments and environment", "why_tests_cant": "Texts and arguments are arbitrary, commands exist or not; a temporary file is read again.", "anchors": ["utils/exec.go:GetCommandFromFile", "utils/exec.go:GetCommandFromString", "utils/exec.go:IsCommand", "utils/exec.go:saveTempFile", "utils/io.go:globFunc"]}
{"id": "C82", "title": "Templates of different folders", "statement": "Each folder has its own template, made once; it starts with the options and defined templates of the one it comes from, and what is changed later in one (options, definitions) is not changed in another. A new template can use the functions of its options and every alias defined before.", "quantifier": "every history of creations, options, aliases and definitions", "why_tests_cant": "What a folder can use depends on the order of all the operations before it; the maps are partly shared between templates and partly copied.", "anchors": ["template/template.go:GetNewContext", "template/template.go:init", "template/template.go:importTemplates", "template/func_table.go:addFunctions", "template/extra_runtime.go:alias"]}
{"id": "C83", "title": "Saving, loading and testing files", "statement": "What save writes is what load gives back; the only other change is one new folder, when the folder of the file is missing and its parent exists; when save fails no file changes. A text is saved as it is, bytes as bytes, other values as they are printed. exists, isDir, isFile and isExecutable agree.", "quantifier": "every disk, path and object", "why_tests_cant": "Disks, paths and objects are arbitrary; the folder is computed from the text of the path and followed by the system.", "anchors": ["template/extra_os.go:saveToFile", "template/extra_os.go:loadFromFile", "template/extra_os.go:fileExists", "template/extra_os.go:isDir", "template/extra_os.go:isFile", "template/extra_os.go:isExecutable"]}
{"id": "C84", "title": "Arithmetic with texts and lists", "statement": "add gives the sum of numbers, the texts one after the other, two lists one after the other, a list with one more element, or the sum with each element of a list of numbers; mul gives the product, a repeated text, copies of a list, the product with each element, or the products of two lists; the functions of one number act on each element of a list, and one element that is not a number is an error; avg is the sum divided by the number of values.", "quantifier": "all values and lists of arguments, whatever the numbers are and however they are read", "why_tests_cant": "The kind of operation is chosen from what the arguments look like once printed, for any number of arguments and any nesting of lists.", "anchors": ["template/math_base.go:add", "template/math_base.go:multiply", "template/math_utilities.go:process", "template/math_utilities.go:convertArgs", "template/math_utilities.go:toListOfFloats", "template/math_stats.go:average"]}
{"id": "C85", "title": "The autoWrap of razor", "statement": "In a line of a razor template, `before@autoWrap(args)after` becomes a join of the elements of args, each between before and after; parentheses in texts between quotes and nested parentheses do not end the arguments, and nothing of the line is lost; a line whose parenthesis is not closed is not changed.", "quantifier": "all lines: any text before and after, any arguments with nested parentheses and literals", "why_tests_cant": "Literals and parentheses are nested in any way, and the literals are taken out and put back.", "anchors": ["template/razor_repl_autowrap.go:autoWrap", "collections/string.go:Protect", "collections/string.go:SelectContext", "collections/string.go:Escape"]}
{"id": "C86", "title": "What a source designates", "statement": "A source given to include, run or exec is the defined template of that name if there is one, otherwise the file of that name (only if the source is one line; relative to the folder of the template), otherwise the code itself; files and code are translated by razor, templates are not. The definitions of a code remain afterwards, replacing those of the same name unless they are empty, and nothing else changes; a code that cannot be parsed changes nothing. A second attempt executes the same code as the first one. include is an error when the result is the text itself.", "quantifier": "every table of templates, every file system, every source and every sequence of sources", "why_tests_cant": "Depends on what was included before and on all combinations of templates and files.", "anchors": ["template/extra_runtime.go:optimizedRunTemplate", "template/extra_runtime.go:include"]}
{"id": "C87", "title": "Calls with a list of arguments and results read as data", "statement": "ellipsis calls the function with the arguments followed by the elements of the last one, in order, each under a variable of its own, and is an error if the last argument is not a list or nothing; its result is the value of the function. exec gives the output read as data, or the text when it is no data; data gives an error in that case. The text of an error is that of the function without the position.", "quantifier": "every list of arguments, every function and every set of formats", "why_tests_cant": "Unbounded number of arguments; result depends on the text made by the function.", "anchors": ["template/extra_runtime.go:ellipsis", "template/extra_runtime.go:tryConvert", "template/extra_runtime.go:exec", "template/extra_data.go:dataConverter", "template/extra_data.go:templateConverter"]}
{"id": "C88", "title": "Lines without razor code survive the translation", "statement": "With the default delimiters, every line of a razor template that has none of the signs razor looks for (the delimiter @, a backtick, ${, */, a comment or a string that begins with template code, the marks used by the translation) is found unchanged, and in the same order, in the Go template produced, whatever the expressions elsewhere become. The template must not have backticks. All the rules of razor are valid regular expressions.", "quantifier": "every content, every definition of a letter and every behaviour of the functions that translate expressions", "why_tests_cant": "165 regular expressions are applied one after the other to the whole content; a line may be reached by any of them.", "anchors": ["template/razor.go:applyRazor", "template/razor.go:expressions", "template/razor_repl_literal.go:protectEmail"]}
{"id": "C89", "title": "A doubled delimiter is literal", "statement": "With the default delimiters, a text that has no other sign of razor is produced exactly by writing each of its @ twice: doubling the delimiter protects any text, and nothing else is changed.", "quantifier": "every text, any number and any position of the delimiters", "why_tests_cant": "Every combination of characters around the delimiters must escape 165 rules.", "anchors": ["template/razor.go:applyRazor", "template/razor.go:expressions"]}
{"id": "C90", "title": "E-mail addresses are not razor code", "statement": "With the default delimiters, a text whose @ are all in e-mail addresses (a local part, a domain name with a dot) and that has no other sign of razor is left exactly as it is.", "quantifier": "every text, any number of addresses of any length", "why_tests_cant": "The rule is a regular expression whose matches depend on the characters around every address.", "anchors": ["template/razor.go:expressions", "template/razor_repl_literal.go:protectEmail"]}
{"id": "C91", "title": "The variables in a text are the only things that razor replaces", "statement": "With the default delimiters, in a text where every @ is followed by the name of a variable, global (a letter, then letters, digits and underscores) or local ($, then letters, digits, underscores and dots), and nothing around makes it another expression (a call, an index, a selector, an assignment, a comment), the result is the same text with {{ $.name }} or {{ $name }} in place of each variable; a - after the delimiter trims the spaces before the code, a second one those after it; a semicolon after a name, and the blanks before it, are dropped.", "quantifier": "every text between the names, any number of them, every definition of a letter outside ASCII, every behaviour of the functions that translate expressions", "why_tests_cant": "Each of the 165 rules could match a part of the text around the name.", "anchors": ["template/razor.go:applyRazor", "template/razor.go:expressions"]}
{"id": "C92", "title": "Ignored razor expressions are left alone, and only they are", "statement": "With a list of ignored expressions (--ignore-razor, GOTEMPLATE_IGNORE_RAZOR or the API), an ignored name after the razor delimiter is printed as it is written, longer names and the rest of the template are translated as without the list, whatever the order of the list.", "quantifier": "every content, every list of names (and, for the statement that nothing else is changed, every list of regular expressions)", "why_tests_cant": "The effect depends on what surrounds every occurrence of a name, on the order of the list and on all the rules applied afterwards.", "anchors": ["template/razor.go:applyRazor", "template/template.go:IgnoreRazorExpression", "template/template.go:AppendIgnoreRazorExpression", "template/template.go:NewTemplate"]}
{"id": "C93", "title": "What run and exec give and what they leave", "statement": "run starts at most one command, gives its output if it succeeds and an error with what it wrote on the standard error otherwise. A command that exists gets each argument as one argument; another text goes through a temporary file that the command finds and that is removed after it, however the call ends. exec gives the data of the output if it is data.", "quantifier": "every rendered text, every list of arguments, every environment, every command, and every failure of making, writing or reading a file", "why_tests_cant": "Failures of the file system and of commands are hard to produce in tests; the texts, arguments and commands are arbitrary.", "anchors": ["template/extra_runtime.go:run", "template/extra_runtime.go:exec", "utils/exec.go:GetCommandFromString", "utils/exec.go:saveTempFile", "utils/exec.go:GetCommandFromFile"]}
{"id": "C94", "title": "The templates that extensions define", "statement": "The extensions of the folders of the environment variable and of the folder of the template are loaded in this order, and errors in their code prevent nothing. A name that one of them defines is defined afterwards, with the last definition that is not empty, and no other name is.", "quantifier": "every set of folders and files, all their definitions, and every order of iteration on the maps", "why_tests_cant": "The order of iteration of a map is not the same at each execution; a test sees one of them.", "anchors": ["template/template.go:initExtension", "template/template.go:importTemplates", "template/template.go:GetNewContext"]}
{"id": "C95", "title": "Formatting the generated Terraform files", "statement": "When terraform is installed, it is executed twice in each folder that has a generated Terraform file and in no other folder; a folder where it fails gives an error with what it wrote and does not prevent the others. Without terraform nothing is done.", "quantifier": "every list of files, every order of iteration on the folders, and every program (its answer may depend on the executions before)", "why_tests_cant": "The program, its failures and the order of the folders are not under the control of a test.", "anchors": ["utils/terraform.go:TerraformFormat", "utils/terraform.go:IsTerraformFile"]}
{"id": "C96", "title": "Loaded data is what the document says", "statement": "Loading an HCL document gives the data it says: its entries, or its value when it is a single one; blanks around it do not matter; data written in HCL by the tool and loaded again is the same. Loading a YAML document gives its data with the keys as texts: no entry is lost or made up, and texts are as they are written.", "quantifier": "every HCL text and every decoded YAML document, of any depth, and every order in which Go enumerates its mappings", "why_tests_cant": "the documents are unlimited; the loss of an entry with two keys printed alike depends on the order of enumeration of a map, which a test sees only sometimes", "anchors": ["hcl/hcl.go: Unmarshal", "yaml/yaml.go: Unmarshal, transformElement", "hcl/utilities.go: marshalHCL"]}
{"id": "C97", "title": "min and max choose one of their arguments, whatever these are", "statement": "min and max give the smallest and the largest of the numbers they are given, as arguments or as the elements of one list; when one of several arguments is not a number the text of one of them is given, the first or the last in alphabetical order; the order of the arguments does not matter and the calls that fail are known.", "quantifier": "all lists of arguments (numbers, texts, nil, lists, dictionaries, nested), all orders of them, any arithmetic with a total order", "why_tests_cant": "The result depends on how every argument is printed and read again and on the order of a loop; tests only try a few lists of numbers, not the mixtures of types nor all orders.", "anchors": ["template/math_stats.go:min", "template/math_stats.go:max", "template/math_utilities.go:compareNumerics", "template/math_utilities.go:compareStrings"]}
{"id": "C98", "title": "JSON written by the tool denotes the data", "statement": "What toJson and toPrettyJson write, read as JSON, is the data that was given: same nesting, texts, numbers and keys; toJson gives one line without control characters; the order in which maps are enumerated does not matter. The quoted forms (toQuotedJson, toQuotedHcl, toQuotedTFVars), put between quotes, are texts whose value is what the other forms write. Reading the JSON again gives the data back.", "quantifier": "every value (any nesting of lists, dictionaries, texts, numbers), every enumeration order of maps", "why_tests_cant": "Escapes, nesting and empty collections combine without bound, and the characters that quoting breaks are few among all.", "anchors": ["template/extra_data.go:toJSON", "template/extra_data.go:toPrettyJSON", "template/extra_data.go:toQuotedJSON", "template/extra_data.go:toQuotedHCL", "template/extra_data.go:toQuotedTFVars", "json/json.go:Unmarshal"]}
{"id": "C99", "title": "floor, ceil, trunc, abs, dim and modf give the integer they name", "statement": "floor gives the greatest integer not above the number, ceil the least one not below it, trunc the integer part with its sign, abs the number without its sign, dim the difference of two numbers or zero, modf an integer and a rest less than one that add up to the number and have its sign. The first three give integers.", "quantifier": "every number, of any size and with any number of digits", "why_tests_cant": "The functions cross 64 bit floating point numbers: whether the integer is the right one depends on the digits and the size of each number.", "anchors": ["template/extra_math.go:floor", "template/extra_math.go:ceil", "template/extra_math.go:trunc", "template/extra_math.go:abs", "template/extra_math.go:dim", "template/math_base.go:modf", "template/math_utilities.go:execute"]}
{"id": "C100", "title": "indent, nIndent and sIndent indent every line of every argument", "statement": "The lines of the result of indent, nIndent and sIndent are the lines of the texts of the arguments (of the elements, for a single list), in order, each one after the indentation, and nothing else; nIndent begins with an end of line; a negative number of spaces is an error. center and wrap refuse a width that is not an integer.", "quantifier": "every indentation without end of line, every list of arguments of any types", "why_tests_cant": "Arguments, their elements and their lines combine without bound.", "anchors": ["template/extra_utils.go:indent", "template/extra_utils.go:nIndent", "template/extra_utils.go:sIndent", "template/extra_utils.go:center", "template/extra_utils.go:wrap", "template/math_utilities.go:convertArgs"]}
{"id": "C101", "title": "assert stops the template exactly for false values", "statement": "assert gives an error exactly for nothing, false, zero, the empty text, empty collections and nil pointers; the error is the message given, or a default one. assertWarning never stops the template, writes nothing and logs the same message in exactly the same cases. raise always gives an error.", "quantifier": "every value, message and list of arguments", "why_tests_cant": "All kinds of values count, with any content.", "anchors": ["template/extra_runtime.go:assertError", "template/extra_runtime.go:assertWarning", "template/extra_runtime.go:raise", "template/extra_data.go:isZero"]}
{"id": "C102", "title": "char gives the character of a number", "statement": "char n is the text of the one character whose number is n; for a list of numbers it is the list of their characters.", "quantifier": "every integer, every list of integers", "why_tests_cant": "The conversions cross a byte: all larger numbers are affected.", "anchors": ["template/extra_data.go:toChar", "template/math_utilities.go:process"]}
{"id": "C103", "title": "Numbered lines keep every line and align the numbers", "statement": "Adding line numbers to a text (as done for the code shown in errors) gives every line of the text, in order, after its number and one space, and nothing else; the numbers are right aligned in one column, as wide as asked for or, by default, as the number of the last line.", "quantifier": "every text, every width", "why_tests_cant": "Alignment depends on the number of lines, which has no bound; the width comes from a logarithm in floating point.", "anchors": ["collections/string.go:AddLineNumber"]}
{"id": "C104", "title": "The list of templates is complete, sorted and aligned", "statement": "`list --template` shows one row for each template that has a name of its own in a file (with --all, for each file as well), in the order of the names, with the name in full and the file relative to the folder; all the rows have their second column at the same place; the order in which the engine keeps the templates does not count.", "quantifier": "every set of templates, folder and names in any alphabet", "why_tests_cant": "Sets of templates and names have no bound, and the engine keeps them in a map.", "anchors": ["template/template_help.go:PrintTemplates", "template/add_funcs.go:getTemplateNames", "utils/io.go:Relative"]}
{"id": "C105", "title": "The help shows the true signature of every function", "statement": "For every function, the signature shown has one entry for each parameter, in order, with its declared name (or arg and its position, args for the rest) and its type, then the results without the final error; a description given for a function is shown as it is. An alias shows the arguments, results, description, group and aliases of its function. The methods of an object are shown one on each line without the object.", "quantifier": "every function, with any number and types of parameters and results, every alias", "why_tests_cant": "Functions have any signature, and templates define functions and aliases.", "anchors": ["template/func_table.go:FuncInfo.getArguments", "template/func_table.go:FuncInfo.Result", "template/func_table.go:FuncInfo.getSignature", "template/func_table.go:FuncInfo.Aliases", "template/extra_runtime.go:getMethods"]}
{"id": "C106", "title": "Options turn on exactly the addons that are asked for", "statement": "An addon is on when its own flag says so, or when neither its flag nor --base is given; the other options are those of their flags; setting or unsetting options in a program changes these options and no other. A function can be called only if an addon that is on has it, and a name designates what the last such addon has under it; turning an addon on or off changes nothing for the names it does not have.", "quantifier": "every set of flags, every set of options, every content of the addons", "why_tests_cant": "There are 2^11 sets of addons, and the tables of functions are built by iterating over maps in any order.", "anchors": ["main.go:runGotemplate", "template/options.go:DefaultOptions", "template/options.go:OptionsSet.Set", "template/options.go:OptionsSet.Unset", "template/template.go:NewTemplate", "template/add_funcs.go:addFuncs"]}
{"id": "C107", "title": "Functions of the sprig library keep their meaning under their names", "statement": "Whatever the orders in which maps are iterated over, and in every template of a process, a documented name of a library function and each of its aliases designates that function of the library, and names that are not documented are not given by the library.", "quantifier": "every library, every documentation, every order of iteration, every number of templates made", "why_tests_cant": "The orders of iteration over Go maps are random: a test sees one of them.", "anchors": ["template/extra_sprig.go:addSprigFuncs", "template/extra_sprig.go:sprigFuncRef", "template/func_table.go:addFunctions"]}
{"id": "C108", "title": "Else and end in a razor template", "statement": "In a razor text whose delimiters are before variables, `else` and `end`, every @else becomes {{ else }} and every @end, with the block word, the blanks and the semicolon that follow it, becomes {{ end }}; a - after the delimiter trims the spaces before the code, a second one the spaces after it; variables are replaced as in C91; all the rest of the text is unchanged.", "quantifier": "every such text, with any number of variables and keywords, every set of letters outside ASCII, every parser of expressions", "why_tests_cant": "165 rules are applied one after the other to the whole text: any of them could match a part of the text or of the code produced by another.", "anchors": ["template/razor.go:applyRazor", "template/razor.go:expressions (else, various ends, Global variables)"]}
{"id": "C109", "title": "Every function of the addons has one meaning", "statement": "When an addon is on, each function of its table is called by its name and by every alias declared for it, and the help shows the same function under each of these names; no name or alias belongs to two functions; a name that no addon in use declares keeps the meaning it had before; aliases and names of arguments are declared only for functions that exist.", "quantifier": "every set of options, every table registered before (base functions, sprig, functions of the user), every order in which the maps are read, every function and alias of the tables", "why_tests_cant": "The maps are read in a random order while they are changed, and a name declared twice would give one function or the other from a run to the next.", "anchors": ["template/extra_math.go:addMathFuncs", "template/extra_data.go:addDataFuncs", "template/extra_logging.go:addLoggingFuncs", "template/extra_runtime.go:addRuntimeFuncs", "template/extra_utils.go:addUtilsFuncs", "template/extra_net.go:addNetFuncs", "template/extra_os.go:addOSFuncs", "template/extra_git.go:addGitFuncs", "template/func_table.go:AddFunctions"]}
{"id": "C110", "title": "What Go's parser is given for a razor expression", "statement": "In a razor expression, a literal is left as it is written; a variable, also one whose name is a word that Go reserves, is one identifier whose code is this variable; an operator written as a word between spaces or as a sign is the operator of Go and what is on both sides is treated as if it were alone; the result does not depend on the order in which Go enumerates its maps.", "quantifier": "every expression, every literal, every variable name in any alphabet, every operator, every order of the maps", "why_tests_cant": "Three maps are enumerated in a random order and each entry rewrites the whole text, so one run of a test sees one order; names and literals can contain any of the words that are replaced.", "anchors": ["template/razor_repl_expr.go:expressionParserInternal", "template/razor_repl_expr.go:reservedKeywords", "template/razor_repl_expr.go:dotPrefix", "template/razor_expr.go:operators", "collections/string.go:Protect"]}
{"id": "C111", "title": "From the text of a razor expression to the code of the template", "statement": "The text of a razor expression made of variables, numbers, literals, parentheses, calls of functions, selectors, calls of methods, indexes, slices, unary operators and binary operators in any of their spellings (word, sign or Go's own) becomes a pipeline whose operations are those of the expression, with Go's precedences; a slice without a bound is the slice with the default bound; the text has one meaning; the code does not depend on the order in which Go enumerates its maps.", "quantifier": "every such expression of any depth and length, every name in any alphabet, every spacing, every order of the maps", "why_tests_cant": "The text goes through four passes of textual replacement, a scanner, a parser and a printer, and the way back of the marks; a test checks a few expressions, while an error of the passes appears only for a particular neighbourhood of names, signs and spaces.", "anchors": ["template/razor_repl_expr.go:expressionParserInternal", "template/razor_expr.go:nodeValueInternal", "template/razor_expr.go:nodeValue", "template/razor_repl_expr.go:reservedKeywords", "template/razor_repl_expr.go:dotPrefix"]}
{"id": "C112", "title": "Expressions between parentheses in a razor template", "statement": "In a text whose only uses of the delimiter are expressions between parentheses, @(expression), each expression — with the signs that remove the spaces and the semicolon that may follow it — is replaced by a code whose operations are those of the expression, and every other character of the text stays as it is, whatever the order in which Go enumerates its maps.", "quantifier": "every text, every number of expressions, every expression of the grammar of C111, every order of the maps", "why_tests_cant": "The 165 rules are applied one after the other to the whole text, and each one may see the codes that the previous ones produced; a test checks a few lines.", "anchors": ["template/razor.go:applyRazor", "template/razor.go:expressions", "template/razor_repl_expr.go:expressionParserInternal", "template/razor_repl_expr.go:expressionParserSkipError"]}
{"id": "C113", "title": "Conditions, loops and assignments in a razor template", "statement": "In a text whose uses of the delimiter are commands with an expression at the ends of lines (@if (…), @else if (…), @with ($x := …), @range ($i, $x := …), @for (…) and @foreach (…), which are read as @range(…), @block (…), @define (…)), the @else and @end of their bodies, expressions @(…) and assignments (@x := …, @.x = …, @$x += …), each of them is replaced by the code of the same command, with its signs and its variables, or by the code that assigns the same variable, with an expression whose operations are those that are written; an assignment with = to a variable of the context is preceded by the check that it exists if the mode of the assignments asks for it; and every other character of the text stays as it is, whatever the order in which Go enumerates its maps.", "quantifier": "every text, every number and nesting of commands, assignments and expressions, every expression of the grammar of C111, every mode of the assignments, every order of the maps", "why_tests_cant": "The 165 rules are applied one after the other to the whole text: the rules of the commands must not take the expressions, the rules of else must not take the else if, and the rules of expressions see the codes of the commands; a test checks a few lines.", "anchors": ["template/razor.go:applyRazor", "template/razor.go:expressions", "template/razor_repl_expr.go:expressionParserInternal", "template/razor_repl_expr.go:expressionParserSkipError", "template/razor_repl_assign.go:assignExpressionInternal"]}
{"id": "C114", "title": "Razor translates a template part by part", "statement": "What razor makes of a text is what it makes of each of its parts (or of each of its lines), put one under the other: a line cannot change the translation of another one. Comments may run over several lines; texts with them, with backticks or with autoWrap are not meant.", "quantifier": "every text of any number of lines, every cut of it in parts, all functions that translate the expressions", "why_tests_cant": "The 165 rules are regular expressions that search the whole text, several of them with expressions that could run over the ends of lines; a test checks a few texts.", "anchors": ["template/razor.go:applyRazor", "template/razor.go:expressions", "template/razor.go:getExpressions"]}
{"id": "C115", "title": "An index after a razor variable takes the elements that are written", "statement": "In a razor text, `@name[…]` becomes the code that takes elements of the variable: the elements between commas, or the slice between the bounds of a colon, where a bound that is not written is the beginning or the end. Each of the texts between the brackets keeps its meaning as an expression, the signs of the delimiter are kept, and the rest of the text is not changed.", "quantifier": "every text around the index, every name, every list of indices or pair of bounds that are expressions of any size, every order of the tables of razor", "why_tests_cant": "The index is found by one of 165 rules after the others had their turn, its parts are translated one by one by another pass of rules, and the result goes through all the rules that follow; a test checks a few indices.", "anchors": ["template/razor.go:applyRazor", "template/razor.go:expressions", "template/razor_repl_expr.go:expressionParserInternal", "template/razor_repl_expr.go:indexExpression"]}
{"id": "C116", "title": "A function call in a razor text becomes the same call", "statement": "In a razor text, `@name(…)` becomes a template code that calls the function with the arguments that are written: the operations of the code are those of the expression, whatever operators the arguments contain. The signs of the delimiter are kept, and the rest of the text is not changed.", "quantifier": "every text around the call, every name, every list of arguments that are expressions of any size, every order of the tables of razor", "why_tests_cant": "Eighty rules are tried before the one of calls, among them those of commands with the same shape, and the arguments go through a translation that protects words and restores them; a test checks a few calls.", "anchors": ["template/razor.go:applyRazor", "template/razor.go:expressions", "template/razor_repl_expr.go:expressionParserSkipError", "template/razor_expr.go:nodeValue"]}
{"id": "C117", "title": "A razor template is translated part by part with the meaning of its expressions", "statement": "A template written with razor, made of any number of parts one under the other (lines without delimiter, texts with variables, conditions, loops, expressions and assignments, lines with an index or a function call), becomes the template whose parts are the translations of these parts in the same order, and in each of them each expression becomes a code with the same operations. All the rest is kept.", "quantifier": "every list of parts of these kinds, of any length, every text and expression in them, every mode of the assignments, every order of the tables of razor", "why_tests_cant": "165 rules are applied one after the other to the whole template, so that any rule may catch something of another part; a test has a few templates.", "anchors": ["template/razor.go:applyRazor", "template/razor.go:expressions", "template/razor_repl_expr.go:expressionParserInternal", "template/razor_repl_assign.go:assignExpression"]}
{"id": "C118", "title": "A command of a single line keeps its action and ends after it", "statement": "In a razor text, `@if (expression) action;`, and the same with `with` and `range`, becomes the command whose code has the operations of the expression, followed by the action exactly as it is written and by the end of the command. The blanks around the action and the semicolon are dropped, the signs that remove the spaces are on both codes, and the text around is kept.", "quantifier": "every expression, assignment of one or two variables, action, blanks and text around, every order of the tables of razor", "why_tests_cant": "the extent of the expression and of the action depends on the whole line, and 165 rules are tried on it; a test has a few lines.", "anchors": ["template/razor.go:expressions", "template/razor.go:applyRazor", "template/razor_repl_expr.go:expressionParserInternal"]}
{"id": "C119", "title": "A command with its action between braces keeps the action and ends after it", "statement": "In a razor text, `@if (expression) { action }` at the end of a line, and the same with `with` and `range`, becomes the command whose code has the operations of the expression, followed by the action as it is written, with the blanks before the closing brace, and by the end of the command. The braces, the blanks before the action and those at the end of the line are dropped, the signs that remove the spaces are on both codes, and the text around is kept.", "quantifier": "every expression, assignment of one or two variables, action, blanks and text around, every order of the tables of razor", "why_tests_cant": "the extent of the expression and of the action depends on the whole line, and 165 rules are tried on it; a test has a few lines.", "anchors": ["template/razor.go:expressions", "template/razor.go:applyRazor", "template/razor_repl_expr.go:expressionParserInternal"]}
