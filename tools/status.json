{
 "C01": {"status": "proved", "note": ""},
 "C02": {"status": "proved", "note": ""},
 "C03": {"status": "proved", "note": ""},
 "C04": {"status": "proved", "note": ""},
 "C05": {"status": "proved", "note": ""},
 "C06": {"status": "partial", "note": "The code violates the property: Clone of a list whose only element is a list returns that element. The negation is proved with a witness, and the exact set of lists that are preserved is characterised."},
 "C07": {"status": "partial", "note": "The code violates the property: appending twice to a list with spare capacity changes the first result (negations proved, also without explicit capacity). Exactly when another list is left alone is characterised, and every program that only appends to latest lists is persistent."},
 "C08": {"status": "proved", "note": "Textual variants for all values; strict variants for scalar searched values, and the panic of the strict search on two lists is stated."},
 "C09": {"status": "proved", "note": ""},
 "C10": {"status": "proved", "note": ""},
 "C100": {"status": "proved", "note": "Also for no argument (C100_nothing: the indentation alone). How values are printed and the formatting of messages are those of the other models and parameters."},
 "C101": {"status": "proved", "note": "The function of sprig that recognises empty values is modelled; how messages are formatted is a parameter. C101_not_false: texts such as \"false\" are true."},
 "C102": {"status": "partial", "note": "Proved below 256. Violated, with theorems: other numbers lose their multiples of 256 (C102_wrapped, C102_not_large). A list of one number gives a text (C84)."},
 "C103": {"status": "partial", "note": "The lines are proved in full, and the alignment for a width that is given and for an automatic width when the logarithm is right. Violated: the library's Log10(1000) is below 3, so the 1000th line of 1000 lines is shifted (C103_not_aligned; the value of the logarithm is its hypothesis)."},
 "C104": {"status": "proved", "note": "A row that would be a single dot is left out: C104_defined shows that no template with a name and a file is concerned. The colour of files is a parameter."},
 "C105": {"status": "partial", "note": "Signatures are proved in full, also for aliases. Violated: asked for its arguments or results alone, an alias ignores the description of its function (C105_not_alias_arguments, C105_not_alias_results); C105_alias_arguments_partial is for the other functions. The text of a type given by reflection and the colours are parameters."},
 "C106": {"status": "partial", "note": "Violated: --base is looked for among the words of the command line and not read from its flag: given by a variable of the environment it turns nothing off (C106_not_variable), and a template named --base turns everything off (C106_not_word); C106_addons_partial is for the other cases. C106_functions_partial and C106_frame_partial are for the names to which each addon gives one meaning (see C107). The parser of command lines is a parameter."},
 "C107": {"status": "partial", "note": "Violated: all and withoutSprig have the same alias without (extra_sprig.go:227, 242), so that `all` designates sprig's all or without, at random, and withoutSprig may not exist (C107_not_all). C107_names_partial is for the names that share no alias; C107_library_partial shows that these are all the other names of the code's documentation."},
 "C108": {"status": "partial", "note": "Violated: after @end, the text that follows loses its blanks, and a word loses the beginning that is a block word (`@end without` gives `{{ end }}out`); `@elsewhere` is read as an else (C108_not_kept). C108_statements_partial is for the texts of the specification: keywords that end an e-mail address, `else if (` and codes between quotes are left out."},
 "C109": {"status": "partial", "note": "Violated for the names of arguments: `nextafter`, `signbit` and ten others have names of arguments although no function has this name, so that nextAfter and signBit show none (C109_not_arguments). The rest is proved. The tables of sprig are C107."},
 "C11": {"status": "partial", "note": "Path semantics, order independence and idempotence are proved. Associativity is false in the code (proved with a witness); it is proved when no path is a leaf in the middle argument and a dictionary in the two others."},
 "C110": {"status": "partial", "note": "Violated: the other keywords of Go (package, import, var...) are given to the parser as keywords (C110_not_keyword), two operators that are words cannot follow each other (C110_not_neighbours) and the result then depends on the order of the map (C110_not_order), a name that contains a mark comes back as another variable (C110_not_marks). The independence of the order is proved for the expressions where no two replacements share a character (C110_order_partial)."},
 "C111": {"status": "proved", "note": "Go's scanner and parser are modelled for the tokens and expressions that can come out (names, numbers, quoted texts, the operators and delimiters), and proved against a grammar by levels (C111_parser). Bounds that are not written are those of the text where they are written (C111_bounds, C111_slices). Violated: a word operator just before a sign loses its spaces, `a lt -1` and `a sub -1` are not translated and `a band ^b` is another operation (C111_not_signs)."},
 "C112": {"status": "partial", "note": "Proved for the whole table of rules and every expression of the grammar of C111, with any number of expressions on a line; left out: other parentheses after an expression on its line, `:=` between two expressions of a line, the sign `_`, texts between backquotes, `)[` anywhere, the character ♠, names that contain `slice`. Violated: when another parenthesis follows the expression on its line, the text up to the last parenthesis is put in the code as it is (C112_not_alone)."},
 "C113": {"status": "partial", "note": "Proved for the whole table of rules, for commands with nothing after them on their lines and without `;`, `{` or `[` in their expressions, and for assignments that end with their lines; left out: commands with their action on the same line, @template, assignments that end with `;` or blanks, with dotted names, with `@{…}`, with `~=` or with `[` in their values, and what C112 leaves out. Violated: @elseif is taken as a command and gives a code that templates do not have (C113_not_elseif); in @x+=1 the sign is a part of the name (C113_not_operator); a variable whose name begins with end or else is not assigned (C113_not_end); the call of a method of the context is not put between parentheses after set (C113_not_method)."},
 "C114": {"status": "partial", "note": "Proved for the whole table of rules and any function of the rules, for texts without `/*`, backtick and `rap(`, whose parts but the first do not begin with a sign and an address (like `#me@here.com`), and where a part without delimiter is ordinary (C88). Violated by comments over several lines (C114_not_comment, wanted) and by lines that begin with `#` and an address (C114_not_address)."},
 "C115": {"status": "partial", "note": "Proved for one index in a text without other delimiters, on a global variable without dots, with items without spaces around them, brackets nor braces, and no other closing bracket on the line. Violated when another closing bracket follows on the line: the index stays in the text (C115_not_bracket); a name with a dot calls another function (C115_not_dotted)."},
 "C116": {"status": "partial", "note": "Proved for one call in a text without other delimiters, without a selection or an index after a parenthesis, and without another closing parenthesis on the line. Violated when one follows on the line: the words up to it are taken as a part of the expression (C116_not_alone), even when the code is then not valid (C116_not_valid)."},
 "C117": {"status": "partial", "note": "Proved for the parts of `RazorPart` (C91, C113, C115, C116, C118 and lines without delimiter). Missing: comments over several lines, backticks, `autoWrap`, several indices or calls on one line, and the other kinds of expressions. Violated by comments over several lines and addresses after a sign (C114_not_comment, C114_not_address)."},
 "C118": {"status": "partial", "note": "Missing: a closing parenthesis after the one of the command on its line, a semicolon, a brace or a bracket in the expression, razor in the action. Violated by a parenthesis in the action (C118_not_alone) and by a semicolon in it (C118_not_semicolon)."},
 "C119": {"status": "partial", "note": "Proved for texts without a semicolon, with no closing parenthesis after the one of the command on its line, no closing brace in the action, no brace or bracket in the expression and no other razor."},
 "C12": {"status": "partial", "note": "The code violates the property: with two sources nested dictionaries of the first one are modified, and with one source when the target shares a dictionary (negations proved). Proved for any number of sources when the target is a tree apart from them and has a dictionary wherever two sources have different ones (so always for one source), with the converse: a modified source means such a place; also for sources without nested dictionaries and any target."},
 "C13": {"status": "partial", "note": "The code violates the property for dictionaries and lists inside lists (negations proved). Proved for every heap where lists hold scalars, for every interleaved history of writes by both sides."},
 "C14": {"status": "partial", "note": "Key sets are proved for all dictionaries. Values are proved when no nested list consists of a single list; the excluded case is a bug of Clone (negation proved). That the original is unchanged is part of C13."},
 "C15": {"status": "partial", "note": "The code violates the property: pluck always returns an empty list and pickv loses the requested keys (negations proved). The error behaviour of pickv is proved."},
 "C16": {"status": "partial", "note": "Proved for dictionaries without nil values; a key with a nil value is lost (negation proved) and the exact result for all dictionaries is proved."},
 "C17": {"status": "proved", "note": ""},
 "C18": {"status": "proved", "note": "For texts without the marker character as the property says; also with the marker unless an open backtick remains; concrete failures show the hypothesis is needed."},
 "C19": {"status": "proved", "note": "The extracted pieces are the unique left-to-right cut of the text into plain texts and complete literals."},
 "C20": {"status": "partial", "note": "Words proved for every text and width; the width is violated by one byte (and by the indentation, put on the last line): proved witnesses and the exact bound."},
 "C21": {"status": "partial", "note": "Proved up to two million columns of padding; beyond it the formatting library prints an error text (witness proved)."},
 "C22": {"status": "partial", "note": "Indent and the exact behaviour of UnIndent proved; UnIndent does not undo Indent when blank lines come first (witness), proved otherwise."},
 "C23": {"status": "proved", "note": "Unique greedy leftmost positions, non-overlapping, complete, and equivalent to ReplaceAll."},
 "C24": {"status": "partial", "note": "Proved for byte strings; violated for characters with separator bytes in their UTF-8 form (witness); proved for the other texts."},
 "C25": {"status": "proved", "note": "Never fails, delimited result at a position not after the requested one; matching delimiter in the single-character case; witnesses show that the context may not hold the position and may not be balanced."},
 "C26": {"status": "partial", "note": "All proved except that Split2 panics for two empty texts (witness)."},
 "C27": {"status": "partial", "note": "Slices of lists and texts follow the bounds rule; fails when both bounds fall before the start, for bounds beyond the range of machine integers and for text bounds after the end (witnesses proved)."},
 "C28": {"status": "proved", "note": ""},
 "C29": {"status": "proved", "note": ""},
 "C30": {"status": "proved", "note": ""},
 "C31": {"status": "proved", "note": ""},
 "C32": {"status": "partial", "note": "Exact as long as inputs and partial results are at most 2^53 in absolute value; counterexamples proved beyond."},
 "C33": {"status": "partial", "note": "Bounds up to 2^53 in absolute value (less the step for stop, which C34_not_end shows to be necessary); for steps of a million or more with several digits the bounds are divided by a power of five, because the exponent of the notation is counted as decimals (C33_not_large_step shows a wrong result beyond); error cases for all inputs."},
 "C34": {"status": "partial", "note": "Proved for integers (C33) and non-negative decimals (C66); three inputs proved to loop for ever."},
 "C35": {"status": "partial", "note": "Proved for the expressions of the predicate Covered: the translation succeeds and parsing its text with the grammar of Go templates gives the operation tree; the refused expressions are characterised for all expressions. False for literals with $ or *, methods of the context with arguments nested in another operation, calls of the result of a call, and variables named slice (witness theorems)."},
 "C36": {"status": "partial", "note": "Completion proved for all nested index expressions and, as a single pass, for every text; meaning of the completed bounds proved through slice. False for index keys that contain a colon inside quotes (witness C36_not_quoted_colon): they are split, so only the part about the generated call is partial."},
 "C37": {"status": "partial", "note": "Proved for every expression, operator, validation mode, left and right delimiters and every dotted name, with the razor delimiter @. False for other razor delimiters (the code compares with a literal @) and for names with dashes: witnesses proved."},
 "C38": {"status": "partial", "note": "The generated rules are shown to be the default rules with the delimiters renamed, for the rules and replacements where this holds; it is false for the 'function' abbreviation, for [expr] classes and for replacements with }} after a brace (witnesses)."},
 "C39": {"status": "partial", "note": "Proved, for any history of templates, for delimiters without blanks; the key of the cache joins the delimiters with blanks, so that two sets with blanks can share a key (witness)."},
 "C40": {"status": "partial", "note": "Proved for contents without triple backticks and without the marker of the translation; the two remaining cases are shown to violate the property. The other rules are a parameter."},
 "C41": {"status": "partial", "note": "False for arbitrary schedules (two witnesses: another goroutine's string, a panic); proved for every interleaving in which the save of a string is not interrupted."},
 "C42": {"status": "partial", "note": "Proved for contents without any delimiter (C42_untouched_partial), with right delimiters only when the engine copies plain text (C42_right_partial), and for no-gotemplate! contents (C42_disabled_partial), without substitution, script line or placeholder texts. The full statement is false: a substitution, a first line that calls gotemplate, or placeholder texts change the content while it is reported as unchanged (C42_not_*). C42_razor_off: without the option the rules of razor have no effect."},
 "C43": {"status": "partial", "note": "C43_lines proves which delimiters are protected line by line and that the protection is undone; C43_emitted_partial proves that copied lines come out as written, given that the engine copies lines without delimiter. Violations: go template code in a razor-only pause sees the placeholder (C43_not_code); placeholder texts in the source (C43_not_written). After a retry: C43_retried_partial; violated when the faulty line is the one that begins the pause (C43_not_retried)."},
 "C44": {"status": "partial", "note": "C44_strict and C44_lenient_partial cover every engine, content and file name except extensions that are a part of '.gt,.gte,.template' (C44_not_extension) and errors on added lines, which panic (C44_not_panic)."},
 "C45": {"status": "partial", "note": "C45_code, C45_detected and C45_accepted hold for every rendering that succeeds at the first try; C45_restored_partial for texts without the marks. Violations: marks in the source (C45_not_mark), literals in code (C45_not_literal), no search after a retry (C45_not_retry)."},
 "C46": {"status": "partial", "note": "Names, untouched files, printing, backups and interruptions proved for files with an ordinary name (C46_name .. C46_replaced). Violations: an existing .original file is lost (C46_not_backup), overwriting is not interruption safe (C46_not_overwrite), one folder written in two ways (C46_not_folder), a template named .gt (C46_not_hidden), a.gt and a.template (C46_not_distinct), permissions of scripts (C46_not_mode), printing Terraform files panics (C46_not_terraform)."},
 "C47": {"status": "partial", "note": "Proved when no file panics. Violations: the printing option stays on after the batch (C47_not_restored), a panic aborts the batch (C47_not_panic)."},
 "C48": {"status": "proved", "note": ""},
 "C49": {"status": "partial", "note": "User data is never overridden (C49_kept, C49_added, C49_new); every name is defined unless the context already gives the value to one of them (C49_defined_partial). Violation: C49_not_defined."},
 "C50": {"status": "partial", "note": "Restoration, the variables of sub-templates, the reply and the second attempt are proved for every execution; existing values are kept when no single dictionary is given and the sub-template modifies only what it creates. Violated: the argument dictionary is modified, the caller's context can be modified through _, nested includes with the same dictionary make the context cyclic. Looking for templates and their execution are parameters."},
 "C51": {"status": "partial", "note": "Proved for every iteration order when the aliases of the registered set make no conflict. Violated otherwise: a shared alias depends on the order, a function named as an alias is lost, predefined functions replace those of the user in rendering contexts, aliases have no examples."},
 "C52": {"status": "partial", "note": "Without links: exactly the folders within the depth, once each. With links: soundness, completeness when nothing is too deep, termination when links are acyclic. Termination for cyclic links, uniqueness and the depth limit through links are refuted by witnesses."},
 "C53": {"status": "partial", "note": "Last source wins, errors, and what each kind of source gives are proved for all command lines. Unnamed values are lost and an empty file name is accepted: shown by witnesses."},
 "C54": {"status": "proved", "note": "Patterns and exclusions are characterised for all lists and all matching functions. An invalid pattern may go unreported (C54_not_reported)."},
 "C55": {"status": "partial", "note": "For ASCII separators acceptance, deletion and order are characterised for all texts and any regular expression library. Non-ASCII separators, blank replacements and an escaped final dollar are refuted by witnesses."},
 "C56": {"status": "partial", "note": "Proved: independence from the registration order, first accepting format, texts, refused data, and the simplified form for words without blanks and colons. The code violates the rest, proved with witnesses: colons and quoted blanks in simplified values are altered, plain texts with a colon are refused although a format accepts them, and without formats any data is accepted."},
 "C57": {"status": "proved", "note": "Also proved: the replacement loses the difference between a map and a list of one map (C57_not_injective)."},
 "C58": {"status": "partial", "note": "Identifiers are written bare and other keys are written as literals that read back as the key, except that the regular expression accepts [, \\, ], ^ and a backquote as first character: the negation is proved with a witness."},
 "C59": {"status": "partial", "note": "Proved: native result, idempotence, content, structures, JSON and YAML numbers. The code violates totality and content in places, proved with witnesses: a structure with a nil pointer field makes the conversion panic, only the last of several fields with the key tag survives, null becomes an empty dictionary, and large floating numbers become the smallest integer."},
 "C60": {"status": "partial", "note": "Proved: quoting as Go literals, one bash word, the variables in order with the right declarations, and the reading by bash of texts, lists and associative arrays without characters special for bash. The code loses data otherwise, proved with witnesses: empty and nil elements, newlines, characters such as ; and $, names of variables."},
 "C61": {"status": "partial", "note": "IIf, Default and IfUndef are characterised for all values by the empty values; structures are never considered as zero values, the negation is proved with a witness."},
 "C62": {"status": "partial", "note": "Proved: conversion at every depth, idempotence, scalars, content when keys differ as texts and without pointers, printing when there are no native maps. The code violates the rest, proved with witnesses: printing changes for native maps, nil pointers make it panic, conversion of pointers depends on the siblings, keys that print alike lose values."},
 "C63": {"status": "partial", "note": "C63_terminates_partial and C63_reported_partial for errors on lines with code; C63_stable shows the bound of the model does not matter. Violations: endless retries (C63_not_terminates) and an error that is not reported (C63_not_reported). C63_replaced says exactly which text is replaced before a retry."},
 "C64": {"status": "proved", "note": "numbers are assumed to have a non-empty printed form, which all Go numbers have"},
 "C65": {"status": "proved", "note": ""},
 "C66": {"status": "partial", "note": "Proved for non-negative bounds except for the presence of stop itself; counterexamples proved for stop."},
 "C67": {"status": "proved", "note": ""},
 "C68": {"status": "proved", "note": ""},
 "C69": {"status": "partial", "note": "C69_kept_partial covers renderings without retry. Violation: retries change the context (C69_not_kept)."},
 "C70": {"status": "partial", "note": "Proved: priorities for dictionaries given alone and for arguments by position, ARGS, contexts that are no dictionaries; nothing is modified if no key leads to dictionaries in two of the given dictionary, the default values and the context (C70_kept_partial). Violations with witnesses: a call modifies nested default values, later calls see the context of earlier ones (C70_not_defaults); a text given alone is converted to data (C70_not_text), a nil given alone is not bound (C70_not_nil)."},
 "C71": {"status": "partial", "note": "Proved for every order when each setting is given once. Violations with witnesses: two names of a setting make the result, or its acceptance, depend on the order of the map; the configuration of the user is modified; blank arguments and numbers as group panic."},
 "C72": {"status": "partial", "note": "Proved for every nesting: the internal form, the form for Terraform variables and the form with blocks are read back to the data by an independent reader, and the text does not depend on the order of maps (C72_order, complete). Excluded, with witnesses: texts with the internal marker, texts of several lines that end with a blank when there is an indentation, and for blocks: null under a key, several maps with labels in a list, empty maps under two keys. Keys that start with one of six characters between Z and a: see C58."},
 "C73": {"status": "partial", "note": "Proved for all environments: which conditions give zero (both directions), failures give 1 or -1, nothing is processed before everything is prepared, the meaning of 1, 3 and -1, cleaning. Violated with witnesses: arguments that cannot be read give zero and leave the temporary folder; errors of the formatting are ignored; after an invalid exclusion some files are still processed."},
 "C74": {"status": "partial", "note": "Proved: folders, options, the exact list of files (order, exclusions, default patterns, standard input), templates that begin with @. Violated with witnesses: values of options that begin with @ are changed, templates that begin with the internal mark lose it, the default of overwriting in another folder has no effect."},
 "C75": {"status": "partial", "note": "Proved: complete, sorted, once each, independent of the order of the map; categories and sections partition the names; filters without a blank keep exactly the names in which they are found; the five columns are a permutation, readable in order. Violated with witness: a filter with a blank is also found over two neighbouring names."},
 "C76": {"status": "partial", "note": "Proved for all dictionaries, keys that are not nil nor dictionaries, and values. Violated with witnesses: nil before the dictionary is taken for an empty dictionary; set on nil succeeds without effect; keys of different types with the same text are one key; content keeps one of two entries with the same key. Native maps are not modelled here."},
 "C77": {"status": "partial", "note": "Proved for all values; strict forms for elements that are not collections. Violated with witnesses: an empty list does not contain all elements of nothing; with several elements a text is not searched; strict forms fail on collections."},
 "C78": {"status": "partial", "note": "Proved for every text with the replacement of one character (not * ^ | $), over any table of letters. Violated with witnesses: the result can begin with a digit or be empty; a replacement of several characters can be repeated; a replacement with $ stands for what is replaced."},
 "C79": {"status": "partial", "note": "repeat and mergeList proved without restriction. formatList proved except for a list whose only element is a list. The result of raw proved for any number of values that are not empty and, if they have spaces, have no quote and no end of line, in texts where the mark is not elsewhere. Violated with witnesses: formatList on a list of one list; raw of one value does not mark it; empty value; value with spaces ending with a quote; value with spaces and an end of line."},
 "C80": {"status": "partial", "note": "Proved for every text, with the preferences of the regular expression. Violated with witnesses: with two arguments or more on the first line no program is recognised; after #! alone on its line, a second line of one or two words is taken for the program."},
 "C81": {"status": "partial", "note": "Proved for every text and list of arguments (without wildcards, the general case being C81_glob), the program and its argument having no space of Unicode. Violated with witnesses: in a text run by the shell arguments are not separate and what they say is run; a file with only an unknown word gives no command and no error; a file with several lines and no program is taken for one command; a script with two arguments on its first line is run by the shell."},
 "C82": {"status": "partial", "note": "Proved for every history. Violated with witnesses: an alias of a file is not known by the next file of the same folder but is by one of another folder; an alias that is local is known elsewhere; an alias with the name of a function has no effect; an option that is turned off leaves its functions."},
 "C83": {"status": "partial", "note": "Proved on a model of folders and files without links and without refusals of permissions; C83_load and C83_frame for every path, C83_save (exact condition) for paths made of names. Violated with witnesses: nil and the empty list are saved as an empty file; two missing folders are an error; a path that ends with a slash is an error but makes a folder; exists is an error below a file."},
 "C84": {"status": "partial", "note": "Proved for any arithmetic whose reader refuses what is printed for lists, dictionaries and nil; C84_each_partial and C84_product need two numbers in the first list. Violated with witnesses: a list of one number gives a number and an empty list nil; add forgets the arguments after the second when the first is a list; mul of a number and a text is an error although mul of a text and a number is not; add of nil to a list, and of a list with one list that is not of numbers, is an error; values that are not texts are separated by a space."},
 "C85": {"status": "partial", "note": "C85_expand, C85_lossless and C85_unclosed for every line without the character used for the marks (see C18); C85_elements_partial for lines without a percent sign and lists that are not one list in a list. Violated with witnesses: a percent sign before or after is read as a part of the format (C85_not_percent)."},
 "C86": {"status": "partial", "note": "proved except: the code is named inline in the table, so that a file of that name is hidden; the second attempt translates the code by razor again (a literal @ becomes a variable); a file that contains its own name cannot be included"},
 "C87": {"status": "partial", "note": "proved: arguments, code of the call, errors, exec and data; the result of ellipsis is what its text gives when executed as a template and read as data, which is not always the value of the function"},
 "C88": {"status": "proved", "note": "proved for the 165 rules made for the default delimiters; the regular expressions are parsed and searched in the model"},
 "C89": {"status": "proved", "note": "proved for texts without backtick, ${, code in strings or comments, nor marks of the translation; false if the mark of a literal @ is in the text"},
 "C90": {"status": "partial", "note": "proved unless the text begins with #; addresses without a dot are razor code"},
 "C91": {"status": "partial", "note": "Proved for any number of variables, global and local, with the signs that reduce the spaces. Global names that begin with else or end, and the name for, are left out (the first two are translated wrongly: C91_not_name), and so are global names with dots, names followed by - or by a parenthesis, and delimiters right after a name."},
 "C92": {"status": "partial", "note": "Proved for names of ASCII letters, digits and underscores, if no ignored name comes just after another razor expression; any regular expression only hides delimiters. Violated with witnesses: the order matters for @foo@bar, @@name is no longer a literal delimiter, alternatives are not grouped, names that end with other letters, special delimiters."},
 "C93": {"status": "partial", "note": "The temporary file is left when it cannot be written (C93_not_removed). A file that names a program that does not exist gives neither a command nor an error (C93_not_reported). The interruption of the program itself is not modelled."},
 "C94": {"status": "partial", "note": "When files of different folders define the same name, the definition that remains depends on the order of iteration of a map (C94_not_deterministic); C94_exact gives what it may be. The parser is a parameter and what a file defines is supposed not to depend on the files before it; the names of the extension files themselves are left out."},
 "C95": {"status": "partial", "note": "A second execution that fails in a folder is a panic and the folders after it are not formatted (C95_not_all); the other theorems suppose that it does not happen. The text of the errors, which has neither the folder nor the cause, is not modelled; `main` ignores the errors."},
 "C96": {"status": "partial", "note": "Proved for HCL files and single values, with the round trip of what C72 writes faithfully, with an own reader in place of the library; for YAML the mappings whose keys are printed in different ways, and documents without tabs. The code violates the rest: entries after a first value are dropped without an error in HCL; a tab inside of a text becomes four spaces and two keys printed alike lose an entry in YAML (negations proved). Nulls become empty dictionaries (C59)."},
 "C97": {"status": "partial", "note": "Proved: numbers (arguments or one list), several arguments compared as texts, independence from the order, exactly which calls fail. Violated, with theorems: the smallest of a list of texts is the text of the whole list (C97_not_list), one text among numbers changes their order to the order of texts (C97_not_numeric), a list followed by a number is compared as a text (C97_not_nested), the empty list and nil are errors (C97_error)."},
 "C98": {"status": "partial", "note": "Proved for every value: what is read, one line, order, the literals of the quoted forms. C98_reload_partial: reading again, for data without nil, with floats that have a fraction and integers of at most 53 bits; C98_whole_float: other floats become integers. Violated, with theorems: the quoted JSON of a text with a delete character, or a character above 65535 that is not printable, is not JSON (C98_not_quoted_json; exact condition in C98_quoted_json_partial), nil is read again as an empty dictionary (C98_not_null), larger integers change (C98_not_large). The writer and the reader of the library are modelled; how floats are written is a parameter."},
 "C99": {"status": "partial", "note": "Proved for every number through the floating point number it is read as (itself if it has at most 53 bits), when that is below 2^63. Violated, with theorems: more digits may be rounded up to the next integer before (C99_not_digits) and from 2^63 on the results are the smallest integer (C99_not_large)."}
}
