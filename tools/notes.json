{
 "C01": {
  "note": "All states, all strings for which the call returns."
 },
 "C02": {
  "note": "Classification and fields proved in full; the trimming claim is false in two cases (witnesses proved)."
 },
 "C04": {
  "note": "Exact for lines in standard form; five classes of counterexamples proved."
 },
 "C05": {
  "note": "False for lines whose text starts past the last column (witness); proved otherwise."
 },
 "C08": {
  "note": "Idempotence of make_uncontinued and exact restoration of the gap fail for witnesses given; everything else in full. The changed line is printed and read again as exactly that line (free format, outside a character context); violations for a second mark, text behind the mark, open strings."
 },
 "C09": {
  "note": "Flags in full; printed text kept except for short fixed-format control columns (witness)."
 },
 "C10": {
  "note": "The comment is lost in both cases (witnesses); category result and the comment-free case proved."
 },
 "C11": {
  "note": "Text preservation in full for statement lines; column and return value proved outside the cases with witnesses (fixed format, uninitialised offset, throwing insert, C-style comments)."
 },
 "C12": {
  "note": "Setting a positive label in full; clearing and the return value fail (witnesses)."
 },
 "C13": {
  "note": "Leading blanks are dropped, all-blank text is kept (witnesses); the rest proved."
 },
 "C45": {
  "note": "Six digits are accepted in both forms (witnesses)."
 },
 "C46": {
  "note": "Exact boundaries in full for both formats; homogeneity in full for fixed format; in free format a directive inside a continued statement joins it (witness)."
 },
 "C06": {
  "note": "All inputs for which the scan succeeds; outcome on ASCII text."
 },
 "C07": {
  "note": "All inputs for which the scan succeeds; outcome on ASCII text."
 },
 "C35": {
  "note": "All file names."
 },
 "C37": {
  "note": "simple_tokenize steps past the end unless the text ends in white space (witness); the words are right when that step is ignored. Everything else in full."
 },
 "C38": {
  "note": "Rendering in full. The lower-case cache is right unless a reference is written through after a query (witness)."
 },
 "C14": {
  "note": "All sequences of lines; the file column must be positive, as the code asserts."
 },
 "C32": {
  "note": "All histories."
 },
 "C22": {
  "note": "False: the condition for real literals survives the end of a line, so e1 = 2 after x = 1.0 is read as an exponent (witness). Proved for every line that cannot be read as the rest of a real literal, and for every history that ends in the initial condition."
 },
 "C23": {
  "note": "The whole table; all words."
 },
 "C36": {
  "note": "Registration in full for all histories; is_name reads past the table for registered tags, and the type -1 is accepted (witnesses)."
 },
 "C47": {
  "note": "All ASCII texts and all scanner states between lines; other bytes are undefined behaviour (7-bit scanner)."
 },
 "C48": {
  "note": "All words and contexts; the model of the scanner is the rule list of scan_fort.l under flex's longest-match, first-rule discipline."
 },
 "C15": {
  "note": "Positions proved for every token that is not half of a fused keyword, on layouts without comments between continued lines and without form feeds; each restriction has a witness."
 },
 "C16": {
  "note": "All token lists."
 },
 "C49": {
  "note": "Proved without fused keywords and without tabs inside the text; a fused keyword behind another token makes render read an uninitialised count (witness)."
 },
 "C17": {
  "note": "Tokens and statements in full for all token lists; a fused keyword makes the reformatting read an uninitialised count (witness)."
 },
 "C18": {
  "note": "Outcome in full; text and line structure for layouts made of statement and comment lines; each restriction has a witness."
 },
 "C42": {
  "note": "Any sequence of edits of tokens that are on one line, on lines with good positions; that freshly built lines have them is proved for layouts without comments and fused keywords.  Witnesses for stale end columns, comments, fused keywords and split tokens."
 },
 "C19": {
  "note": "In full for every file just scanned (free and fixed format); for arbitrary lines, a suppressed line with statements fails an assertion and a macro line with statements gives an empty statement (witnesses)."
 },
 "C50": {
  "note": "Every history for sources created with do_advance; without it a test loses the first statement (witness)."
 },
 "C51": {
  "note": "All texts."
 },
 "C28": {
  "note": "Every history of the modelled operations over any number of lists, as long as clear() is not followed by a use of an old end(), remove_if does not accept T(), and a moved-from list is only destroyed or assigned to; witnesses show that each of these matters."
 },
 "C29": {
  "note": "Every history; push_back of a non-adjacent piece with the same end is dropped silently (witness)."
 },
 "C30": {
  "note": "Every history over any number of trees; the code fails exactly where the specification refuses.  Tree(false), a tree with a root list but no root, is not modelled."
 },
 "C31": {
  "note": "All well linked trees (all that C30 histories build), all positions, all counts; with a count above one a failing try_ has moved the cursor part of the way (witnesses)."
 },
 "C24": {
  "note": "move_to_open_paren in full; move_to_close_paren for the shapes for which it works; witnesses for empty parentheses, nesting, the end of the stream and brackets."
 },
 "C25": {
  "note": "All rule functions but procedure_designator, all parser terms without a moving negation; both exceptions have witnesses."
 },
 "C26": {
  "note": "All rule functions and the dispatcher on well-nested statements, with any well-behaved extensions; witness for an unbalanced statement."
 },
 "C27": {
  "note": "All registration histories and streams."
 },
 "C52": {
  "note": "Whole grammar, by a rank on rules and the number of tokens left."
 },
 "C53": {
  "note": "All tags but those of import_stmt, interface_stmt (witnesses) and loop_control (no statement)."
 },
 "C54": {
  "note": "All tags but SG_SYNC_IMAGES_STMT (witness)."
 },
 "C55": {
  "note": "All rules on well-nested statements unless the rule can call procedure_designator and the statement ends in a closing parenthesis (witnesses: allocate with stat=, and the first statement of every where or forall construct)."
 },
 "C56": {
  "note": "All tags; trees for the built-in alternatives."
 },
 "C57": {
  "note": "False for every such statement; nothing but the violation is provable."
 },
 "C33": {
  "note": "Any ascending run of appends gives ordered, adjacent, exact regions. Looks and validate need at least two regions in use; insert needs the region to be the first one. Witnesses show the failures for one region, fresh partitions, insert and emplace_stmt."
 },
 "C39": {
  "note": "Order, ranges and leaves for every grammar; complete cover when no parser gave up in the middle (then statements are lost, see the violations). A statement that ends several loops is a leaf once per loop."
 },
 "C40": {
  "note": "No undefined behaviour and no leaf past the end on whole lists of statements on which the statement parsers are defined. Violations: states over a part of a list; a tree attached to the hidden end element. The first statement of a where or forall construct also runs into undefined behaviour."
 },
 "C58": {
  "note": "Holds unless a sequence or do construct gave up after its first statement; then the state is not rewound (violation)."
 },
 "C59": {
  "note": "Whole lists of statements; a do loop over a part of a list need not return (violation)."
 },
 "C60": {
  "note": "Exact tree and label stack for nests of any depth with labels used once. Shared last statements are not covered; violations for labelled end do of an unlabelled loop, crossed loops, stale labels."
 },
 "C41": {
  "note": "Every procedure node of every parsed tree is ingested with the right regions and trackers, if no statement belongs to two of its regions. False for a main program that is nothing but an end statement: an assertion fails."
 },
 "C65": {
  "note": "For every rule of the library and all extensions that go forward and take a token."
 },
 "C21": {
  "note": "Field claims in full for every conversion that finishes. Re-reading proved for files that avoid the listed cases; eleven witnesses show each excluded case goes wrong (fused keywords, comments, blank lines or directives inside a statement, c#flpr, include-like or empty continuation lines, overflow behind a string, leading number, ampersand, label-only lines)."
 },
 "C34": {
  "note": "Proved for every tree, table and file that is indented without an error: each line ends in the columns the constructs around its statement add up to, only blanks change, and other lines stay. Defined for parsed programs whose lines can be moved, with nonnegative tables. Indenting again changes nothing if no statement ends several loops. Violations: negative entries, labelled loops and block declarations not indented by the standard tables, continued lines with a comment moved left."
 },
 "C20": {
  "status": "partial",
  "note": "Tokens: in full for every successful split.  Text: in full when the positions are right, comments are apart and the text is that of the tokens (shown for lines just read).  Files: split_compound_before and isolate_stmt in full on every file whose statements are those of its lines (shown for every file just read).  Missing: lines with comments between continued lines, fused keywords, edited lines (witnesses); the statement in front of the split is left with a dangling end iterator (witness)."
 },
 "C63": {
  "note": "Exact (both directions) for 86 tags; function, subroutine, type guard and type declaration exact up to intrinsic type names used as names; implicit only that recognised statements have the form. Not covered: about 34 tags (assignment, call, allocate, data, input/output, sync and the like). Violations: construct name of rank statements, .eqv. as defined operator, procedure(real(8)), coarray components."
 },
 "C61": {
  "note": "Insertion exact and total; replacement up to blanks under stated conditions on comments in the range; replace_main_text for at least as many texts as lines. Violations: continuation mark dropped when text of a continued line is replaced, code of a commented middle line kept, comments lost, out_of_range for the only token of a continuation line, comment lines shift the line that is edited, stale columns after replace_fragment, added lines without marks, fewer texts always assert, fused keywords."
 },
 "C62": {
  "note": "Effect exact for all lines; reading again exact for free-format ASCII lines outside a character context (not for a line with nothing but a label). Violations: comment inside a continued string, label-only line, preprocessor lines, fixed-format names that go on on the next line."
 },
 "C64": {
  "note": "Insertion and label exact (insertion not at the end of the file). Text edits: what Logical_Line does (C61) on the line of the isolated statement, everything else unchanged, provided the statement is the first of its line or the line has no label; insert_text_after only if the line still has one statement. Violations: statement behind a label, append to a statement followed by another, leading semicolon, text with a further statement, removing a label, insertion at the end."
 },
 "C66": {
  "note": "Exact (C66_visit): the calls are those for the procedures inside of at most one other, in order, with the right flags; C66_found says what these are and that none comes twice. Violation: the grammar lets an internal subprogram contain further ones, which are not visited (C66_all_partial excludes them). The structure of the tree is taken not to change while visiting. C66_ingest_partial has the exceptions of C41."
 },
 "C67": {
  "note": "Proved for files that the program parser accepts (C67_asks_partial, C67_indent_partial; C67_parser: there is exactly one such parser). Violations: read_file returns true exactly when reading failed (C67_violation_result, for all inputs); a file with statements that the parser does not accept makes parse_tree fail an assertion instead of becoming bad (C67_violation_parse, for all such files). The text is shown to be kept for free format only (C67_text)."
 },
 "C68": {
  "note": "C68_only holds for every outcome. C68_trees_partial and C68_syntag_partial leave out the leaves that end the inner ones of do loops with a shared last statement (the outermost has it), and C68_syntag_partial is for no extensions."
 },
 "C69": {
  "note": "C69_name_partial is for procedures that ingest takes (see C41) and first statements with properly nested parentheses; C69_labels has no such restriction."
 },
 "C70": {
  "note": "C70_complete_partial says what is appended, to which statement, and that all else stays when the call returns; that the call returns, and what the lexer makes of the statement with the appended text, is left to C61/C64. C70_rename_partial is for procedures that have a first statement, whose first and last statements have nested parentheses, and files whose name tokens are each on one line; C70_violation_headless proves that a main program without a program statement cannot be renamed."
 },
 "C71": {
  "note": "C71_split_partial and C71_statements_partial are about calls that return, for lines whose statements are up to date and whose layout has no blank lines inside a statement; C71_split_returns gives when they return (the statement begins before column 75 and the spaces before its tokens are known), and C71_violation_fused that it is undefined behaviour otherwise. C71_violation_labels proves that every statement of a labelled line gets the label, C71_violation_remove that remove_empty_stmts changes nothing, C71_violation_output that without the options o and q the decision to write reads an uninitialised member."
 },
 "C72": {
  "note": "C72_builds is for every rule, C72_dispatch for parse_stmt_dispatch; C72_call unrolls it for call statements. Which tokens the branches cover is C26."
 },
 "C73": {
  "note": "C73_call is for any action statement; C73_none, C73_used_partial and C73_unchanged are about whole procedures. C73_violation_use: when a use statement has to be added, the call never comes back, because of emplace_stmt (C33). C73_used_partial also shows that the answer is true though nothing changed. Missing: calls in a statement that several labelled loops share."
 },
 "C74": {
  "note": "C74_reread_partial is for files whose physical lines are steady (SteadyLayout) and tables with a positive continuation offset. Missing: continuation lines in column 1 without an ampersand (C74_violation_column: a split string gains a blank), comments that hide a directive behind blanks (C74_violation_directive), trailing comments without a blank in front (their spacing changes), statements that begin with #, labels without text, and non-ASCII text. C74_tree_partial and C74_again_partial: the tree of the file read again is the same, and indenting it once more writes the same text."
 },
 "C75": {
  "note": "All rules and states. Extensions are asked to respect the equivalence as well (Indifferent), since they are code of the user."
 },
 "C76": {
  "note": "C76_violation_directive: `!#FLPR` is a comment while `!#flpr` is a directive, so lines with the mark are asked to be equal in the other theorems."
 },
 "C77": {
  "note": "The code does not do it where the standard allows it: C77_violation_string and C77_violation_fixed_string (comment line within a continued character string), C77_violation_blank (blank line within a continued free-format statement). Comments at the end of fixed-format lines are not covered."
 },
 "C78": {
  "note": "Fails for `where (mask)` alone, the first statement of a where construct, which the program parser gives to this parser: undefined behaviour for every mask (C78_violation_where). Function references as variables (`f() = 3`) and alternate returns (`call s(*10)`) of the standard are not recognised."
 },
 "C79": {
  "note": "The property a user expects (recognised exactly in the form of the standard) fails wherever a variable is named in parentheses: undefined behaviour (C79_violation_*). Partial for select type and rank (`=>` within a selector without a new name) and for allocate (`::` within the bounds without a type, keywords of intrinsic types in a statement with a derived type)."
 },
 "C80": {
  "note": "Where there is something to insert, caliper does not come back: emplace_stmt never returns (C33), so C80_violation_emplace holds for every procedure that is neither internal, empty nor pure. What follows the first emplace_stmt is therefore not modelled, apart from the choice of the label. C80_count_partial leaves out execution parts with a statement at which several loops end."
 },
 "C81": {
  "note": "C81_output_complete and C81_violation_output ask that no item begins with parentheses that have an equals sign in them and go on behind them, as in `(i=1)*2`; no expression does. Of read statements only the two undefined cases are proved; what is missing is that the others are recognised just if they have the form of the standard. Statements with image selectors are left out."
 },
 "C82": {
  "note": "C82_statements_partial asks that the lines that are split are Ready as in C71; C82_ready says for a file just read that these are the lines of statements without blank or preprocessor lines in them and without a stray ampersand, and C82_scanned_partial puts the two together. It is about the tokens in the lines that are written; that their text, read again, gives these tokens is proved for lines that are not split (C82_reindent_partial, free format, lines that indenting does not change as in C74). What is missing is reading again lines that were split, and fixed format. C82_returns is for files that no filter changes and that the parser accepts."
 },
 "C83": {
  "note": "C83_again_partial and C83_program_partial leave out the tags for which the property fails (lostTags, client extensions; for the six tags the theorem is an equivalence), and as in C68 the last statement of inner shared loops. C83_replace_partial leaves out a replacement with the tag that the statement has, where it fails for every statement (C83_violation_replace)."
 },
 "C84": {
  "note": "C84_action_partial and C84_if_action_partial leave out statements that end in `)`, for which an earlier kind of statement may be undefined; C84_if and C84_action cover those, in terms of where the inner parsers are undefined. The order of the kinds is for a parser without extensions."
 },
 "C85": {
  "note": "C85_peek_partial leaves out a peek(k) by more than one token beyond the end of the statement; C85_violation_peek and C85_violation_consume show that it reads the next statement of the line there. C85_violation_open: the text of a capture that was not ended is undefined."
 },
 "C86": {
  "note": "The statement is exact for all four parsers. The C86_violation theorems say where that differs from the Fortran standard for import and interface statements; C57 has the same for submodule statements."
 },
 "C87": {
  "note": "Exact for statements whose parentheses nest. C87_violation_where and C87_violation_where_construct: the program is not defined for a line `where (m)`, which begins a where construct."
 },
 "C88": {
  "note": "C88_good_partial leaves out parsers that can get to procedure_designator. For these the condition is false: C88_violation_good has it for the extension of ext_demo, with `write(6), (a)`. The conditions good, starsTake, treeEnds and calls are tests of the term of the parser, computed; all rule functions of the library pass the first two."
 }
}