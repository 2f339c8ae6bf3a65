{"id": "C01", "title": "Free-format line analysis keeps every character", "statement": "Whenever File_Line::analyze_free returns a File_Line for a raw line, printing that File_Line reproduces the raw line character for character, whatever open character context, continuation state and literal-block state the line is analysed in.", "quantifier": "every raw line (any length, any characters), every previous open delimiter, both values of prev_line_cont and in_literal_block", "why_tests_cant": "There are unboundedly many lines and states; a test only samples spellings of labels, ampersands, comments and quotes.", "anchors": ["src/flpr/File_Line.cc: File_Line::analyze_free, find_trailing_free, operator<<"]}
{"id": "C02", "title": "Free-format analysis gives each line exactly one category and well-shaped fields", "statement": "A File_Line returned by analyze_free is in exactly one of the categories blank, comment, preprocessor, include, FLPR directive, FLPR literal, Fortran; for non-Fortran categories all text is in left_txt; for Fortran lines left_space and right_space are whitespace only, main_txt is non-empty-or-a-continuation, does not start with whitespace unless inside a character context, and does not end in a blank or tab unless the line ends in an open character context.", "quantifier": "every raw line and every incoming state for which analyze_free returns", "why_tests_cant": "Classification is decided by the interaction of many tests on the text; exclusivity over all texts cannot be sampled.", "anchors": ["src/flpr/File_Line.cc: File_Line::analyze_free", "src/flpr/File_Line.hh: File_Line::is_fortran, is_trivial"]}
{"id": "C03", "title": "Trailing comment and continuation are found exactly outside character contexts", "statement": "In a Fortran free-format line the text put in right_txt starts at the first '!' or the continuing '&' that lies outside every character context, and open_delim equals the delimiter of the character context (if any) that the line leaves open, as defined by an independent left-to-right quote automaton.", "quantifier": "every raw line, every previous open delimiter", "why_tests_cant": "Needs agreement with the quote automaton on every string, including doubled quotes and quotes inside comments.", "anchors": ["src/flpr/File_Line.cc: find_trailing_free, analyze_free"]}
{"id": "C04", "title": "Fixed-format line analysis keeps the text", "statement": "Printing the File_Line that analyze_fixed returns for a raw line reproduces that line (with tabs in the control columns expanded).", "quantifier": "every raw line, previous delimiter and last_column", "why_tests_cant": "The control columns, labels, tabs and truncation interact; only a proof covers every line. The property is false for some lines, which tests had not found.", "anchors": ["src/flpr/File_Line.cc: File_Line::analyze_fixed, operator<<"]}
{"id": "C05", "title": "Fixed-format text past the last column never reaches the Fortran text", "statement": "With last_column > 0, every character of main_txt of a line returned by analyze_fixed comes from a column that is at most last_column.", "quantifier": "every raw line, previous delimiter and last_column", "why_tests_cant": "The truncation point interacts with tab expansion, comments and character contexts for every line length.", "anchors": ["src/flpr/File_Line.cc: File_Line::analyze_fixed, find_trailing_fixed"]}
{"id": "C06", "title": "Free-format scan partitions the file in order", "statement": "When Logical_File::scan_free succeeds, concatenating the layouts of the resulting Logical_Lines gives exactly one File_Line per input line, in input order with line numbers 1..n, no Logical_Line is empty, and printing all of them reproduces the file.", "quantifier": "every list of raw lines", "why_tests_cant": "The grouping depends on the whole history of continuation, literal and preprocessor state; lines could be dropped or duplicated at any boundary or at end of file.", "anchors": ["src/flpr/Logical_File.cc: Logical_File::scan_free", "src/flpr/Logical_Line.cc: Logical_Line::print"]}
{"id": "C07", "title": "Fixed-format scan partitions the file in order", "statement": "When Logical_File::scan_fixed succeeds, concatenating the layouts of the resulting Logical_Lines gives exactly one File_Line per input line, in input order with line numbers 1..n, and no Logical_Line is empty.", "quantifier": "every list of raw lines and every last column", "why_tests_cant": "Look-ahead over comments and continuation lines can drop or duplicate a line at any boundary.", "anchors": ["src/flpr/Logical_File.cc: Logical_File::scan_fixed"]}
{"id": "C08", "title": "Continuation toggles are idempotent and mutually inverse", "statement": "make_continued makes is_continued() true, make_uncontinued makes it false, both are idempotent, neither changes left_txt, left_space or main_txt, and make_uncontinued after make_continued on a free-format line restores the text of the line.", "quantifier": "every File_Line value", "why_tests_cant": "Right-hand text may hold any comment; the placement of the ampersand must be right for all of them.", "anchors": ["src/flpr/File_Line.cc: File_Line::make_continued, make_uncontinued"]}
{"id": "C09", "title": "Forcing a line to preprocessor keeps its text", "statement": "make_preprocessor makes a line whose only category is preprocessor, and does not change what is printed for the line.", "quantifier": "every File_Line value", "why_tests_cant": "Must hold for all field contents; fails for padded fixed-format lines.", "anchors": ["src/flpr/File_Line.cc: File_Line::make_preprocessor"]}
{"id": "C10", "title": "make_comment_or_blank keeps the comment and removes the statement text", "statement": "After make_comment_or_blank the line is a comment if right_txt held a comment, and blank otherwise, and the comment text survives.", "quantifier": "every File_Line value", "why_tests_cant": "Depends on where the comment starts in right_txt; tests exercised no such position.", "anchors": ["src/flpr/File_Line.cc: File_Line::make_comment_or_blank"]}
{"id": "C11", "title": "set_leading_spaces sets the indentation it is asked for and changes nothing else", "statement": "After set_leading_spaces(n) on a Fortran or comment line, get_leading_spaces() reports n, the statement text, label and comment text are unchanged, and the return value says whether the line changed.", "quantifier": "every File_Line value and every n >= 0", "why_tests_cant": "Column arithmetic on labels, ampersands and trailing comments has to be right for every width.", "anchors": ["src/flpr/File_Line.cc: File_Line::set_leading_spaces, get_leading_spaces"]}
{"id": "C12", "title": "set_label sets or clears the label", "statement": "set_label(k) with 0 < k leaves a line that has_label() and whose label text is k; set_label(0) leaves a line without a label; the statement text is untouched and the result reports whether anything changed.", "quantifier": "every File_Line value and every label", "why_tests_cant": "Every combination of old and new label widths matters; clearing a label is wrong in the code.", "anchors": ["src/flpr/File_Line.cc: File_Line::set_label"]}
{"id": "C13", "title": "unspace_main only moves spaces", "statement": "unspace_main leaves main_txt without leading or trailing blanks and does not change the printed line.", "quantifier": "every File_Line value", "why_tests_cant": "Must hold for every run length of blanks on both sides.", "anchors": ["src/flpr/File_Line.cc: File_Line::unspace_main"]}
{"id": "C14", "title": "Accumulated-text positions map back to the physical line and column", "statement": "After any sequence of Line_Accum::add_line calls, for every character of every added main_txt, linecolno applied to its position in the accumulated text returns the line index and column it came from.", "quantifier": "every sequence of added lines and every position", "why_tests_cant": "The map depends on the whole sequence of inserted separators.", "anchors": ["src/flpr/Line_Accum.cc: Line_Accum::add_line, linecolno"]}
{"id": "C15", "title": "Token positions point at the token text in the layout", "statement": "For every token of a Logical_Line, the (line, column) recorded as its start addresses, in layout(), the text of that token.", "quantifier": "every Logical_Line built from any physical lines", "why_tests_cant": "Comment lines between continuation lines shift indices; a sample without them passes.", "anchors": ["src/flpr/Logical_Line.cc: Logical_Line::init_from_layout, tokenize", "src/flpr/Line_Accum.cc"]}
{"id": "C16", "title": "Statements of a logical line are exactly the non-empty semicolon-separated segments", "statement": "init_stmts yields, in order, exactly the maximal runs of non-semicolon tokens, num_semicolons counts the semicolon tokens, every non-semicolon token is in exactly one statement, and has_empty_statements is true exactly when some semicolon-separated segment is empty.", "quantifier": "every token sequence", "why_tests_cant": "Leading, trailing and repeated semicolons in any pattern.", "anchors": ["src/flpr/Logical_Line.cc: Logical_Line::init_stmts", "src/flpr/Logical_Line.hh: has_empty_statements"]}
{"id": "C17", "title": "Removing empty statements keeps the real statements", "statement": "remove_empty_statements leaves the token texts of the non-empty statements and their order unchanged, leaves no empty statement, and reports a change exactly when one was made.", "quantifier": "every token sequence", "why_tests_cant": "Every semicolon pattern must be covered.", "anchors": ["src/flpr/Logical_Line.cc: Logical_Line::remove_empty_statements"]}
{"id": "C18", "title": "Reformatting from tokens keeps the token text in order", "statement": "text_from_frags produces layout lines whose main_txt, with spaces ignored, is the concatenation of the token texts in order, and every line but the last is continued.", "quantifier": "every token sequence and layout", "why_tests_cant": "Line-breaking depends on all widths; a token could be dropped at any break.", "anchors": ["src/flpr/Logical_Line.cc: Logical_Line::text_from_frags, append_tt_if_"]}
{"id": "C19", "title": "Statement extraction covers every statement once, in order", "statement": "make_stmts produces one LL_Stmt per statement of the non-suppressed Fortran Logical_Lines, in file order; a label is attached to the first statement of a line only; is_compound() is 0 for a lone statement and the 1-based index otherwise; each prefix is the list of non-statement lines since the previous statement.", "quantifier": "every sequence of Logical_Lines", "why_tests_cant": "Iterator-style source with look-ahead state; needs induction over the sequence.", "anchors": ["src/flpr/LL_Stmt_Src.cc: LL_Stmt_Src::refill_", "src/flpr/Logical_File.cc: Logical_File::make_stmts"]}
{"id": "C20", "title": "Splitting a compound line keeps the statements", "statement": "Splitting a Logical_Line after a token gives two lines whose token sequences concatenated (minus the dropped semicolon) are the original token sequence, and no physical text is lost.", "quantifier": "every Logical_Line and split position", "why_tests_cant": "The split can fall anywhere in any multi-line layout.", "anchors": ["src/flpr/Logical_Line.cc: Logical_Line::split_after", "src/flpr/Logical_File.cc: Logical_File::split_compound_before"]}
{"id": "C21", "title": "Fixed-to-free conversion keeps statements and comments", "statement": "After convert_fixed_to_free no line is fixed-format, Fortran text and labels are unchanged, comment lines start with '!', and re-reading the printed result as free format gives the same label and statement text on each line.", "quantifier": "every fixed-format logical file", "why_tests_cant": "Label widths, column-6 contents and comments interact; tests cover a few lines.", "anchors": ["src/flpr/Logical_File.cc: Logical_File::convert_fixed_to_free"]}
{"id": "C22", "title": "Tokenizing a line does not depend on previously tokenized lines", "statement": "The token sequence of a Logical_Line is a function of its own text only.", "quantifier": "every history of previously tokenized lines and every line", "why_tests_cant": "Scanner start conditions persist between calls; only a statement over all histories rules out leakage.", "anchors": ["src/flpr/scan_fort.l: real_parse, lexer_buffer_setup", "src/flpr/Logical_Line.cc: Logical_Line::tokenize"]}
{"id": "C23", "title": "Fused keywords are recognised exactly for the words of the table", "statement": "The perfect-hash lookup used to split fused keywords finds an entry exactly when the lower-cased text is one of the table words, returns that word's two tags, and the recorded split point divides the word into the two keywords.", "quantifier": "every string of every length", "why_tests_cant": "A perfect hash must reject every other string, an infinite set.", "anchors": ["src/flpr/Smash_Hash.hh: Smash_Hash::in_word_set, hash", "docs/Smash_Hash.gperf", "src/flpr/Logical_Line.cc: unsmash"]}
{"id": "C24", "title": "Parenthesis skipping stops at the matching parenthesis", "statement": "TT_Stream::move_to_close_paren, called on an opening parenthesis, returns true and stops on the matching closing parenthesis when there is one, and otherwise returns false; move_before_close_paren stops just before it; nothing is read past the end of the stream.", "quantifier": "every token stream and every position", "why_tests_cant": "Arbitrary nesting depth.", "anchors": ["src/flpr/TT_Stream.cc: TT_Stream::move_to_close_paren, move_before_close_paren, move_to_open_paren"]}
{"id": "C25", "title": "A failing statement parser leaves the token stream where it was", "statement": "For every parser built from the statement combinators over well-behaved leaf parsers, a no-match result leaves the token stream at the position it had before the call.", "quantifier": "every parser term, every token stream, every position", "why_tests_cant": "Ranges over all grammars built from the combinators.", "anchors": ["src/flpr/Stmt_Parsers.hh: Sequence_Parser, Alternatives_Parser, Star_Parser, Optional_Parser, List_Parser, Negated_Parser, Tag_Parser", "src/flpr/TT_Stream.hh: mark, rewind"]}
{"id": "C26", "title": "A matching statement parser's tree covers exactly the consumed tokens", "statement": "When a statement parser matches, the token range of the root of its tree is exactly the range of tokens consumed and every interior node covers the concatenation of its branches' ranges.", "quantifier": "every parser term, every token stream, every position", "why_tests_cant": "Ranges over all grammars and trees.", "anchors": ["src/flpr/Stmt_Parsers.hh", "src/flpr/Stmt_Tree.cc: hoist_back, cover_branches"]}
{"id": "C27", "title": "Parser extensions are tried in registration order and do not interfere", "statement": "parse_action_stmt and the other extension entry points return the first registered extension parser that matches, with the stream where that parser left it, and restore the stream when none match.", "quantifier": "every sequence of registrations and every token stream", "why_tests_cant": "Any number of extensions, each of which may move the stream before failing.", "anchors": ["src/flpr/Stmt_Parser_Exts.cc", "src/flpr/Stmt_Parser_Exts.hh"]}
{"id": "C28", "title": "Safe_List behaves as a sequence whose iterators survive", "statement": "Under every sequence of inserts, erases, splices and moves, a Safe_List's contents are those of the abstract sequence, its end() is always the same valid position, and iterators to elements not erased still refer to the same element.", "quantifier": "every history of operations", "why_tests_cant": "Histories are unbounded.", "anchors": ["src/flpr/Safe_List.hh: Safe_List"]}
{"id": "C29", "title": "Element ranges stay consistent with the list they view", "statement": "An SL_Range denotes a contiguous piece of its list whose size() equals the number of elements between begin() and end() after any sequence of push_front, push_back, update_end and clear applied with adjacent elements.", "quantifier": "every list and every history of range operations", "why_tests_cant": "Histories are unbounded.", "anchors": ["src/flpr/Safe_List.hh: SL_Range"]}
{"id": "C30", "title": "Tree structure invariant", "statement": "Every node reachable in a Tree has its self handle pointing to itself and its parent link pointing to the node whose branch list contains it, after any sequence of emplace, graft, hoist, swap and move operations; size() equals the number of nodes.", "quantifier": "every history of tree operations", "why_tests_cant": "Histories are unbounded.", "anchors": ["src/flpr/Tree.hh: Tree, details_::Tree_Node, link, fix_branches"]}
{"id": "C31", "title": "Tree cursor moves are inverse to each other", "statement": "On every tree, down then up, next then prev, and prev then next return a cursor to where it was; the try_ variants succeed exactly when the plain move is legal and otherwise leave the cursor alone.", "quantifier": "every tree and every cursor position", "why_tests_cant": "All tree shapes.", "anchors": ["src/flpr/Tree.hh: Tree_Cursor"]}
{"id": "C32", "title": "Shared do-label nesting levels", "statement": "For a stack of pushed do-labels, level(label) is 0 when the label is carried by one pending do, and for n > 1 pending dos sharing it successive level/pop pairs give n, n-1, ..., 1.", "quantifier": "every history of push, level and pop as made by the do-construct parser", "why_tests_cant": "Cached levels depend on the history.", "anchors": ["src/flpr/Label_Stack.hh", "src/flpr/Prgm_Parsers_utils.hh: Legacy_Do_Construct_Parser"]}
{"id": "C33", "title": "Region partition keeps regions ordered and disjoint", "statement": "After any sequence of appends to a Range_Partition, the active partitions are in index order, adjacent ones share a boundary, each partition's range holds what was appended to it, and an untouched partition is empty.", "quantifier": "every history of appends and inserts", "why_tests_cant": "Activation order is arbitrary; the single-active case behaves differently.", "anchors": ["src/flpr/Range_Partition.hh: append, insert, active, begin, end, validate"]}
{"id": "C34", "title": "Indentation is the sum of the enclosing constructs' indents", "statement": "Parsed_File::indent gives each statement the sum of the table entries of the constructs enclosing it, where the first and last statement of a begin/end construct are not indented by that construct.", "quantifier": "every parse tree and every indent table", "why_tests_cant": "All nestings of all constructs.", "anchors": ["src/flpr/Parsed_File.hh: indent_recurse_", "src/flpr/Indent_Table.cc: begin_end_construct, operator[]"]}
{"id": "C35", "title": "File format is decided by the extension only", "statement": "The file type deduced from a file name depends only on the characters after the last '.', is fixed for f, F and F90, free for f90 and unknown otherwise.", "quantifier": "every file name", "why_tests_cant": "All strings, including names without a dot and with several dots.", "anchors": ["src/flpr/File_Info.cc: File_Info, file_type_from_extension"]}
{"id": "C36", "title": "Registering syntax tags never disturbs existing tags", "statement": "register_ext gives a tag different from every built-in tag and every previously registered tag, and labels and types of existing tags do not change; type and label queries on the new tag return what was registered.", "quantifier": "every history of registrations", "why_tests_cant": "Histories are unbounded.", "anchors": ["src/flpr/Syntax_Tags.cc: Syntax_Tags::register_ext, label, type, is_name"]}
{"id": "C37", "title": "String utilities meet their specifications", "statement": "trim and trim_back remove exactly the leading/trailing whitespace, last_non_blank_char finds the last non-blank, simple_tokenize splits on whitespace runs, tolower/toupper change only ASCII letters.", "quantifier": "every string", "why_tests_cant": "All strings.", "anchors": ["src/flpr/utils.cc", "src/flpr/utils.hh"]}
{"id": "C38", "title": "Token range rendering keeps token texts and separates them", "statement": "render of a token sequence is the token texts in order separated only by spaces, with max(post-spaces, pre-spaces) spaces between neighbours, and the cached lower-case form of a token always equals the lower-cased text.", "quantifier": "every token sequence and every history of token updates", "why_tests_cant": "All sequences and spacings.", "anchors": ["src/flpr/Token_Text.cc: render, operator<<", "src/flpr/Token_Text.hh: Token_Text::lower"]}
{"id": "C39", "title": "Program parse tree covers the statements in order", "statement": "When a program-level parser built from the combinators matches, the statement leaves of its tree, left to right, are exactly the statements consumed from the stream, in order, and each node's statement range is the range of its leaves.", "quantifier": "every program grammar term and every statement sequence", "why_tests_cant": "All grammars, all statement sequences.", "anchors": ["src/flpr/Prgm_Parsers_utils.hh: Sequence_Parser, Alternatives_Parser, Star_Parser, Optional_Parser, hoist_back, cover_branches"]}
{"id": "C40", "title": "Program parsers never read past the end of the statement stream", "statement": "Every program-level parser that reaches the end of the statement stream reports no match (or an empty optional) instead of inspecting a statement that does not exist.", "quantifier": "every statement sequence, including truncated programs", "why_tests_cant": "Truncated inputs can end at any statement.", "anchors": ["src/flpr/Prgm_Parsers_utils.hh: Statement_Parser, Sequence_Parser, Legacy_Do_Construct_Parser"]}
{"id": "C41", "title": "Procedure regions partition the procedure's statements", "statement": "After Procedure::ingest the region ranges, read in region order, are disjoint, cover the procedure's statements in order, and each statement is in the region its syntax tag dictates.", "quantifier": "every procedure parse tree", "why_tests_cant": "All shapes of specification and execution parts.", "anchors": ["src/flpr/Procedure.hh: Procedure::ingest", "src/flpr/Range_Partition.hh"]}
{"id": "C42", "title": "Editing one token keeps all other token positions right", "statement": "replace_fragment and remove_fragment change the text of only the addressed token; every other token's text is unchanged and its recorded position still addresses its text.", "quantifier": "every Logical_Line, token and replacement text", "why_tests_cant": "Column shifts depend on everything to the right on that line.", "anchors": ["src/flpr/Logical_Line.cc: Logical_Line::replace_fragment, remove_fragment"]}
{"id": "C43", "title": "Fixed-format trailing comments respect character contexts and the last column", "statement": "In a fixed-format statement line, right_txt begins at the first exclamation mark that is outside every character context within the used columns; without one, main_txt is the whole used part of the statement and right_txt is what becomes of the text past the last column. open_delim reports the character context left open at the end of the line.", "quantifier": "every raw line, previous open delimiter and last column for which analyze_fixed returns and statement text starts in the used columns", "why_tests_cant": "Quotes, doubled quotes, exclamation marks and the last column interact in unboundedly many ways.", "anchors": ["src/flpr/File_Line.cc: File_Line::analyze_fixed, find_trailing_fixed"]}
{"id": "C44", "title": "Fixed-format analysis gives each line exactly one category and the right flags", "statement": "A File_Line returned by analyze_fixed is in exactly one of the categories blank, comment, preprocessor, include, FLPR directive, Fortran, as determined by its tab-expanded text; label and continuation flags follow the control columns; non-Fortran lines keep all text in left_txt. ASCII input never causes undefined behaviour or an assertion failure.", "quantifier": "every raw line, previous open delimiter and last column", "why_tests_cant": "The outcome depends on the interaction of tabs, control columns, digits, comment characters and open character contexts.", "anchors": ["src/flpr/File_Line.cc: File_Line::analyze_fixed"]}
{"id": "C45", "title": "Recognised labels are Fortran labels", "statement": "When a line is flagged as labelled, the label text is one to five digits, in free and in fixed form, and in fixed form column six is never part of the label.", "quantifier": "every raw line analysed in free or fixed form", "why_tests_cant": "The boundary between label and statement text depends on the length of the digit run at every possible indentation.", "anchors": ["src/flpr/File_Line.cc: File_Line::analyze_free, File_Line::analyze_fixed"]}
{"id": "C46", "title": "Logical lines are homogeneous and end where the continuation rules say", "statement": "After a successful scan every logical line is one kind of thing: a maximal block of comment/blank lines, a maximal literal block, a directive with the lines its trailing backslashes continue, or one statement made of Fortran lines and the comment/blank lines between them; a free-format statement ends at the first line that is neither trivial nor continued, a fixed-format statement at its last continuation line.", "quantifier": "all sequences of input lines, free and fixed format, all last-column settings", "why_tests_cant": "the grouping depends on arbitrarily long interleavings of continued lines, comments, directives and literal blocks", "anchors": ["src/flpr/Logical_File.cc: Logical_File::scan_free, Logical_File::scan_fixed", "src/flpr/Logical_Line.hh: LineCat"]}
{"id": "C47", "title": "Tokenizing a statement loses no text", "statement": "For every ASCII statement text and every scanner state left behind by earlier lines, scanning terminates and the tokens, in order, are exactly the text: each token is a non-empty piece of it, the pieces do not overlap, each token's recorded end offset is right, and only blanks, tabs, carriage returns and newlines lie between, before and after them. A byte above 127 is outside of the scanner's table.", "quantifier": "all statement texts, all scanner states between lines", "why_tests_cant": "Longest-match scanning over about two hundred rules and four start conditions with text put back; whether some text makes it loop, skip or merge characters cannot be seen from samples.", "anchors": ["src/flpr/scan_fort.l: rules, yymore/yyless/BEGIN actions", "src/flpr/Logical_Line.cc: Logical_Line::tokenize"]}
{"id": "C48", "title": "A word is one token with the tag its spelling calls for", "statement": "Where the scanner stands at the start of a word outside of a real literal, the next token is the whole word; its tag is the keyword's tag exactly when the word spells that keyword in any mixture of cases, and the name tag otherwise. The only exception is a word ending in an underscore followed by a quote, which may be the kind prefix of a character literal.", "quantifier": "all words, all following texts, all positions between tokens", "why_tests_cant": "148 keyword rules, many of them prefixes of each other and of names, compete with the name rule by length and order.", "anchors": ["src/flpr/scan_fort.l: keyword rules, NAME rule", "src/flpr/Logical_Line.cc: Logical_Line::tokenize"]}
{"id": "C49", "title": "Rendering the tokens of a line gives back its statement text", "statement": "Rendering the token list of a logical line that was just built from its layout produces the statement text of the layout (the main texts of its lines, one blank for white space at each line seam), up to blanks at both ends: same tokens, same spacing between them, nothing read uninitialised.", "quantifier": "all layouts of ASCII statement lines, all scanner states between lines", "why_tests_cant": "Spacing around a token is recorded in up to three different ways (plain, fused keyword, line seam); whether some combination yields wrong or uninitialised spacing depends on the whole line.", "anchors": ["src/flpr/Logical_Line.cc: Logical_Line::tokenize", "src/flpr/Token_Text.hh: render", "src/flpr/Line_Accum.cc"]}
{"id": "C50", "title": "A statement source is a cursor over the statements", "statement": "For an LL_Stmt_Src over a sequence of lines, any sequence of tests (operator bool), advance() and move() behaves as a cursor over the statements of the lines: testing changes nothing, advance() moves to the next statement and tells whether there is one, move() refers to the current statement and fails an assertion exactly when there is none.", "quantifier": "every sequence of Logical_Lines, every sequence of operations, with and without do_advance", "why_tests_cant": "The source refills its buffer lazily inside both the test and advance(); only histories of calls show whether one disturbs the other.", "anchors": ["src/flpr/LL_Stmt_Src.hh: LL_Stmt_Src::operator bool, advance, move, more_avail_", "src/flpr/LL_Stmt_Src.cc: LL_Stmt_Src::refill_"]}
{"id": "C51", "title": "The tag of a token agrees with its spelling", "statement": "Every token the scanner returns has a tag that agrees with its text: a keyword tag means the text spells the printable name of the tag in any mixture of cases; an operator is spelt as the printable name of its tag or with the old relational spelling; a token tagged as a name is spelt like no keyword of the tag table; literals and their parts have the form their tag says. No two keyword or operator tags share a printable name.", "quantifier": "all texts, all scanner states between lines", "why_tests_cant": "About 190 rules and a separately maintained table of 600 tags must agree entry by entry, and overlapping rules compete by length and order.", "anchors": ["src/flpr/scan_fort.l", "src/flpr/Syntax_Tags_Defs.hh"]}
{"id": "C52", "title": "Statement parsing ends, in one way", "statement": "Every call of a statement rule function, and every call of parse_stmt_dispatch, returns or fails after finitely many steps, and its outcome depends on the token stream and the registered extensions only: the mutually recursive rule functions cannot call one another for ever without taking a token, and no repetition repeats a parser that takes none.", "quantifier": "all 284 rule functions, all token streams and positions, all sets of extensions that do not move the stream back", "why_tests_cant": "Left recursion or a star over an empty match would show only on particular token sequences; there are infinitely many.", "anchors": ["src/flpr/parse_stmt.cc", "src/flpr/Stmt_Parsers.hh: Star_Parser, List_Parser, Alternatives_Parser"]}
{"id": "C53", "title": "A matched statement is matched as a whole", "statement": "When parse_stmt_dispatch returns a tree for a statement, every token of the statement has been consumed.", "quantifier": "every statement tag, every statement, all extensions that consume whole statements", "why_tests_cant": "Trailing tokens can be anything.", "anchors": ["src/flpr/parse_stmt.cc: eol(), all *_stmt functions", "src/flpr/parse_stmt.hh: parse_stmt_dispatch"]}
{"id": "C54", "title": "parse_stmt_dispatch returns the tag asked for", "statement": "When parse_stmt_dispatch(tag, ts) returns a tree, the syntax tag of its root is tag.", "quantifier": "every tag, every token stream", "why_tests_cant": "131 entries of a table and the tag given by each of the functions must agree, on every path through each function.", "anchors": ["src/flpr/parse_stmt.cc: parse_stmt_dispatch, sync_images_stmt"]}
{"id": "C55", "title": "Parsing a well-nested statement is defined", "statement": "On a statement whose parentheses and brackets nest properly no statement rule function runs into undefined behaviour, throws or fails an assertion, whether it matches or not.", "quantifier": "all rule functions, all well-nested statements", "why_tests_cant": "The range computations of procedure_designator and of the parenthesis skipping go wrong only for particular shapes.", "anchors": ["src/flpr/parse_stmt.cc: procedure_designator, consume_until_break, consume_parens", "src/flpr/TT_Stream.cc: TT_Stream::move_to_close_paren, move_before_close_paren", "src/flpr/Stmt_Tree.cc"]}
{"id": "C56", "title": "is_action_stmt agrees with action_stmt", "statement": "is_action_stmt(tag) is true exactly for the tags of the statements that are alternatives of action_stmt, and any statement matched by action_stmt has one of these tags.", "quantifier": "every tag, every token stream", "why_tests_cant": "Two separately maintained lists.", "anchors": ["src/flpr/parse_stmt.cc: is_action_stmt, action_stmt, parse_stmt_dispatch"]}
{"id": "C57", "title": "A submodule statement is accepted", "statement": "The statement `submodule (parent-identifier) submodule-name` of the standard (R1417) is matched by parse_stmt_dispatch(SG_SUBMODULE_STMT).", "quantifier": "every parent identifier and name", "why_tests_cant": "Parent and name can be any identifiers, with or without an ancestor.", "anchors": ["src/flpr/parse_stmt.cc: submodule_stmt, parent_identifier"]}
{"id": "C58", "title": "Program parsers rewind on no match", "statement": "A program-level parser that does not match leaves the state where it was: at the same statement, so that the caller can try the next alternative.", "quantifier": "every grammar over the program combinators, every parser of the library, every statement sequence", "why_tests_cant": "A parser can fail after any number of statements in any nesting.", "anchors": ["src/flpr/Prgm_Parsers_utils.hh: Sequence_If_Parser, Alternatives_Parser, Legacy_Do_Construct_Parser", "src/flpr/Prgm_Parsers_impl.hh"]}
{"id": "C59", "title": "Program parsing terminates", "statement": "Every call of a program-level parser of the library on a list of statements returns (or fails an assertion), with one result.", "quantifier": "every parser of the library, every statement sequence, every extension that consumes a token when it matches", "why_tests_cant": "Termination on all inputs is not testable.", "anchors": ["src/flpr/Prgm_Parsers_utils.hh: Star_Parser, Plus_Parser, Legacy_Do_Construct_Parser", "src/flpr/Prgm_Parsers_impl.hh"]}
{"id": "C60", "title": "A loop ends with its own last statement", "statement": "In the tree of a nest of do loops, labelled or not, each loop's last branch is the statement that ends that loop by the rules of the language, and after the nest the stack of open labels is what it was before.", "quantifier": "every nest of loops of any depth and any bodies", "why_tests_cant": "Labelled and unlabelled loops can be nested in unboundedly many ways.", "anchors": ["src/flpr/Prgm_Parsers_utils.hh: Legacy_Do_Construct_Parser", "src/flpr/Label_Stack.hh: Label_Stack"]}
{"id": "C65", "title": "The program tree is a derivation of the grammar", "statement": "When a program-level parser matches on a list of statements, its tree is a derivation of the rule that was called: every node has the branches its rule asks for, in order, nothing that is sure to match is left out, and each leaf is a statement that the statement parser at that place of the grammar matches, with that parser's tag.", "quantifier": "every program-level rule, every statement sequence, every extension that goes forward", "why_tests_cant": "There are unboundedly many program trees; a test compares a handful of them with expected ones.", "anchors": ["src/flpr/Prgm_Parsers_impl.hh", "src/flpr/Prgm_Parsers_utils.hh: combinators, hoist_back"]}
{"id": "C63", "title": "Statements are recognised exactly when they have the form of the standard", "statement": "For 86 of the tags of parse_stmt_dispatch - attribute, declaration, construct, control, file position and program unit statements - a statement with properly nested parentheses and brackets gets a tree exactly when its tokens have the form the Fortran standard gives for that statement (expressions and specification lists in parentheses taken as opaque).  Trying the alternatives in order, without ever going back into a finished one, loses no statement.  For functions, subroutines, type guards and type declarations the same holds as long as no name is that of an intrinsic type.", "quantifier": "every statement in the tables, every token sequence with nested parentheses, every well-behaved extension", "why_tests_cant": "The parsers commit to the first alternative that matches, so whether some statement is lost depends on every combination of optional parts, lists of any length and names spelled like keywords; tests try a handful of each.", "anchors": ["src/flpr/parse_stmt.cc", "src/flpr/Stmt_Parsers.hh"]}
{"id": "C61", "title": "Text edits change the text they are given and nothing else", "statement": "insert_text_before, insert_text_after and replace_stmt_substr splice the new text into the statement text exactly at the tokens they are given, over any number of continuation lines; replace_main_text makes the given texts the texts of the physical lines. Labels, indentation, comments and the continuation of the lines stay, and after an insertion the tokens are again those of the text and at their recorded places.", "quantifier": "every logical line with good token positions, every token or range of tokens, every new text", "why_tests_cant": "The edits work on columns of physical lines; whether the right text changes depends on every combination of continuation lines, comments, marks and token positions, and the effect of one edit on later ones.", "anchors": ["src/flpr/Logical_Line.cc: insert_text_before, insert_text_after, erase_stmt_text_, replace_stmt_substr, replace_main_text"]}
{"id": "C62", "title": "An appended comment is only a comment", "statement": "append_comment adds its text to the right end of the first physical line and changes nothing else. When the line is printed and read again, the label, the statement text and the continuation are the same and the text is in the comment.", "quantifier": "every logical line, every text; for reading again every free-format line that does not end in a character context", "why_tests_cant": "Whether the added text is a comment depends on quotes, continuation marks and comments anywhere in the line.", "anchors": ["src/flpr/Logical_Line.cc: append_comment", "src/flpr/File_Line.cc: analyze_free, operator<<"]}
{"id": "C64", "title": "Editing one statement of a file leaves all others alone", "statement": "emplace_ll_stmt and emplace_ll_stmt_after_prefix put a statement in front of a given one, before or behind its prefix; replace_stmt_text, replace_stmt_substr, insert_text_after and append_stmt_text change the text of one statement, in a line of its own; set_stmt_label changes its label, and says whether it did.  All other statements keep their tokens, labels, tags and prefixes, the statement itself keeps what is not to change, and the list of statements is again that of the statements of the lines - so that edits can follow one another.", "quantifier": "every file whose list of statements is that of its lines (as after reading it and after every such edit), every position, every text, label and line with one statement", "why_tests_cant": "Splitting a line moves tokens, iterators, labels and prefixes of all statements around; which record is left wrong shows only for particular places in compound, labelled, continued or commented lines, and only in a later edit.", "anchors": ["src/flpr/Logical_File.cc:346-473", "src/flpr/Logical_File.hh:73-114"]}
{"id": "C66", "title": "A Procedure_Visitor acts on each procedure of a file once", "statement": "Procedure_Visitor::visit calls its action exactly once for each procedure of a parsed file - main programs, external, module and internal functions and subroutines, separate module procedures - in the order of the file, tells it rightly whether the procedure is internal and whether it is in a module, and returns true if and only if one of the calls did.  It never fails itself, and the cursor it hands out can be ingested as a Procedure.", "quantifier": "every list of statements that the program parser accepts, every action (with any state, and also if it throws)", "why_tests_cant": "The walk steps over optional parts by position in the tree; whether it skips a procedure, visits one twice or runs off the end of the branches depends on which of the optional parts the grammar can leave out, in every combination and nesting.", "anchors": ["src/flpr/Procedure_Visitor.hh:52-154"]}
{"id": "C67", "title": "A Parsed_File answers by what was read, in whatever order it is asked", "statement": "A Parsed_File is good exactly when its file could be opened, its format is known and all of its lines could be read; its lines are then the text of the file, and otherwise it is empty and another file may be read. read_file returns whether this succeeded. operator bool, prefetch_statements, statements, prefetch_parse_tree, parse_tree and stmt_to_node_cursor, asked in any order and any number of times, give the statements of the file, the one tree that the program parser makes of them, and for each statement a leaf of this tree that is for this very statement; indent works on exactly these.", "quantifier": "every text, file name, format and last column; every sequence of questions; every set of registered extension parsers that only move forward", "why_tests_cant": "The object fills in its parts lazily; a wrong answer shows only for particular orders of calls and particular files, and the links from statements to nodes have to be right for every tree.", "anchors": ["src/flpr/Parsed_File.hh:50-204", "src/flpr/Logical_File.cc:37-84"]}
{"id": "C68", "title": "After a parse, each statement carries the statement tree of its leaf", "statement": "When the program parser gives a tree, stmt_tree() of each statement in it is the tree that a statement parser makes of this very statement, its root tag is the tag of the statement's leaf in the program tree, and syntax_tag() is that tag (for an action statement, the tag of the statement below, which is an action statement). Whether or not the parse succeeds, statements before its start keep their trees and no statement gets a tree that was made from another statement.", "quantifier": "every list of statements, every parser of the library, every start position and every registered extension that only moves forward", "why_tests_cant": "The trees are attached as a side effect while alternatives are tried and given up; a tree from an abandoned alternative or from the neighbouring statement would be seen only in the particular programs where that alternative is tried.", "anchors": ["src/flpr/LL_Stmt.hh:75-103", "src/flpr/LL_Stmt.hh:151-161", "src/flpr/parse_program.cc"]}
{"id": "C69", "title": "The name and the labels of a procedure are those in its text", "statement": "For a procedure of a parsed file that ingest took, name() is the text of the name token in its first statement, the token behind the keyword function, subroutine, program or module procedure, whatever prefix stands before the keyword; it is empty exactly for a main program without a program statement. scan_out_labels gives the labels of the statements of the procedure, contained procedures included, in order, each statement once, and no others.", "quantifier": "every list of statements, every parser of the library that matches it, every procedure node of the tree, every registered extension that only moves forward", "why_tests_cant": "name() finds the token by counting branches of the statement tree; whether the count is right depends on every form of prefix and on how optional parts are folded into the tree, which no list of examples covers.", "anchors": ["src/flpr/Procedure.hh:148-156", "src/flpr/Procedure.hh:339-354", "src/flpr/Procedure.hh:442-455", "src/flpr/LL_Stmt.hh:44"]}
{"id": "C70", "title": "Completing the end statement of a procedure, and renaming a procedure", "statement": "For a procedure of a parsed file, complete_end_stmt appends to the last statement exactly what is missing for it to read `end <kind> <name>`, with the procedure's own kind and name, and changes nothing and returns false when nothing is missing; no other statement, label or prefix changes. rename with a new name replaces the name token of the first statement, and the name in the last statement if there is one there; in the text only these stretches change, every other token keeps its text and its place is updated, and name() then gives the new name. For a main program without a program statement rename does not work: it calls emplace_stmt, which is undefined behaviour whatever the file.", "quantifier": "every list of statements and every parser of the library that matches it, every procedure node of the tree that ingest takes, every file with these statements, every new name, every lexer state, every registered extension that only moves forward", "why_tests_cant": "What is missing is decided from the number of branches of the end statement's tree, and the name is found by counting branches of the first statement's; correctness for all combinations of kind, prefix, form of end statement and layout is not a matter of samples.", "anchors": ["src/flpr/Procedure.hh:158-184", "src/flpr/Procedure.hh:356-396", "src/flpr/Procedure.hh:398-440"]}
{"id": "C71", "title": "The filters of flpr-format: splitting compound lines keeps the statements", "statement": "split_compound_stmts leaves the lines of a file in order; a line that is no statement or has just one statement stays, a line with several gets replaced by one line for each statement, in order, and empty statements go; the statements of the file are the same, token by token, with the same comments, and afterwards no two share a line. It returns true exactly if a line changes. It ought to leave a label on the first statement only: in fact every new line gets it. remove_empty_stmts ought to remove empty statements; in fact it never changes a file, as it asks for the wrong lines. Whether the file is written is decided by the options o and q; without one of them an uninitialised member is read.", "quantifier": "every list of lines whose statements are up to date, every command line of option letters, every answer of the filters", "why_tests_cant": "The loop puts the rest of a line back in the list and visits it again: that it ends, and that no statement is lost, doubled or reordered, holds or fails over all lines and all ways in which statements, empty statements, comments and continuation lines mix.", "anchors": ["apps/flpr_format_base.cc:104-182", "apps/flpr_format_base.hh:21-70", "apps/flpr-format.cc:30-45"]}
{"id": "C72", "title": "The tree of a statement is a derivation of the grammar", "statement": "The tree that a statement parser returns is built as its grammar rule says: a rule that makes a node gives a node with its own tag whose branches are the trees of its parts in order, with one branch for each token matched, none for a part that is only looked at, and the branches of a part marked for hoisting in place of that part. For a call statement the branches are the keyword, the procedure designator, and then nothing or the arguments between two parentheses; the designator ends in the name of the procedure, behind nothing or behind a part reference and a final percent sign. This is what the cursors of an application rely on when they go down or to the next branch.", "quantifier": "every rule of the grammar, every list of tokens and every position in it, every registered extension", "why_tests_cant": "Applications walk the tree by counting branches. That the branch they want is there for every statement the rule takes, with all its optional parts, lists and nested expressions, is about infinitely many trees.", "anchors": ["src/flpr/Stmt_Parsers.hh:30-420", "src/flpr/parse_stmt.cc:90-4280", "src/flpr/Stmt_Tree.cc:15-72", "apps/module_base.cc:109-162"]}
{"id": "C73", "title": "The module application finds calls and adds what is missing", "statement": "For a procedure that is not internal, Module_Action finds out whether a statement of the execution part calls one of the subroutines that it was given, as a procedure, a procedure component or a type-bound procedure, in any case, by itself or in an if statement, and whether one of the use statements of the procedure, in any of their forms, is for its module. If no such call is there, the file stays as it is and the answer is false. If there is such a call and the module is not used, a use statement for it is added behind the others, and the answer, which makes the application rewrite the file, is true. If the module is used already, nothing changes and the answer is false.", "quantifier": "every program without extensions, every procedure in it, every list of subroutine names and every module name", "why_tests_cant": "The walk counts branches in the statement trees and asserts the tags that it expects. That none of these assertions fails, and that no call is missed or made up, has to hold for every call, if and use statement that the grammar takes, at any place of any procedure.", "anchors": ["apps/module_base.cc:56-178", "apps/module_base.hh:36-66", "src/flpr/Procedure.hh:130-184"]}
{"id": "C74", "title": "Indenting a file does not change what it says", "statement": "If a free-format file is read, indented, written and read again, the logical lines that are read are those of the first reading: as many, of the same categories, with the physical lines that the indentation made and with the same tokens (tags, texts, spacing, positions in their physical line), only in other columns. So the statements are the same, with the same labels. So is the parse tree, and indenting the file read again writes the same text as the first time.", "quantifier": "every free-format file, every statement list and program tree, every table of indentations", "why_tests_cant": "Moving a line shifts strings that are split over lines, labels, leading ampersands, trailing comments and comments that look like directives. That none of them is read differently at its new place has to hold for every line, at every column, behind every other line.", "anchors": ["src/flpr/File_Line.cc:460-580", "src/flpr/File_Line.cc:211-328", "src/flpr/Logical_File.cc:180-285", "src/flpr/Logical_Line.cc:123-149, 723-806", "src/flpr/Indent_Table.cc"]}
{"id": "C75", "title": "What the parsers find depends on tags and texts only", "statement": "A statement parser (or parse_stmt_dispatch) called on two token ranges that agree in the tags of the tokens and, but for the case of letters, in their texts returns the same tree and leaves the stream at the same place, or fails in the same way. A program parser called on two sequences of such statements with the same labels returns the same tree, attaches the same trees to the statements, complains as often and takes the same statements. So two files with the same statements have the same parse tree whatever the columns, lines, spacing and case of their tokens.", "quantifier": "every statement rule, every dispatch tag, every program rule, all pairs of equivalent streams and of equivalent sequences of statements, all registered extensions that respect the equivalence", "why_tests_cant": "Tests compare the trees of a few pairs of sources. A parser that once looks at a column, at the spelling of a keyword or at a cached text gives another tree for some spelling of some statement; there are several hundred rules and unboundedly many spellings.", "anchors": ["src/flpr/TT_Stream.hh:172-245", "src/flpr/Stmt_Parsers.hh:84-132, 343-360", "src/flpr/parse_stmt.cc", "src/flpr/Stmt_Tree.cc:52-68", "src/flpr/Prgm_Parsers_utils.hh", "src/flpr/Token_Text.cc:25-33"]}
{"id": "C76", "title": "The case of letters does not matter", "statement": "If two source texts differ in the case of letters only, in free or in fixed format, then Parsed_File reads both or fails on both in the same way; the lines, the logical lines, the labels, the tokens with their tags and places and spacing, and the statements are the same but for the case of the letters in the texts; and every question a user asks (operator bool, statements, parse_tree, stmt_to_node_cursor) has the same answer. Lines that hold the mark #flpr of a directive are asked to be the same: the mark is compared in lower case only.", "quantifier": "all pairs of texts that agree but for case, all file names, formats, last columns, states of the scanner, all sequences of questions, all extensions that respect the equivalence of C75", "why_tests_cant": "Fortran is case-insensitive, but the code compares characters in many places: comment and continuation marks, include lines, the scanner, the hash of fused keywords, the statement parsers. A test tries some keywords in some spellings; there are 2^n spellings of every text and one forgotten conversion shows only for the texts that reach it.", "anchors": ["src/flpr/File_Line.cc:64-327, 681-808", "src/flpr/Logical_File.cc:86-285", "src/flpr/Logical_Line.cc:123-149, 692-860", "src/flpr/scan_fort.l", "src/flpr/Smash_Hash.hh", "src/flpr/Parsed_File.hh:129-203"]}
{"id": "C77", "title": "Comments and blank lines do not matter", "statement": "Putting comment lines or blank lines between the lines of a file, in free or in fixed format, changes neither whether and how reading the file fails, nor its statements (labels, tokens with texts, tags and columns, places of the tokens in the statements), nor the state in which the scanner is left, nor the parse tree; only line numbers differ.  The same holds in free format for a comment added at the end of a line of Fortran.  The lines before must not end in a character string that is continued, in text to be left alone (literal), or in a backslash; in free format blank lines must not follow a continued line.", "quantifier": "all files, all places and all numbers of comment lines, all last columns, all states of the scanner, all extensions that respect the equivalence of C75", "why_tests_cant": "A comment may be put before any of the lines of any file, also within statements, behind preprocessor lines and between literal blocks; the code handles them in the analysis of a line (which hands a state to the next line), in the grouping loop and in the token building. A test tries some places in some files.", "anchors": ["src/flpr/File_Line.cc:64-327, 681-808", "src/flpr/Logical_File.cc:86-285", "src/flpr/Logical_Line.cc:123-149", "src/flpr/Parsed_File.hh:129-203"]}
{"id": "C78", "title": "Assignments, calls, where and nullify statements are recognised exactly", "statement": "For a statement whose line has no image selector (`a[2]`), the parser recognises it as an assignment exactly if it is a designator, an equals sign and an expression; as a call exactly if it is `call`, a procedure designator and optionally arguments in parentheses; as a where statement (when something follows the mask) exactly if it is `where`, a mask in parentheses and an assignment; as a nullify statement exactly if it is `nullify` with a list of names and structure components.  Parsing is never undefined there.", "quantifier": "all statements with properly nested parentheses and brackets and without image selectors, all well-behaved extensions", "why_tests_cant": "Where a procedure designator ends is found by walking back from the end of the statement to the matching parenthesis, and a variable is tried as a function reference and then as a designator; whether that picks the right split for every nesting of components, subscripts, substrings and arguments, and never steps before the statement, cannot be seen from sample statements.", "anchors": ["src/flpr/parse_stmt.cc:254-261, 445-450, 646-657, 1021-1029, 1231-1247, 1881-1890, 2549-2558, 2667-2677, 2938-2982, 3131-3141, 3314-3322, 3719-3728, 3788-3797", "src/flpr/Prgm_Parsers_impl.hh:148-162"]}
{"id": "C79", "title": "Allocate, deallocate, wait, associate, select and image control statements are recognised exactly where they name no variable, and are undefined where they do", "statement": "For a statement whose line has no image selector, the parsers recognise a sync all, sync memory, sync images, sync team, deallocate, wait or associate statement exactly if it has the form of the standard without the specifiers that take a variable (stat=, errmsg=, iomsg=, iostat=).  An allocate, select type or select rank statement that is recognised has that form, and the usual ones of that form are recognised.  Where a variable is named in the parentheses (`lock(l)`, `event post(e)`, `form team(1, t)`, `allocate(a, stat=i)`, `deallocate(a, stat=i)`, `sync all(stat=i)`, `wait(10, iostat=i)`), or a selector is missing (`select type ()`, `associate (a =>)`), parsing is undefined behaviour for every such statement: a range is made whose end lies before its begin.", "quantifier": "all statements with properly nested parentheses and brackets and without image selectors, all well-behaved extensions; for the undefined ones all variables and everything that may follow them", "why_tests_cant": "The tests of the project parse such statements and pass, because the list of the usual library is a ring, so that counting from a later to an earlier element comes back by chance; that the call is outside the contract of std::distance for every statement of these kinds, and that the other statements never get there, does not show in a test.", "anchors": ["src/flpr/parse_stmt.cc:274-283, 333-341, 354-367, 370-380, 453-463, 1109-1116, 1119-1132, 1665-1676, 1679-1693, 1771-1791, 1881-1890, 2374-2387, 2938-2982, 3157-3167, 3183-3193, 3338-3347, 3350-3364, 3367-3376, 3379-3387, 3390-3403, 3661-3671, 3719-3728, 3747-3762, 3765-3773", "src/flpr/Safe_List.hh:172-175", "src/flpr/TT_Stream.hh:150-170"]}
{"id": "C80", "title": "caliper leaves pure, elemental, internal and empty procedures alone, and finds the returns of the others", "statement": "caliper changes nothing in internal procedures, in procedures without an execution part, and in functions and subroutines whose prefix says that they are pure or elemental; `pure` or `elemental` as part of a type or as a name does not count. For each other procedure it finds, without a failing assertion, the number of if statements with a return, of returns before the last statement and whether the last statement is a return, and puts calls at the begin and at the end of the execution part. The label that it chooses is the greatest up to 9999 that is not in use in the procedure; there is none just if all of 1 to 9999 are in use.", "quantifier": "every program without extensions, every procedure in it", "why_tests_cant": "There is no test of caliper. Which branches a prefix has depends on the types in it, and the walk asserts the tags that it expects; that these assertions hold, that no return is missed and that no other statement is counted has to be known for every prefix and every statement the grammar takes.", "anchors": ["apps/caliper.cc:74-155, 159-179, 183-209", "src/flpr/LL_Stmt.cc:40-58", "src/flpr/Procedure.hh:130-184", "src/flpr/parse_stmt.cc (prefix, prefix_spec, if_stmt, return_stmt)"]}
{"id": "C81", "title": "Which print, write, inquire and read statements are parsed", "statement": "A print, write or inquire statement is recognised if and only if it has the form of the standard: the words in front, and then either nothing or a list of output items, where an item is an expression or something in parentheses. The parser should hold to this for every list. It does so where the last item is not merely something in parentheses; where it is, as in `print *, (a(i), i=1,3)` or `write(*,*) n, (x + y)`, parsing it is undefined behaviour. So is parsing `read(5,*)` and a read statement with one implied-do loop.", "quantifier": "every token sequence with properly nested parentheses and no image selector", "why_tests_cant": "io_implied_do calls itself and stops at any depth, and whether parsing is defined depends on where the last parentheses of the whole statement stand. The tests parse a handful of these statements and none with a list that ends in parentheses.", "anchors": ["src/flpr/parse_stmt.cc:1854-1863, 2099-2118, 2241-2275, 2629-2637, 2766-2779, 3025-3045, 3800-3812", "src/flpr/parse_stmt.cc (variable, designator)"]}
{"id": "C82", "title": "flpr-format as a whole: the statements stay, files do not influence each other, and when it writes", "statement": "Whatever options flpr-format is given, the lines it writes for a file have the statements of the lines it read. A free-format file without compound or empty statements is written exactly as it was read, and with -i what is written has, read again, the same statements. A file is indented as if it were the only one on the command line. A file that was read is written just if -o is the last of the options -o and -q, whether it was changed or not. A file that cannot be read should be reported and a file that cannot be parsed should be left alone: the first is passed over with status 0 and no message, and the second ends the run by a failed assertion. A statement with a blank line in it, which the standard takes for a comment line, should be kept like any other; when it is long and its line is split, its end is lost. Without -o and -q an option without a value is looked at.", "quantifier": "every list of files, every text, every combination of option letters, every program parser", "why_tests_cant": "There is no test of flpr-format. The filters change the lines, the statements and the tree one after the other and one table of indentations serves all files; that the parts fit together for every text and every order of files and options cannot be sampled.", "anchors": ["apps/flpr-format.cc:28-66", "apps/flpr_format_base.cc:36-122", "src/flpr/Parsed_File.hh:60-170", "src/flpr/Logical_File.cc:475-587", "src/flpr/Indent_Table.cc"]}
{"id": "C83", "title": "The tree that a statement gives is that of its text, also after it was dropped", "statement": "LL_Stmt::stmt_tree() gives the tree that is kept, and else makes it: by the parser for the tag of the statement, of the text as it is now. So after drop_stmt_tree() the tree that a parse of a program left is made again, and after replace_stmt_substr, insert_text_after, append_stmt_text and replace_stmt_text the tree is that of the new text. It is not made again, but a failed assertion, for the end of a labelled do loop, for private and sequence in a type, for the procedures bound to a type and for the statements of client extensions; an assignment, where or forall statement of a where or forall construct comes back with another root. replace_stmt_text with the tag that the statement already has keeps the tree of the old text. Asking for the tree can change the tag that set_stmt_syntag has set.", "quantifier": "every text, every tag, every tree, every list of registered extensions; for a whole parse, every list of statements and every program parser", "why_tests_cant": "No test drops a tree or replaces a text by one of the same kind. Whether each of the parsers that can make a tree is also the one that is asked when it is made again depends on three tables of 65, 131 and 40 entries and on the rules agreeing for every statement.", "anchors": ["src/flpr/LL_Stmt.hh:28-170", "src/flpr/LL_Stmt.cc:60-82", "src/flpr/Logical_File.cc:347-461", "src/flpr/parse_stmt.cc:3820-4273", "src/flpr/Prgm_Parsers_utils.hh:385-671"]}
{"id": "C84", "title": "If, where and forall statements are a head and a statement behind it", "statement": "Stmt::if_stmt recognises a statement exactly if it is `if (expr)` followed by what Stmt::action_stmt recognises, where_stmt exactly `where (expr)` and an assignment, forall_stmt exactly `forall`, a concurrent header and an assignment or pointer assignment; each has undefined behaviour exactly where the parser of the inner statement has. action_stmt tries the forty kinds of action statements in a fixed order, and the first that does not refuse decides. So a statement that does not end in `)` is an if statement exactly if one of the kinds that is_action_stmt names is behind the head. An if statement inside an if statement is accepted as well. `if (expr)` with nothing behind it is undefined for every expression.", "quantifier": "every properly nested statement, every position, every list of registered extensions that stay inside the statement (the order of the kinds, and what follows from it: without extensions)", "why_tests_cant": "Any expression of any length in the head with any of forty kinds behind it; undefined behaviour of an alternative that is tried early shows for no statement that a later one would recognise.", "anchors": ["src/flpr/parse_stmt.cc:187-240", "src/flpr/parse_stmt.cc:1817-1852", "src/flpr/parse_stmt.cc:1953-1965", "src/flpr/parse_stmt.cc:3787-3797"]}
{"id": "C85", "title": "A token stream is a cursor in the tokens of a statement", "statement": "Seen as the tokens before and behind the cursor: peek() is the tag of the next token, curr() of the one before, peek_back() of the last, BAD where there is none; peek(k) the kth ahead, up to one behind the last; consume(n) inside the statement moves n tokens across and n put_back() undo it, put_back() does nothing at the beginning; digest(n) gives the range of those tokens; num_consumed() counts what is before the cursor; rewind(), consume_until_eol() and rewind(mark()) go to the beginning, the end and the mark. is_eol() is true exactly at the end and in front of a semicolon, which it takes, so a second call can say no. expect_tok, expect_id, expect_id_low, expect_integer take one token of the kind and give its text or number, and end the program otherwise. A capture over n tokens has size n, their concatenated text and the range of digest(n). unkeyword(n) turns exactly the keywords among the next n tokens (all, if negative) into names and changes nothing else of the line. peek(k) and consume(n) do not look at the end of the statement: beyond it they show tokens of the next statement of the line.", "quantifier": "every line of tokens, every statement range in it, every cursor in the range, every count, every registry of extension tags", "why_tests_cant": "Every parser of the library stands on these operations at every place of every statement; the reads beyond the end show a tag that looks like a valid one, so nothing fails there.", "anchors": ["src/flpr/TT_Stream.hh:24-292", "src/flpr/Token_Text.cc:56-62"]}
{"id": "C86", "title": "Which statements are import, interface, macro and submodule statements", "statement": "Stmt::import_stmt recognises exactly the statements of the form of the standard (R867), those that begin with `import, none` or `import, all` whatever follows, and the empty statement; Stmt::interface_stmt exactly those of the form (R1503), those that begin with `abstract interface` whatever follows, and the empty statement. Stmt::macro_stmt recognises exactly a name other than associate, where, forall and case with one group in parentheses behind it. Stmt::submodule_stmt recognises exactly `submodule (name [: name])`, without the name of the submodule itself. The two surplus kinds are never of the form of the standard.", "quantifier": "every properly nested statement, every position, every list of registered extensions that stay inside the statement", "why_tests_cant": "Equality of the set of statements recognised with a form, over statements of any length; a misplaced end of statement shows only for text that no test would call an import or interface statement.", "anchors": ["src/flpr/parse_stmt.cc:2074-2086", "src/flpr/parse_stmt.cc:2169-2176", "src/flpr/parse_stmt.cc:2444-2456", "src/flpr/parse_stmt.cc:3276-3284"]}
{"id": "C87", "title": "flpr_show_cst prints the tree of every statement parser that accepts the statement", "statement": "For each statement flpr_show_cst tries every parser that parse_stmt_dispatch has, but for loop-control, and no other number. What it prints are the trees of exactly those parsers that accept the statement when asked about it alone, each once, in the order of the tags and numbered from 1; `Unrecognized` comes exactly if there are none. So what one parser does to the stream does not show in what a later one finds. The loop ends, in one way. It is undefined exactly if one of the parsers is undefined for the statement, which needs a statement that ends with `)`. For the kinds of statements of C63 a tree of that kind is printed exactly if the statement has the form of the standard, and a statement of such a form is never called unrecognized.", "quantifier": "every properly nested statement, every list of registered extensions that stay inside the statement", "why_tests_cant": "The stream is shared by 130 parsers and rewound only after a match, so independence is a statement about all of them for all statements; a test sees the trees of some statements.", "anchors": ["apps/flpr_show_cst.cc:77-101", "src/flpr/parse_stmt.cc:3820-4222", "src/flpr/Syntax_Tags.cc:19-26"]}
{"id": "C88", "title": "Extension parsers made of the combinators are what the library may expect of extensions", "statement": "A parser that a client makes of the combinators of Stmt_Parsers.hh and the rule functions, as apps/ext_demo.cc does, ends on every stream and in one way if what it repeats takes a token; its tree covers exactly the tokens taken, and that of a sequence has the tag the client gave it; it does not move the stream backwards or past its end; if it ends with eol() it matches whole statements only; and it has no failure but undefined behaviour, which needs a statement that ends with `)` and a call that can get to procedure_designator. So it meets the conditions under which the statements about action_stmt and the others hold with extensions registered. The two parsers of ext_demo end, cover what they take and match whole statements, but are undefined for some statements that end with `)`. A sequence for which the tests of C63 come out well against a form accepts exactly the statements of that form.", "quantifier": "every parser made of the combinators, every properly nested statement, every position", "why_tests_cant": "It ranges over all parsers that a client could write, and for each over all statements.", "anchors": ["apps/ext_demo.cc:122-143", "src/flpr/Stmt_Parser_Exts.cc:24-65", "src/flpr/Stmt_Parsers.hh:37-219"]}
