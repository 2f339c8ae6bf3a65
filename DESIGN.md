# Design of the FLPR formal model

Source: `/repo` (lanl/FLPR, C++), read as text.  Model: Lean 4 under `lean/Verif`.

## Conventions

* A C++ `std::string` is `Str = List Char`.  A `Char` with code >= 128 stands for a
  non-ASCII byte.  Passing such a byte to `isspace`/`isdigit`/`toupper` is undefined
  behaviour in C++ (negative `char`), and is a separate outcome in the model.
* Every function that can throw, fail an `assert` or run into undefined behaviour returns
  `Res a`, an `Except` whose failures are `exc` (an exception), `assertion`
  (a failed `assert`) and `ub` (undefined behaviour).  Nothing is totalised away.
* `size_t`/`int` are `Nat`/`Int`; wrap-around is modelled only where the code relies on it
  or runs into it (named in the comment of the definition).  Overflow of line lengths past
  2^31 is not modelled.
* Each area has a model file (`Model`), a specification that does not use the model's helpers
  (`Spec`) where the property needs one, lemma files, and a file with the property theorems
  (`Props`) in which each theorem is followed by an `example` meeting its hypotheses.
* Where the code violates the property: a theorem with suffix `_violation` proves the negation
  with a concrete witness, and a `_partial` theorem proves the strongest restriction found.

## Trusted base

* Lean 4.33.0 kernel; at most the axioms `propext`, `Classical.choice`, `Quot.sound`.
* The reading of the C++ text into the definitions (each cites file and lines).
* flex: `%option full` builds a 7-bit scanner, so a byte above 127 indexes outside of its tables (`ub`
  in the model); otherwise flex is taken to implement longest match, then first rule, exactly.
* The C++ standard library contracts for `std::string`, `std::vector`, `std::list`,
  `std::bitset`, iostream `setw` as written in `Base.lean` and the model files.

### What is modelled

Function by function, with the lines cited at each definition:

| source | modelled | left out |
|--------|----------|----------|
| `File_Line.{hh,cc}` | all of `analyze_free`, `analyze_fixed`, the `make_*`, `set_*`, `get_*` functions, `unspace_main`, `swap_space`, `operator<<` | `dump`, the regular-expression based `include` test beyond what the scan needs |
| `Logical_Line.{hh,cc}` | construction, `init_from_layout`, `tokenize`, `unsmash`, `init_stmts`, `text_from_frags`, `replace_fragment`, `remove_fragment`, `remove_empty_statements`, `split_after`, `set_leading_spaces`, `replace_main_text`, `erase_stmt_text_`, `replace_stmt_substr`, `insert_text_before`, `insert_text_after`, `append_comment`, `set_label` | `file_info`, `dump`, messages on `cerr` |
| `Logical_File.{hh,cc}` | both scans, `make_stmts`, `split_compound_before`, `isolate_stmt`, `emplace_ll_stmt*`, `replace_stmt_text`, `replace_stmt_substr`, `insert_text_after`, `append_stmt_text`, `set_stmt_label`, `convert_fixed_to_free` | opening and reading the file (a file is its list of lines), `dump` |
| `LL_Stmt*`, `LL_TT_Range` | ranges, labels, prefixes, tags, `update_range`, the kept statement tree and how it is made again (C83), the statement source | the hook of a statement |
| `Line_Accum`, `Token_Text`, `TT_Stream`, `Smash_Hash`, `Label_Stack`, `File_Info`, `utils`, `Syntax_Tags*` | all | `print` functions, messages |
| `scan_fort.l` | all rules and start conditions | the generated C code (see the assumption on flex above) |
| `Safe_List`, `Tree`, `Range_Partition` | all operations used in the library, over addressed nodes | allocators, exceptions from allocation |
| `Stmt_Parsers.hh`, `parse_stmt.cc`, `Stmt_Parser_Exts`, `Stmt_Tree.cc` | all combinators and all 284 rule functions (translated by `tools/grammar.py`) | tracing |
| `Prgm_Parsers*.hh`, `Prgm_Tree` | all combinators and all 40 rules (translated by `tools/pgrammar.py`) | tracing |
| `Procedure_Visitor.hh` | all | cursors are paths; the action is any function with a state of its own; the tree keeps its structure |
| `Procedure.hh` | `ingest`, the regions, `name`, `scan_out_labels`, `complete_end_stmt`, `rename`, `emplace_stmt` | a statement without a tree is an assertion failure in `stmt_tree()` |
| `Parsed_File.hh`, `Indent_Table` | all, with `read_and_scan` of `Logical_File.cc`; the tables | a file on disk is its list of lines or nothing; hooks are paths |
| `apps/` | see the table of properties | the command lines, what `caliper` does behind its first `emplace_stmt` (nothing comes back from there), what is done with files on disk |

The axioms of each theorem are listed in `AXIOMS.md` (made by `tools/axioms.py`); no theorem uses anything but
`propext`, `Classical.choice` and `Quot.sound`.

## Plan per property

| id | what is modelled | how it is proved |
|----|------------------|------------------|
| C01 | `analyze_free`, `find_trailing_free`, `operator<<`, string helpers | case analysis; substring-cut lemmas |
| C02 | as C01 | case analysis over the return points; the header's "trimmed on both ends" is checked as written |
| C03 | as C01, plus an independent quote automaton | induction over the text |
| C04 | `analyze_fixed`, tab expansion, `operator<<` | partial theorem for well-formed columns, witnesses for the rest |
| C05 | `analyze_fixed`, `find_trailing_fixed` | bound on the cut position; witness when text starts past the last column |
| C06 | `scan_free` loop and `Logical_Line` grouping | loop invariant: groups so far ++ pending = lines read so far |
| C07 | `scan_fixed` loop | as C06 |
| C08 | `make_continued`, `make_uncontinued` | case analysis on `right_txt` |
| C09 | `make_preprocessor` | direct; witness for padded fixed lines |
| C10 | `make_comment_or_blank` | witnesses and partial |
| C11 | `set_leading_spaces`, `get_leading_spaces` | case analysis; UB outcome for the uninitialised `offset` |
| C12 | `set_label`, decimal rendering | case analysis; witness for label 0 |
| C13 | `unspace_main` | list lemmas; witness for leading blanks |
| C14 | `Line_Accum` | induction over added lines |
| C15 | `init_from_layout`, `tokenize` over the scanner model of C47 | uses C14 and C47; witness with an interspersed comment |
| C16 | `init_stmts` | induction against an independent `splitOn`-style spec |
| C17 | `remove_empty_statements` | against the C16 spec |
| C18 | `text_from_frags`, `append_tt_if_` | induction over tokens with the current line as accumulator |
| C19 | `LL_Stmt_Src::refill_`, `make_stmts` | refinement to a list comprehension spec |
| C20 | `split_after`, `split_compound_before`, `isolate_stmt` | list split lemmas; an invariant between the statements and the lines of a file |
| C21 | `convert_fixed_to_free` | per-line lemmas, re-analysis with the C01 model |
| C22 | all of `scan_fort.l`: rules as regular expressions, start conditions, `yyless`, the condition stack | witness of leakage; partial: independence for lines that do not continue a real literal |
| C23 | `Smash_Hash` tables and `in_word_set` | exhaustive check of the finite table lifted to all strings |
| C24 | `TT_Stream` moves | witness; partial for the shapes that work; `move_to_open_paren` in full |
| C25 | statement combinators as a deep embedding; all rules of `parse_stmt.cc` translated by `tools/grammar.py` into `Grammar.lean` | induction over parser terms |
| C26 | as C25 plus trees | induction over parser terms |
| C27 | `Stmt_Parser_Exts` | induction over the registration list |
| C28 | `Safe_List`: several lists of addressed nodes, each with its hidden end element | invariant preserved by each operation, refinement to sequences |
| C29 | `SL_Range` | as C28 |
| C30 | `Tree`: addressed nodes whose links are plain addresses | the links always are those of a plain tree; simulation over histories |
| C31 | cursors over the link fields and the physical branch lists | agreement with moves on paths |
| C32 | `Label_Stack` | induction over the stack |
| C33 | `Range_Partition` | invariant, witness for a single active partition |
| C34 | `indent_recurse_`, `Indent_Table` | induction over the tree |
| C35 | `File_Info` | list lemmas about the last dot |
| C36 | `Syntax_Tags` registry | invariant over registration histories |
| C37 | `utils` | list lemmas |
| C38 | `Token_Text`, `render` | induction |
| C39 | program combinators | induction over parser terms |
| C40 | as C39 with end-of-stream dereference as UB | witness and partial |
| C41 | `Procedure::ingest` | uses C33 for the appends, C65 for the shape of parsed procedures |
| C42 | `replace_fragment`, `remove_fragment` | list surgery lemmas |
| C43 | as C04, plus the quote automaton | induction over the used part of the text |
| C44 | as C04 | case analysis over the return points |
| C45 | as C01 and C04 | digit-run lemmas; witnesses with six digits |
| C46 | as C06, C07 | the boundaries of each group characterised without the loops; witness for directives |
| C47 | as C22; flex's longest-match, first-rule choice by derivatives, proved equal to its definition | a relation describing runs; termination by text length |
| C48 | as C47 | case analysis over the rules that can match at a letter |
| C49 | `render` over the tokens of C15 | induction over the tiling of C47 |
| C50 | `LL_Stmt_Src` | refinement to a cursor over a list, induction over histories |
| C51 | as C47; the tag table of `Syntax_Tags_Defs.hh` | per-rule language lemmas against the table |
| C52 | as C25 with all 284 rule functions of `parse_stmt.cc` | a rank on rules that may be reached without taking a token; results constant from some bound on |
| C53 | as C52, `parse_stmt_dispatch` | a checker on parser terms, proved sound, evaluated on the whole grammar |
| C54 | as C53 | as C53 |
| C55 | as C52, with token ranges and tree building | one induction with C26 |
| C56 | `is_action_stmt` | the finite lists; as C53 for the trees |
| C57 | `submodule_stmt` | every match ends in ')' |
| C58 | all combinators of `Prgm_Parsers_utils.hh`, all 40 parsers of `Prgm_Parsers_impl.hh`, the label stack | one invariant over parser terms |
| C59 | as C58 | a rank on parsers reached without taking a statement; results constant from some bound on |
| C60 | as C58 | induction over nests; each step is an evaluation that is eventually constant |
| C61 | `replace_main_text`, `erase_stmt_text_`, `replace_stmt_substr`, `insert_text_before`, `insert_text_after` | line by line against splicing of the whole text; C15 and C42 for the tokens read again |
| C62 | `append_comment`, with `analyze_free` and `operator<<` for reading again | every field of a free-format line is determined by the specification of C02 and C03 (`reread_free`) |
| C63 | all combinators and rules of the statement parsers, as in C52 | a rule without trees is an ordered-choice recogniser (`FormRun`, `FormSim`); its language with free choice is compared with the forms of the standard (`FormStd`, written by hand); a checker that looks some tokens ahead, proved sound, shows that ordered choice loses nothing |
| C64 | `emplace_ll_stmt`, `emplace_ll_stmt_after_prefix`, `replace_stmt_text`, `replace_stmt_substr`, `insert_text_after`, `append_stmt_text`, `set_stmt_label` of `Logical_File` | one invariant (`Tidy`): the statements are those of the lines and the prefixes stand in front of them; it is kept by splitting, by inserting a line and by changing a line |
| C65 | all program rules and combinators | induction over the bound; the derivations have no state and no ranges |
| C66 | `visit`, `visit_procedure_`, `visit_module_` | the shape of the tree from C65; rules that cannot lead to a procedure are found by a check over the whole grammar |
| C67 | `Parsed_File`, `read_and_scan` | an invariant of the lazily built parts, over all sequences of questions; the links by the list of leaves |
| C68 | `set_stmt_tree`, `stmt_tree`, `extract_tree_tag_` | trees are given at the current position only, which never goes back; carried through all combinators with the leaves |
| C69 | `Procedure::name`, `scan_out_labels` | the begin statement's tree is one of a begin rule (C68); its branches are followed through the sequence combinator |
| C70 | `Procedure::complete_end_stmt`, `rename` | the tree of the end statement has one to three branches, by the form of the end rules; name tokens are found as in C69 and replaced as in C42 |
| C71 | `split_compound_stmts`, `remove_empty_stmts` and the options of flpr-format | the loop over the list with `split_after` and `text_from_frags` (C14-C18), induction over the tokens that are left |
| C72 | as C25 | a derivation relation on lists of trees, defined on the parser terms without a stream; induction over evaluation, with a check over the whole grammar for the places where a token's tag could be confused with the hoisting tag |
| C73 | `Module_Action::operator()`, `has_call_named`, `find_use_module_name` of `apps/module_base.cc` | the walk over the branches from the derivations of C72 and the covers of C26; which name is the callee, and where the action of an if statement begins, is unique in the tokens; the regions from C41, with `validate` for the iterators that activate |
| C74 | reading, `Parsed_File::indent`, writing and reading again (no new code: `analyze_free`, `set_leading_spaces`, `scan_free`, `Line_Accum`, `tokenize` together) | a form of lines that are read as they are written, kept by every move; the chain of the analysis is the same state by state; grouping depends on the flags only; the text for the scanner is equal, the columns are not |
| C75 | the statement and the program parsers, `get_label_do_label` (no new code) | a relation on tokens, streams and states that names tags and lower-case texts only, kept by every operation of the stream and every combinator, for every bound on the calls |
| C76 | the whole way from raw lines to the tree (no new code) | relations on texts, lines, lexemes, tokens and files that allow the case of letters to differ, kept by every function; the expressions of the scanner use classes of characters that disregard case |
| C77 | the whole way from raw lines to the tree (no new code) | the grouping loops are shown to give the statements of an automaton that reads one line at a time (`runLines`, `fixedRun`), which skips comments; the analysis of a line depends on its number in the number only |
| C78 | statement parsers of C46 (no new code) | on lines without image selectors the grammar with `image_selector` replaced by a parser that always fails does the same (`eval_plain`); procedure designators are given as a split of the list of tokens (`SplitAt`), the rest as forms as in C63 |
| C79 | statement parsers of C46 (no new code) | a call of `variable` is a place in the form (`VForm.var`); whether it is undefined depends only on the place of the last parentheses of the line (`LastPair`) |
| C80 | `caliper_procedure` up to the first `emplace_stmt`, `exclude_procedure`, `count_return_stmts`, the choice of the label in `apps/caliper.cc` | the parts of a prefix are unique in the tokens (`prefixed_unique`); the branches of the tree of the first statement are those parts; the tag of each statement from the derivations of C72 and C26 |
| C81 | `print_stmt`, `write_stmt`, `inquire_stmt`, `read_stmt`, `output_item`, `input_item`, `io_implied_do` and what they call | forms with variables (C79), where `io_implied_do` is unrolled more often than there are tokens left (`idoV`); an implied-do loop that is not behind the last parentheses is parsed or left, and behind them `variable` is called out of its range |
| C82 | `main` of flpr-format and `flpr_format_file`, made of the models of C62, C67, C71 and C34 | the filters, the statements, the tree, the indentation and the output one after the other (`formatFile`), the files one after the other with one table and one tokenizer (`formatAll`); the program parser is a parameter. Not modelled: the timers and the messages of `-v`, and the command line but for its letters |
| C83 | `LL_Stmt`: `stmt_tree`, `set_stmt_tree`, `drop_stmt_tree`, `reset_stmt_tree`, `set_stmt_syntag`, `update_range`, `rebuild_tree_`, `extract_tree_tag_`, and what the editing functions of `Logical_File` do with the tree | a statement is its tokens, its tree and its tag (`TStmt`); the parsers are those of C52. Not modelled here: label, hook and prefix lines; the change of the text itself is C61 and C64, here it is any list of tokens. A kept tree has positions where the library has iterators |
| C84 | the rules `if_stmt`, `where_stmt`, `forall_stmt`, `forall_assignment_stmt` and `action_stmt` of the model of C52 | nothing new is modelled. The specification has the form of the head as a regular form, the inner statement as what `parse_stmt_dispatch` says of the rest, and the list of the kinds of action statements in order |
| C85 | `TT_Stream` (TT_Stream.hh:24-292) and `unkeyword` (Token_Text.cc:56-62) | the cursor operations are those of the model of C52; `peek_back`, `num_consumed`, `rewind`, `mark`, `expect_*`, `unkeyword` and `Capture` are new. `std::exit(5)` is an exception, its message is not modelled; `peek(k)` and `consume(k)` are for `k ≥ 1` and `k ≥ 0`; the cached copy in lower case that `expect_id_low` leaves in the token is not kept |
| C86 | the rules `import_stmt`, `interface_stmt`, `macro_stmt` and `submodule_stmt` of the model of C52 | nothing new is modelled. The specification has the forms as in C63, and `BeginsWith` for statements of which only the beginning is looked at |
| C87 | the loop over the parsers in `main` of `apps/flpr_show_cst.cc`, as a relation on streams and output lines (`ShowLoop`, `ShowStmt`) | that a parser leaves the stream alone if it does not match (C25), that it stays in the statement if it does (C26), so that `rewind` restores the stream, and that each call ends in one way (C52). The tags with type 5 are compared with the table of `parse_stmt_dispatch` for all 365 numbers of the loop. Reading the file, the exit codes and the text of a tree are not modelled |
| C88 | `write_comma_stmt` and `write_comma_stmt_mytag` of `apps/ext_demo.cc`, and extensions that are any term of the combinators (`runClient`, `Implements`) | the lemmas behind C26, C52, C53 and C55 hold for a term outside the grammar too. A rule that such a parser calls finds no extension registered, which matters only if it calls `action_stmt` or `other_specification_stmt` |

Nothing here is "not expressible"; what remains unproved is marked in MANIFEST.json.

## Disagreements between code and property

Each is proved by a `_violation` theorem on a concrete input.

* C02: the main text of a line with a leading ampersand keeps its leading blanks; a trailing
  carriage return is kept; `main_txt` can be empty.
* C04: text in fixed-format control columns is shifted; a label in an open character context
  duplicates blanks; a carriage return in the control columns is replaced; text that starts past
  the last column is printed twice.
* C05: text that starts past the last column becomes statement text.
* C08: `make_uncontinued` is not idempotent on `x &&`, and the line is read as continued again; text behind
  the mark that is no comment becomes statement text; a string that is open at the mark loses its end; the gap before a short-gap comment grows.
* C09: `make_preprocessor` drops the padding of fixed-format lines.
* C10: `make_comment_or_blank` destroys the trailing comment in every case, and for a continued
  line keeps the statement text under the comment flag.
* C11: in fixed format the reported indentation is off by six; the local variable `offset` is read
  uninitialised for fixed-format continuation lines with a trailing comment; moving a continued line
  with a trailing comment left throws `out_of_range`; a `C` comment containing `!` loses its text;
  `true` is returned without a change.
* C12: `set_label(0)` writes the label `0`; setting the same label reports a change; labelling an
  indented fixed-format line moves its text.
* C13: `unspace_main` drops leading blanks and keeps an all-blank text.
* C45: six digits are accepted as a label.
* C46: a preprocessor or literal line inside a continued free-format statement becomes the last line
  of that statement; a statement continued up to the end of the file is cut after its first line.
* C22: the scanner's start condition is not reset between lines.  After `x = 1.0` the line `e1 = 2` is
  read as the exponent letter `e`, the exponent `1`, and so on.
* C15: a comment line between the lines of a continued statement shifts the line index of all later
  tokens; both halves of a fused keyword (`enddo`) carry incomplete positions; form feeds and vertical
  tabs are skipped as white space by the position code but are tokens to the scanner; a first line
  with nothing but `&` fails an assertion.
* C21: a fused keyword makes `convert_fixed_to_free` read an uninitialised position; a comment line
  inside a statement misplaces the leading ampersand of a split token; a blank line, a directive or an
  empty continuation line inside a statement breaks it; `c#flpr` lines stay as they are; a statement
  that begins with a number gains a label; a continuation line that looks like an include line becomes
  one; text past the last column behind a continued string, and an ampersand in the text, make the
  result unreadable or shorter.
* C36: `is_name` indexes the built-in table with a registered tag (read past the end); a registered
  tag may have the type -1, which is the value for "unknown".
* C37: every call of `simple_tokenize` ends by incrementing an iterator that is already at the end of
  the string (undefined behaviour); if that is harmless, the words are right.
* C38: writing through a reference obtained from `mod_text()` before a call of `lower()` leaves a
  stale lower-case form.
* C49: the first half of a fused keyword has an uninitialised count of leading spaces, which `render`
  reads unless it is the first token; a tab between tokens is rendered as a blank.
* C17, C18: a fused keyword behind the first token has an uninitialised count of leading spaces, which
  `text_from_frags` reads.
* C18: a blank line inside a continued statement receives tokens and is then erased, so that they are
  lost; a literal longer than a line gains a blank before each `&` (`make_continued` is applied to the
  same line twice); in fixed format the mark in column 6 of reused lines is cleared; an emptied
  continuation line keeps its leading `&` in front of its comment.  `text_from_frags` leaves the recorded
  token positions as they were.
* C42: `replace_fragment` leaves the end column of the replaced token as it was; behind a comment line
  inside a continued statement it edits the wrong line (the comment); a fused keyword behind the edited
  token makes it read an uninitialised position; a token split over two lines fails an assertion.
* C76: the mark `#flpr` of a directive is compared in lower case only (`is_flpr_directive`), so `!#FLPR` is a comment.
* C77: a comment line within a character string that is continued resets the open delimiter, so that a free-format file (`x = 'ab&`, `! note`, `&cd'`) cannot be read and a fixed-format string with an exclamation mark in its rest is broken up. The standard allows comment lines there.
* C77: a blank line within a continued free-format statement makes a number at the start of the next line a label, and the token is lost (`x = 1 + &`, blank line, `  2 + y`). The standard takes blank lines for comment lines.
* C78: `where (mask)` with nothing behind it runs into undefined behaviour in `where_stmt`: `procedure_designator` is called with nothing left, walks back over the mask and makes a range whose end lies before its begin. `executable_construct` tries `action_stmt` before `where_construct`, so this happens for every where construct without a name (also in tests/test_parse_prgm.cc:38).
* C78: `f() = 3` and `call s(*10)` of the standard are not recognised.
* C79: wherever a variable is named within the last parentheses of a statement (`lock(l)`, `unlock(l)`, `event post(e)`, `event wait(e)`, `form team(1, t)`, `stat=`, `errmsg=`, `iomsg=`, `iostat=` in allocate, deallocate, wait and sync statements), `procedure_designator` makes a range whose end lies before its begin, and `SL_Range` calls `std::distance` on it: undefined behaviour. So lock, unlock, event and form team statements are never parsed in a defined way. The same happens where a selector is missing (`select type ()`, `associate (a =>)`). The tests of the project have such statements and pass (tests/test_parse_stmt.cc:39, 162, 281, 525): the `std::list` of the usual libraries is a ring, and the count comes back to the earlier element. The model follows the contract of the library, not one implementation of it.
* C80: `caliper` adds its calls with `emplace_stmt`, so that it never comes back (C33) for just those procedures where it has something to do: `C80_violation_emplace`.
* C81: parsing `print`, `write` and `inquire` with a last item in parentheses, `read(unit)` without items and `read(unit) (loop)` is undefined: `io_implied_do` and `input_item` call `variable`, which looks for the last parentheses of the statement and makes a range that ends before it begins (`C81_violation_output`, `C81_violation_read_nothing`, `C81_violation_read_loop`).
* C82: `flpr_format_file` always returns 0, so that the message for a file that could not be formatted is never printed, not even for a file that could not be opened (`C82_violation_status`); a file that the program parser rejects ends the whole run by a failed assertion (`C82_violation_parse`); without `-o` and `-q` the run is undefined for any file that was read (`C82_violation_options`); of a statement with a blank line in it whose line is split, the end is lost without a message (`C82_violation_blank`).
* C83: `replace_stmt_text` only clears the tree when the tag changes, so that replacing an assignment by another assignment leaves the tree of the old text, whose iterators point to tokens that are gone (`C83_violation_replace`, `C83_violation_replace_example`). `rebuild_tree_` cannot make the tree again of statements tagged `SG_END_DO`, `SG_PRIVATE_OR_SEQUENCE` and `SG_TYPE_BOUND_PROC_BINDING`, which `parse_stmt_dispatch` does not know (`C83_violation_lost`), nor of a client's action statements (`C83_violation_extension`); the statements of where and forall constructs come back below an `SG_ACTION_STMT` (`C83_violation_wrapped`). `stmt_tree()` can change what `syntax_tag()` says (`C83_violation_syntag`).
* C84: `if (expr)` with nothing behind it is undefined behaviour, not a refusal (`C84_violation_bare`): the assignment is tried at the end of the statement, where `procedure_designator` makes a range that ends before it begins. An if statement is accepted as the action of an if statement (`C84_violation_nested`).
* C85: the comment says that `peek(offset)` is `BAD` behind the last token. It is for the first place behind the statement only; further ahead it is the token of the next statement on the line (`C85_violation_peek`), or undefined behind the last token of the line. `consume` does not stop at the end either (`C85_violation_consume`). The text and the range of a capture that was not ended are undefined although the capture says that it is empty (`C85_violation_open`).
* C86: in `import_stmt` and `interface_stmt` a parenthesis is misplaced, so that the end of the statement is an alternative of its own instead of the last part of the last alternative: whatever follows `import, none`, `import, all` and `abstract interface` is accepted (`C86_violation_import`, `C86_violation_interface`), and so is the empty statement (`C86_violation_empty`).
* C87: `flpr_show_cst` also tries the parser of where statements on the first line of a where construct, `where (m)`, and that parser looks for the assignment behind the last token; the program is undefined for every file with such a line (`C87_violation_where`, `C87_violation_where_construct`). The same goes for C84 and `if (a)`.
* C88: the extension that `ext_demo` registers is undefined for `write(6), (a)` (`C88_violation_paren`), because `output_item` tries an implied do first. With it registered, the statements that assume extensions without undefined behaviour do not apply (`C88_violation_good`).
* C19: a suppressed line that has statements fails an assertion in `refill_`; a line of category MACRO
  that has statements gives one empty statement.  Neither arises from a scan.
* C20: `split_after` counts comment lines between continued lines when it looks for the physical line to split, so it
  throws, reads past the tokens, or leaves wrong positions there; a semicolon at the end of a physical line stays in the text;
  false is returned after the continuation mark has been removed; the position of a fused keyword behind the split is
  uninitialised; a label flag is copied to the new line; more physical lines than tokens fail an assertion; in fixed format the new line is indented six
  columns too far.  `split_compound_before` does not update the statement in front of the split: its range ends at an
  erased token, so `empty()` and all that use it are undefined, and it still counts as part of a compound.
  `isolate_stmt` at the end of the file is undefined.  (Not modelled: the new line has no `file_info`.)
* C50: on a source created with `do_advance = false`, `operator bool` loads the first statement and a
  following `advance()` skips it.
* C28: `clear()` replaces the hidden end element, so an `end()` taken before it is stale; `remove_if` with
  a predicate that is true of a default value removes the hidden end element; a moved-from list has no
  hidden end element, reports the size 2^64-1, and `push_back` on it is undefined behaviour.
* C29: `push_back(range)` compares ends only, so that a longer range with the same end is dropped.
* C30: after `graft(Tree &&)` the donor is a tree whose root has no contents: it is not `empty()`, and
  `size()` and `check()` fail assertions on it.
* C31: `try_next(n)` and `try_down(n)` with n > 1 move part of the way before they return false.
* C24: `move_to_close_paren` steps over the token behind the opening parenthesis without looking at it,
  so `()` and `((a))` go wrong, and with an opening parenthesis as the last token it reads past the end;
  `ignore_bracket_expr` never returns true.
* C25: `neg(p)` takes the tokens of `p` when `p` matches, although it then does not match itself;
  `procedure_designator` without a match leaves the stream at the end of its search.
* C26: on the first statement of the line `x=(a;b)` the tree of `assignment_stmt` covers both statements.
* C53: `interface_stmt` (whose `eol()` is inside an alternative) matches the empty statement, and leaves
  tokens behind `abstract interface`; `import_stmt` leaves tokens behind `import, none`.
* C54: `sync_images_stmt` is tagged `SG_SYNC_ALL_STMT`.
* C55: `allocate(x, stat=ierr)` makes `procedure_designator` search back to a parenthesis in front of
  its start: undefined behaviour.  An unbalanced `x=(a` runs past the end of the line.
  The same happens at the end of `where (m)` and `forall (i=1:2)`, because `action_stmt` is tried on them first;
  so parsing a program with a where or forall construct is undefined (C40).
* C34: a negative entry fails an assertion.  The standard tables have no entry for `PG_DO_BODY` (a loop that ends
  with a labelled statement), `PG_BLOCK_SPECIFICATION_PART` or `PG_FORALL_BODY_CONSTRUCT`, so these are not indented.
  A statement that ends several loops is moved several times.
* C57: `submodule_stmt` has no place for the name of the submodule.
* C63: `rank` statements have no place for the construct name; `.eqv.` and `.neqv.` cannot be defined operators
  (`equiv_op` has the tokens of `==` and `/=`); `procedure(real(8)) :: f` is not recognised, because the interface
  is tried as a name first; `component_decl` writes a coarray specification with parentheses.  The forms in
  `FormStd.lean` follow the standard; `integer*8`, `character*n` lengths that are names and functions without
  parentheses are extensions that the parsers allow and the forms list.
* Not covered by a property: `prefix` matches nothing with an `SG_PREFIX` node of empty range; the conversion of `SP_Result` to
  `Stmt_Tree` drops `match`.
* C33: `Range_Partition::active` is "predecessor differs from successor", so a
  region that is the only active one looks inactive. The non-const `begin(idx)`
  then empties it, looking at an earlier region reorders the links and the next
  append drops elements, and `validate` asserts. `Procedure::ingest` therefore
  asserts on a program that is a lone `end`.
* C33: the non-const `begin(idx)` on a fresh partition blocks later appends.
* C33: `insert` compares its position with `begin()` of the whole partition, not
  with `begin(idx)`, so inserting at the front of a later region does not move
  that region's start.
* C33: `Procedure::emplace_stmt` passes `insert` its two iterators in the wrong
  order. `std::distance` over the reversed range is undefined behaviour.
* C39: a sequence that fails after its first statement is dropped with the statements it took, and the
  caller goes on behind them: `do i=1,2; x=1; end` is a program whose tree has only `end`, without a
  message; a statement behind the last `end` is dropped; `associate` without its end fails an assertion.
  The last statement shared by several loops is a leaf once for each of them.
* C40: a state over a part of a list reads on behind its end; `block` as the last statement gives a tree
  to the hidden end element of the list.
* C58: a do construct that finds no end stays behind its body.
* C59: with a range that ends inside a loop, the statement behind the range is taken again and again.
* C60: a label on the `end do` of a loop without label fails an assertion; a labelled statement inside
  an inner loop without label ends the inner loop; an `end do` without label ends a labelled loop and
  leaves the label on the stack, where it makes later statements with that label invisible.
* C61: replacing text on a line that is continued drops its `&`; when a range of several lines is replaced, a line in
  the middle that has a comment loses the comment and keeps its code; the comment of the last line is lost; replacing
  the only token of a line `& x` throws `out_of_range`; comment lines between the lines make the edit go to
  the wrong line; after `replace_fragment` the end column is stale, so text goes inside the token; with two or more
  added lines `replace_main_text` leaves the middle ones without `&`, and with fewer texts than lines it always
  fails an assertion (its code to clear the excess lines is dead); a range that ends in a fused keyword is undefined
  behaviour, and text between the halves goes in front of both.
* C62: the comment goes into a character string that is continued on the next line, and the line cannot be read any
  more; it is also added to preprocessor lines; in fixed format a name that goes on on the next line is cut in two
  when the line is read again.
* C64: the line made of a statement behind a labelled one is still flagged as labelled but has no label, so any
  change of its text fails an assertion; appending to a statement that has been split off its successor uses an erased
  token; on a line that begins with a semicolon the wrong tokens are replaced; `insert_text_after` lets a text in that
  adds a statement, which is missing in the list; label 0 stays in the text as `0`; nothing can be inserted at the end.
* C66: an internal subprogram may contain internal subprograms (the parser accepts them), and these are not visited.
* C67: `Parsed_File::read_file` returns `bad_state_`: `true` when reading failed and `false` when it worked, the opposite of `operator bool` and of `read_and_scan`. Its result is not documented, so this is our reading of what a user expects; `build_tree_` dereferences the tree of a failed parse, which is empty, so that an assertion fails (without assertions: a null pointer).
* C70: `rename` of a main program without a `program` statement is undefined behaviour: `emplace_stmt` gives the
  iterators to `Range_Partition::insert` in the wrong order (see C33), so no call of it ever returns. Also, `rename` does not
  touch the body: a function whose result variable has the function's own name still assigns to the old name, and
  references to the procedure elsewhere keep the old one (stated in C70: only the two name tokens change).
* C71: `split_compound_stmts` gives every statement of a labelled line the label (`10 a=1; b=2` becomes two lines labelled
  10) and each of them all of the comments; a keyword that the lexer splits in two (`goto`, `endif`) behind another token of
  its statement makes the call undefined behaviour. `remove_empty_stmts` has its condition the wrong way round and never
  removes anything. `do_output_` of the options is not initialised, and is read unless `-o` or `-q` is given.
* C73: `Module_Action` adds the use statement with `emplace_stmt`, so that it never comes back (C33) for just those
  procedures where it has something to do: `C73_violation_use`.
* C73: for a procedure that already uses the module the answer is true, so that the application renames the file to `.bak`
  and writes it anew though nothing has changed: `C73_used_partial`.
* C74: a continuation line without a leading ampersand in the first column is moved to the right like any other; if it ends a
  character string, the string gains a blank: `C74_violation_column`.
* C74: blanks behind the `!` of a comment in the first column are removed, so that `!       #flpr x` becomes a directive:
  `C74_violation_directive`.
* C46: a blank line inside a continued statement ends the continuation for the next line, whose first number becomes a label
  (`C46_violation_blank`); a comment or blank line between the lines of a split character string makes the file unreadable
  (`C46_violation_comment`).
* C41: a main program that is nothing but `end` is parsed, and `ingest` fails the check `validate()` on it
  (one region in use; see C33).
* Not covered by a property: `stoi` on a label of a do beyond `int` throws inside a `noexcept` function.
