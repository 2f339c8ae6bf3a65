import Verif.StmtParser.Rules
import Verif.Tags.Defs
import Verif.Base
/-!
# The statement parser combinators (src/flpr/Stmt_Parsers.hh): terms

The combinators are class templates and every use is a constant expression, so a parser is a finite
term.  `P` are the terms; what they do is in `Eval.lean`.
-/

namespace FLPR
namespace SP

/-- The parser terms. -/
inductive P where
  /-- Stmt_Parsers.hh:37-67 `Alternatives_Parser` -/
  | alts (tag : Int) (ps : List P)
  /-- Stmt_Parsers.hh:84-93 `Letter_Parser` -/
  | letter
  /-- Stmt_Parsers.hh:99-113 `Literal_Parser` -/
  | literal (s : Str)
  /-- Stmt_Parsers.hh:119-132 `Name_Parser` -/
  | name
  /-- Stmt_Parsers.hh:138-150 `Negated_Parser` -/
  | neg (p : P)
  /-- Stmt_Parsers.hh:158-170 `Optional_Parser` -/
  | opt (p : P)
  /-- Stmt_Parsers.hh:178-189 `Peek_Parser` -/
  | peek (tag : Int)
  /-- Stmt_Parsers.hh:204-219 `Rule_Parser` -/
  | rule (r : R)
  /-- Stmt_Parsers.hh:229-260 `Sequence_Parser` -/
  | seq (tag : Int) (ps : List P)
  /-- Stmt_Parsers.hh:279-302 `Star_Parser` -/
  | star (p : P)
  /-- Stmt_Parsers.hh:315-333 `Tag_Parser` -/
  | tagIf (tag : Int) (p : P)
  /-- Stmt_Parsers.hh:343-359 `Token_Parser` -/
  | tok (tag : Int)

/-- Stmt_Parsers.hh:371-387 `List_Parser`: it builds this sequence and runs it. -/
def P.list (tag : Int) (p : P) : P :=
  .seq tag [p, .star (.seq Tag.HOIST [.tok Tag.TK_COMMA, p])]

/-- Stmt_Parsers.hh:399-408 `parens`, `h_parens`. -/
def P.parens (tag : Int) (ps : List P) : P :=
  .seq tag (.tok Tag.TK_PARENL :: (ps ++ [.tok Tag.TK_PARENR]))

/-- Stmt_Parsers.hh:410-420 `brackets`, `h_brackets`. -/
def P.brackets (tag : Int) (ps : List P) : P :=
  .seq tag (.tok Tag.TK_BRACKETL :: (ps ++ [.tok Tag.TK_BRACKETR]))

/-- What a rule function does. -/
inductive Body where
  /-- `return p(ts)` -/
  | comb (p : P)
  /-- parse_stmt.cc:1729-1735 `expr` with `consume_until_break` (56-102); `real` is the parser of `real_literal_constant` -/
  | expr (tag : Int) (real : P)
  /-- parse_stmt.cc:105-126 `consume_parens` -/
  | parens
  /-- parse_stmt.cc:133-142 `list_name` -/
  | listName
  /-- parse_stmt.cc:2938-2982 `procedure_designator`, with the parser run on the sub-stream -/
  | procDesignator (p : P)
  /-- `action_stmt` (`true`) and `other_specification_stmt` (`false`): try `p`, then the registered
  extensions -/
  | withExts (action : Bool) (p : P)

end SP
end FLPR
