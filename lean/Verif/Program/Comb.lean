import Verif.Program.Rules
import Verif.StmtParser.Rules
import Verif.Tags.Defs
import Verif.Base
/-!
# The program level combinators (src/flpr/Prgm_Parsers_utils.hh): terms
-/

namespace FLPR
namespace PP
open SP (R)

/-- The parser terms. -/
inductive T where
  /-- Prgm_Parsers_utils.hh:86-119 `Alternatives_Parser` -/
  | alts (tag : Int) (ps : List T)
  /-- Prgm_Parsers_utils.hh:129-140 `End_Of_Stream_Parser` -/
  | endStream
  /-- Prgm_Parsers_utils.hh:146-161 `Optional_Parser` -/
  | opt (p : T)
  /-- Prgm_Parsers_utils.hh:171-197 `Opt_Sequence_Parser` -/
  | optSeq (tag : Int) (ps : List T)
  /-- Prgm_Parsers_utils.hh:214-240 `Plus_Parser` -/
  | plus (tag : Int) (p : T)
  /-- Prgm_Parsers_utils.hh:251-283 `Sequence_Parser` -/
  | seq (tag : Int) (ps : List T)
  /-- Prgm_Parsers_utils.hh:299-342 `Sequence_If_Parser` -/
  | seqIf (tag : Int) (p : T) (ps : List T)
  /-- Prgm_Parsers_utils.hh:358-382 `Star_Parser` -/
  | star (p : T)
  /-- Prgm_Parsers_utils.hh:390-409 `Statement_Parser` -/
  | stmt (r : R)
  /-- Prgm_Parsers_utils.hh:417-437 `Tag_Parser` -/
  | tagIf (tag : Int) (p : T)
  /-- a call of a static member function of `Parsers` -/
  | rule (r : PR)

/-- What a parser function does. -/
inductive PBody where
  /-- `return p(state)` -/
  | comb (p : T)
  /-- `executable_construct`: no match if the statement carries the label that the innermost pending
  do is waiting for, otherwise `p` -/
  | exec (p : T)
  /-- `do_construct`: Prgm_Parsers_utils.hh:494-671 `Legacy_Do_Construct_Parser` -/
  | legacyDo

end PP
end FLPR
