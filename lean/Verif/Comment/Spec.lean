import Verif.Program.AlikeSpec
import Verif.ParsedFile.Props
/-!
# Specification: statements that are the same but for line numbers (C77)
-/

namespace FLPR
namespace Spec
open SP PP PF

/-- The same token but for the line it is on. -/
def TokElsewhere (t t' : Tok) : Prop := t' = { t with line := t'.line }

/-- The same statement but for the lines it is on: the label, and the tokens. -/
structure StmtElsewhere (s s' : LStmt) : Prop where
  label : s'.label = s.label
  toks : List.Forall₂ TokElsewhere s.strm.all s'.strm.all
  lo : s'.strm.lo = s.strm.lo
  hi : s'.strm.hi = s.strm.hi
  pos : s'.strm.pos = s.strm.pos

/-- The statements of the lines of a file. -/
def statementsIn (lines : List LLine) : List LStmt := (stmtsOf lines).map (stmtView lines)

/-- What comment lines must not change: the statements, and the state of the scanner at the end. -/
structure SameStatements (r r' : List LLine × Flex.State) : Prop where
  stmts : List.Forall₂ StmtElsewhere (statementsIn r.1) (statementsIn r'.1)
  state : r'.2 = r.2

/-- Lines may be put behind the lines `A`: they do not end within a character string that is continued, nor within text to be left alone, nor in
a backslash. -/
def CommentSpot (A : List Str) : Prop :=
  ∀ fs, analyzeAllFree 1 NUL false false A = .ok (some fs) → ∀ f, fs.getLast? = some f →
    f.open_delim = NUL ∧ f.bits.flpr_lit = false ∧ ¬ EndsBackslash f.print

/-- The lines `A` end in a line that is continued. -/
def EndsContinued (A : List Str) : Prop :=
  ∃ fs f, analyzeAllFree 1 NUL false false A = .ok (some fs) ∧ fs.getLast? = some f ∧ f.bits.continued = true

/-- A comment line, or a blank line that is not within a statement. -/
def Idle (A : List Str) (c : Str) : Prop := lineCat false c = .comment ∨ (lineCat false c = .blank ∧ ¬ EndsContinued A)

end Spec
end FLPR
