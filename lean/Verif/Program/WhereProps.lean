import Verif.Program.Props
/-!
# C55, C40: the first statement of a where or forall construct
-/

namespace FLPR
namespace PP
open Spec
open SP (R)

/-- `where (m)` -/
def xWhere : LStmt := xstmt 0 [xtok Tag.KW_WHERE, xtok Tag.TK_PARENL, xtok Tag.TK_NAME, xtok Tag.TK_PARENR]
/-- `end where` -/
def xEndWhere : LStmt := xstmt 0 [xtok Tag.KW_END, xtok Tag.KW_WHERE]
/-- `forall (i=1:2)` -/
def xForall : LStmt := xstmt 0 [xtok Tag.KW_FORALL, xtok Tag.TK_PARENL, xtok Tag.TK_NAME, xtok Tag.TK_EQUAL,
  xtok Tag.SG_INT_LITERAL_CONSTANT, xtok Tag.TK_COLON, xtok Tag.SG_INT_LITERAL_CONSTANT, xtok Tag.TK_PARENR]
/-- `end forall` -/
def xEndForall : LStmt := xstmt 0 [xtok Tag.KW_END, xtok Tag.KW_FORALL]

/-- C55 fails for the first statement of a where or forall construct, which `action_stmt` is tried on before the
construct is: behind the closing parenthesis `procedure_designator` is called at the end of the statement, and the
range of tokens it makes ends before it begins. -/
theorem C55_violation_where : Returns noExts .action_stmt xWhere.strm (.error .ub) ∧
    Returns noExts .action_stmt xForall.strm (.error .ub) :=
  ⟨SP.returns_ub 60 (by decide +kernel), SP.returns_ub 60 (by decide +kernel)⟩

/-- C40 fails for programs with a where or forall construct:
`subroutine s; where (m); x=1; end where; end`. -/
theorem C40_violation_where :
    PReturns noExts .program (xstate [xSub, xWhere, xAssign 0, xEndWhere, xEnd]) (.error .ub) ∧
    PReturns noExts .program (xstate [xSub, xForall, xAssign 0, xEndForall, xEnd]) (.error .ub) :=
  ⟨fails_of 60 (by decide +kernel), fails_of 60 (by decide +kernel)⟩

end PP
end FLPR
