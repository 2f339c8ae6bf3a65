import Verif.StmtParser.AlikeSpec
import Verif.Program.TreeSpec
/-!
# Specification: statements and states that program parsers should not tell apart (C75)
-/

namespace FLPR
namespace Spec
open PP

/-- Statements with the same label and equivalent tokens. -/
structure EquivStmt (s s' : LStmt) : Prop where
  label : s'.label = s.label
  strm : EquivStrm s.strm s'.strm

/-- States that agree but for the statements, and with equivalent statements. -/
structure EquivState (s s' : PState) : Prop where
  stmts : List.Forall₂ EquivStmt s.stmts s'.stmts
  rest : s' = { s with stmts := s'.stmts }

/-- The same result, and states left behind that are equivalent. -/
structure SameResult (o o' : POut) : Prop where
  tree : o'.tree = o.tree
  ok : o'.ok = o.ok
  state : EquivState o.s o'.s

end Spec
end FLPR
