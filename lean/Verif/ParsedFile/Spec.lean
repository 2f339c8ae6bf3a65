import Verif.ParsedFile.Model
import Verif.LogicalFile.StmtSrcProps
import Verif.Indent.Spec
/-!
# Specification for `Parsed_File`

The answers to the questions of a user, as functions of the statements and the tree of the file.
-/

namespace FLPR
namespace Spec
open PP PF

/-- The last leaf of a tree that is the statement `i`. -/
def lastLeaf (t : Option PNode) (i : Nat) : Option (List Nat) :=
  match t with
  | none => none
  | some t => ((leafPaths t).filter (fun p => decide ((nodeAt t p).bind PNode.stmt = some i))).getLast?

/-- The answers for a file with the statements `ss` and the tree `t`; `built` tells whether the tree has been
asked for before. -/
def answers (ss : List LLStmt) (t : Option PNode) : Bool → List Op → List Seen
  | _, [] => []
  | b, .good :: qs => .flag true :: answers ss t b qs
  | b, .preStmts :: qs => .flag true :: answers ss t b qs
  | b, .stmts :: qs => .stmts ss :: answers ss t b qs
  | _, .preTree :: qs => .flag true :: answers ss t true qs
  | _, .tree :: qs => .tree t :: answers ss t true qs
  | b, .node i :: qs => .node (if b then lastLeaf t i else none) :: answers ss t b qs

/-- `parse` is the program parser, with the extensions `x`. -/
def IsParser (x : SP.Exts) (parse : PState → Res POut) : Prop :=
  ∀ s, Full s → PReturns x .program s (parse s)

end Spec
end FLPR
