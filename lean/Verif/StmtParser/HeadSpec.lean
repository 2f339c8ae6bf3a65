import Verif.StmtParser.FormProps
import Verif.Apps.Module
/-!
# Specification for C84: statements made of a head and a statement of another kind
-/

namespace FLPR
namespace Spec
open SP

/-- R1055 forall-stmt, without the assignment. -/
def forallHead : Form := .seqs [.word Tag.KW_FORALL, Std.concurrentHeader]

/-- The statement is a head of the form and, from position `i` on, something that `B` holds for. -/
def HeadThen (H : Form) (B : Strm → Prop) (s : Strm) : Prop :=
  ∃ w i, s.pos ≤ i ∧ i ≤ s.hi ∧ restOf s = w ++ restOf (s.goto i) ∧ H.Is w ∧ B (s.goto i)

/-- `parse_stmt_dispatch(tag, ts)` has undefined behaviour. -/
def Undefined (x : Exts) (tag : Int) (s : Strm) : Prop := DispatchReturns x tag s (.error .ub)

/-- `parse_stmt_dispatch(tag, ts)` returns without a tree. -/
def Rejected (x : Exts) (tag : Int) (s : Strm) : Prop := ∃ q, DispatchReturns x tag s (.ok (none, q))

/-- The first of them that is not `no` is `yes`. -/
def FirstOf {α : Type} (no yes : α → Prop) : List α → Prop
  | [] => False
  | a :: as => yes a ∨ (no a ∧ FirstOf no yes as)

/-- The kinds of action statements, in the order in which they are tried. -/
def actionOrder : List Int := [
  Tag.SG_ALLOCATE_STMT, Tag.SG_ASSIGNMENT_STMT, Tag.SG_BACKSPACE_STMT, Tag.SG_CALL_STMT, Tag.SG_CLOSE_STMT, Tag.SG_CONTINUE_STMT,
  Tag.SG_CYCLE_STMT, Tag.SG_DEALLOCATE_STMT, Tag.SG_ENDFILE_STMT, Tag.SG_ERROR_STOP_STMT, Tag.SG_EVENT_POST_STMT, Tag.SG_EVENT_WAIT_STMT,
  Tag.SG_EXIT_STMT, Tag.SG_FAIL_IMAGE_STMT, Tag.SG_FLUSH_STMT, Tag.SG_FORM_TEAM_STMT, Tag.SG_GOTO_STMT, Tag.SG_IF_STMT,
  Tag.SG_INQUIRE_STMT, Tag.SG_LOCK_STMT, Tag.SG_NULLIFY_STMT, Tag.SG_OPEN_STMT, Tag.SG_POINTER_ASSIGNMENT_STMT, Tag.SG_PRINT_STMT,
  Tag.SG_READ_STMT, Tag.SG_RETURN_STMT, Tag.SG_REWIND_STMT, Tag.SG_STOP_STMT, Tag.SG_SYNC_ALL_STMT, Tag.SG_SYNC_IMAGES_STMT,
  Tag.SG_SYNC_MEMORY_STMT, Tag.SG_SYNC_TEAM_STMT, Tag.SG_UNLOCK_STMT, Tag.SG_WAIT_STMT, Tag.SG_WHERE_STMT, Tag.SG_WRITE_STMT,
  Tag.SG_COMPUTED_GOTO_STMT, Tag.SG_ARITHMETIC_IF_STMT, Tag.SG_FORALL_STMT, Tag.SG_MACRO_STMT]

end Spec
end FLPR
