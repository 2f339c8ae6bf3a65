import Verif.Program.ShapeSpec
/-!
# The statement trees that a parse leaves behind (src/flpr/LL_Stmt.hh)
-/

namespace FLPR
namespace PP
open SP (SNode)

/-- LL_Stmt.hh:75-92: `stmt_tree_` of statement `i`, which is what was last given to `set_stmt_tree`; `none` if it
is empty. -/
def PState.treeOf (s : PState) (i : Nat) : Option SNode := (s.attached.find? (fun e => e.1 == i)).map (·.2)

/-- LL_Stmt.hh:151-160 `extract_tree_tag_`: the new value of `stmt_syntag_`. -/
def treeTag : Option SNode → Res Int
  | none => .ok Tag.UNKNOWN
  | some t => do
    let c ← if t.tag = Tag.SG_ACTION_STMT then Cur.down (t, []) else (.ok (t, []) : Res Cur)
    .ok c.1.tag

end PP

namespace Spec

mutual
/-- The statements of a tree, with their tags, without the actions that end an inner one of the loops that share their
last statement.  `b`: the tree is a branch of such a loop. -/
def Sh.own (b : Bool) : Sh → List (Nat × Int)
  | .leaf i t => [(i, t)]
  | .inner t ks =>
    if b = true ∧ t = Tag.PG_DO_TERM_SHARED_STMT then (Sh.ownAll false ks).filter (fun e => decide (e.2 ≠ Tag.SG_ACTION_STMT))
    else Sh.ownAll (decide (t = Tag.PG_INNER_SHARED_DO_CONSTRUCT)) ks
/-- The same for some trees. -/
def Sh.ownAll (b : Bool) : List Sh → List (Nat × Int)
  | [] => []
  | k :: ks => Sh.own b k ++ Sh.ownAll b ks
end

/-- The statements of a program tree, with the tags of their leaves; of loops that share their last statement, only
the outermost has it. -/
def ownLeaves (t : PP.PNode) : List (Nat × Int) := Sh.own false (erase t)

/-- The statement parsers that the program parsers call (Prgm_Parsers_impl.hh, Prgm_Parsers_utils.hh:494-671). -/
def stmtRules : List SP.R :=
  [.action_stmt, .assignment_stmt, .associate_stmt, .binding_private_stmt, .block_stmt, .case_stmt, .component_def_stmt, .contains_stmt,
   .data_stmt, .derived_type_stmt, .do_stmt, .else_if_stmt, .else_stmt, .elsewhere_stmt, .end_associate_stmt, .end_block_stmt, .end_do,
   .end_do_stmt, .end_enum_stmt, .end_forall_stmt, .end_function_stmt, .end_if_stmt, .end_interface_stmt, .end_module_stmt,
   .end_mp_subprogram_stmt, .end_program_stmt, .end_select_rank_stmt, .end_select_stmt, .end_select_type_stmt, .end_subroutine_stmt,
   .end_type_stmt, .end_where_stmt, .entry_stmt, .enum_def_stmt, .enumerator_def_stmt, .forall_assignment_stmt, .forall_construct_stmt,
   .forall_stmt, .format_stmt, .function_stmt, .generic_stmt, .if_then_stmt, .implicit_stmt, .import_stmt, .interface_stmt,
   .masked_elsewhere_stmt, .module_stmt, .mp_subprogram_stmt, .other_specification_stmt, .parameter_stmt, .private_or_sequence,
   .procedure_declaration_stmt, .procedure_stmt, .program_stmt, .select_case_stmt, .select_rank_case_stmt, .select_rank_stmt,
   .select_type_stmt, .subroutine_stmt, .type_bound_proc_binding, .type_declaration_stmt, .type_guard_stmt, .use_stmt,
   .where_construct_stmt, .where_stmt]

/-- `n` is the tree that one of these parsers makes of statement `i` of `l`. -/
def Made (x : SP.Exts) (l : List PP.LStmt) (i : Nat) (n : SP.SNode) : Prop :=
  ∃ r ∈ stmtRules, ∃ st q, l[i]? = some st ∧ Returns x r st.strm (.ok (some n, q))

end Spec
end FLPR
