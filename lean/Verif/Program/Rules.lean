/-!
# The program level parsers by name (src/flpr/Prgm_Parsers_impl.hh), generated by tools/pgrammar.py
-/

namespace FLPR
namespace PP

/-- The program level parsers. -/
inductive PR where
  | associate_construct
  | block
  | block_construct
  | block_specification_part
  | case_construct
  | component_part
  | declaration_construct
  | derived_type_def
  | do_construct
  | enum_def
  | executable_construct
  | execution_part
  | execution_part_construct
  | external_subprogram
  | forall_body_construct
  | forall_construct
  | function_subprogram
  | if_construct
  | implicit_part
  | implicit_part_stmt
  | interface_block
  | interface_body
  | interface_specification
  | internal_subprogram
  | internal_subprogram_part
  | main_program
  | module_
  | module_subprogram
  | module_subprogram_part
  | program
  | program_unit
  | separate_module_subprogram
  | select_rank_construct
  | select_type_construct
  | specification_construct
  | specification_part
  | subroutine_subprogram
  | type_bound_procedure_part
  | where_body_construct
  | where_construct
  deriving DecidableEq, Repr

/-- All of them. -/
def PR.all : List PR :=
  [.associate_construct, .block, .block_construct, .block_specification_part, .case_construct,
    .component_part, .declaration_construct, .derived_type_def, .do_construct, .enum_def,
    .executable_construct, .execution_part, .execution_part_construct, .external_subprogram,
    .forall_body_construct, .forall_construct, .function_subprogram, .if_construct,
    .implicit_part, .implicit_part_stmt, .interface_block, .interface_body,
    .interface_specification, .internal_subprogram, .internal_subprogram_part, .main_program,
    .module_, .module_subprogram, .module_subprogram_part, .program, .program_unit,
    .separate_module_subprogram, .select_rank_construct, .select_type_construct,
    .specification_construct, .specification_part, .subroutine_subprogram,
    .type_bound_procedure_part, .where_body_construct, .where_construct]

theorem PR.mem_all (r : PR) : r ∈ PR.all := by cases r <;> decide

end PP
end FLPR
