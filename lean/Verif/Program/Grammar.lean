import Verif.Program.Comb
/-!
# The program level parsers (src/flpr/Prgm_Parsers_impl.hh), generated by tools/pgrammar.py
-/

namespace FLPR
namespace PP
namespace Gr

/-- Prgm_Parsers_impl.hh:27-35 `associate_construct`. -/
def associate_construct : PBody :=
  .comb (.seqIf Tag.PG_ASSOCIATE_CONSTRUCT (.stmt .associate_stmt) [.rule .block,
    .stmt .end_associate_stmt])

/-- Prgm_Parsers_impl.hh:40-46 `block`. -/
def block : PBody :=
  .comb (.tagIf Tag.PG_BLOCK (.star (.rule .execution_part_construct)))

/-- Prgm_Parsers_impl.hh:49-58 `block_construct`. -/
def block_construct : PBody :=
  .comb (.seqIf Tag.PG_BLOCK_CONSTRUCT (.stmt .block_stmt) [.opt
    (.rule .block_specification_part), .rule .block, .stmt .end_block_stmt])

/-- Prgm_Parsers_impl.hh:61-71 `block_specification_part`. -/
def block_specification_part : PBody :=
  .comb (.seq Tag.PG_BLOCK_SPECIFICATION_PART [.star (.stmt .use_stmt), .star
    (.stmt .import_stmt), .optSeq Tag.HOIST [.star (.rule .declaration_construct),
    .rule .specification_construct]])

/-- Prgm_Parsers_impl.hh:76-84 `case_construct`. -/
def case_construct : PBody :=
  .comb (.seqIf Tag.PG_CASE_CONSTRUCT (.stmt .select_case_stmt) [.star (.seqIf Tag.HOIST
    (.stmt .case_stmt) [.rule .block]), .stmt .end_select_stmt])

/-- Prgm_Parsers_impl.hh:87-93 `component_part`. -/
def component_part : PBody :=
  .comb (.tagIf Tag.PG_COMPONENT_PART (.star (.stmt .component_def_stmt)))

/-- Prgm_Parsers_impl.hh:98-107 `declaration_construct`. -/
def declaration_construct : PBody :=
  .comb (.alts Tag.PG_DECLARATION_CONSTRUCT [.rule .specification_construct, .stmt .data_stmt,
    .stmt .format_stmt, .stmt .entry_stmt])

/-- Prgm_Parsers_impl.hh:110-120 `derived_type_def`. -/
def derived_type_def : PBody :=
  .comb (.seqIf Tag.PG_DERIVED_TYPE_DEF (.stmt .derived_type_stmt) [.opt
    (.stmt .private_or_sequence), .rule .component_part, .opt (.rule .type_bound_procedure_part),
    .stmt .end_type_stmt])

/-- Prgm_Parsers_impl.hh:128-132 `do_construct`. -/
def do_construct : PBody :=
  .legacyDo

/-- Prgm_Parsers_impl.hh:137-145 `enum_def`. -/
def enum_def : PBody :=
  .comb (.seqIf Tag.PG_ENUM_DEF (.stmt .enum_def_stmt) [.plus Tag.HOIST
    (.stmt .enumerator_def_stmt), .stmt .end_enum_stmt])

/-- Prgm_Parsers_impl.hh:148-170 `executable_construct`. -/
def executable_construct : PBody :=
  .exec (.alts Tag.PG_EXECUTABLE_CONSTRUCT [.stmt .action_stmt, .rule .associate_construct,
    .rule .block_construct, .rule .case_construct, .rule .do_construct, .rule .if_construct,
    .rule .select_rank_construct, .rule .select_type_construct, .rule .where_construct,
    .rule .forall_construct])

/-- Prgm_Parsers_impl.hh:173-180 `execution_part`. -/
def execution_part : PBody :=
  .comb (.seqIf Tag.PG_EXECUTION_PART (.rule .executable_construct) [.star
    (.rule .execution_part_construct)])

/-- Prgm_Parsers_impl.hh:183-192 `execution_part_construct`. -/
def execution_part_construct : PBody :=
  .comb (.alts Tag.PG_EXECUTION_PART_CONSTRUCT [.rule .executable_construct, .stmt .format_stmt,
    .stmt .data_stmt, .stmt .entry_stmt])

/-- Prgm_Parsers_impl.hh:195-201 `external_subprogram`. -/
def external_subprogram : PBody :=
  .comb (.alts Tag.PG_EXTERNAL_SUBPROGRAM [.rule .function_subprogram,
    .rule .subroutine_subprogram])

/-- Prgm_Parsers_impl.hh:206-216 `forall_body_construct`. -/
def forall_body_construct : PBody :=
  .comb (.alts Tag.PG_FORALL_BODY_CONSTRUCT [.stmt .forall_assignment_stmt, .stmt .where_stmt,
    .rule .where_construct, .rule .forall_construct, .stmt .forall_stmt])

/-- Prgm_Parsers_impl.hh:219-227 `forall_construct`. -/
def forall_construct : PBody :=
  .comb (.seqIf Tag.PG_FORALL_CONSTRUCT (.stmt .forall_construct_stmt) [.star
    (.rule .forall_body_construct), .stmt .end_forall_stmt])

/-- Prgm_Parsers_impl.hh:230-240 `function_subprogram`. -/
def function_subprogram : PBody :=
  .comb (.seqIf Tag.PG_FUNCTION_SUBPROGRAM (.stmt .function_stmt) [.opt
    (.rule .specification_part), .opt (.rule .execution_part), .opt
    (.rule .internal_subprogram_part), .stmt .end_function_stmt])

/-- Prgm_Parsers_impl.hh:247-258 `if_construct`. -/
def if_construct : PBody :=
  .comb (.seqIf Tag.PG_IF_CONSTRUCT (.stmt .if_then_stmt) [.rule .block, .star (.seqIf Tag.HOIST
    (.stmt .else_if_stmt) [.rule .block]), .opt (.seqIf Tag.HOIST (.stmt .else_stmt)
    [.rule .block]), .stmt .end_if_stmt])

/-- Prgm_Parsers_impl.hh:265-271 `implicit_part`. -/
def implicit_part : PBody :=
  .comb (.tagIf Tag.PG_IMPLICIT_PART (.star (.rule .implicit_part_stmt)))

/-- Prgm_Parsers_impl.hh:274-284 `implicit_part_stmt`. -/
def implicit_part_stmt : PBody :=
  .comb (.alts Tag.PG_IMPLICIT_PART_STMT [.stmt .implicit_stmt, .stmt .parameter_stmt,
    .stmt .format_stmt, .stmt .entry_stmt])

/-- Prgm_Parsers_impl.hh:287-295 `interface_block`. -/
def interface_block : PBody :=
  .comb (.seqIf Tag.PG_INTERFACE_BLOCK (.stmt .interface_stmt) [.star
    (.rule .interface_specification), .stmt .end_interface_stmt])

/-- Prgm_Parsers_impl.hh:298-310 `interface_body`. -/
def interface_body : PBody :=
  .comb (.alts Tag.PG_INTERFACE_BODY [.seqIf Tag.HOIST (.stmt .function_stmt) [.opt
    (.rule .specification_part), .stmt .end_function_stmt], .seqIf Tag.HOIST
    (.stmt .subroutine_stmt) [.opt (.rule .specification_part), .stmt .end_subroutine_stmt]])

/-- Prgm_Parsers_impl.hh:313-320 `interface_specification`. -/
def interface_specification : PBody :=
  .comb (.alts Tag.PG_INTERFACE_SPECIFICATION [.rule .interface_body, .stmt .procedure_stmt])

/-- Prgm_Parsers_impl.hh:323-329 `internal_subprogram`. -/
def internal_subprogram : PBody :=
  .comb (.alts Tag.PG_INTERNAL_SUBPROGRAM [.rule .function_subprogram,
    .rule .subroutine_subprogram])

/-- Prgm_Parsers_impl.hh:332-339 `internal_subprogram_part`. -/
def internal_subprogram_part : PBody :=
  .comb (.seqIf Tag.PG_INTERNAL_SUBPROGRAM_PART (.stmt .contains_stmt) [.star
    (.rule .internal_subprogram)])

/-- Prgm_Parsers_impl.hh:347-358 `main_program`. -/
def main_program : PBody :=
  .comb (.seqIf Tag.PG_MAIN_PROGRAM (.opt (.stmt .program_stmt)) [.opt
    (.rule .specification_part), .opt (.rule .execution_part), .opt
    (.rule .internal_subprogram_part), .stmt .end_program_stmt])

/-- Prgm_Parsers_impl.hh:361-370 `module`. -/
def module_ : PBody :=
  .comb (.seqIf Tag.PG_MODULE (.stmt .module_stmt) [.opt (.rule .specification_part), .opt
    (.rule .module_subprogram_part), .stmt .end_module_stmt])

/-- Prgm_Parsers_impl.hh:373-381 `module_subprogram`. -/
def module_subprogram : PBody :=
  .comb (.alts Tag.PG_MODULE_SUBPROGRAM [.rule .function_subprogram, .rule .subroutine_subprogram,
    .rule .separate_module_subprogram])

/-- Prgm_Parsers_impl.hh:384-391 `module_subprogram_part`. -/
def module_subprogram_part : PBody :=
  .comb (.seqIf Tag.PG_MODULE_SUBPROGRAM_PART (.stmt .contains_stmt) [.star
    (.rule .module_subprogram)])

/-- Prgm_Parsers_impl.hh:401-408 `program`. -/
def program : PBody :=
  .comb (.seq Tag.PG_PROGRAM [.plus Tag.HOIST (.rule .program_unit), .endStream])

/-- Prgm_Parsers_impl.hh:411-422 `program_unit`. -/
def program_unit : PBody :=
  .comb (.alts Tag.PG_PROGRAM_UNIT [.rule .external_subprogram, .rule .module_,
    .rule .main_program])

/-- Prgm_Parsers_impl.hh:429-439 `separate_module_subprogram`. -/
def separate_module_subprogram : PBody :=
  .comb (.seqIf Tag.PG_SEPARATE_MODULE_SUBPROGRAM (.stmt .mp_subprogram_stmt) [.opt
    (.rule .specification_part), .opt (.rule .execution_part), .opt
    (.rule .internal_subprogram_part), .stmt .end_mp_subprogram_stmt])

/-- Prgm_Parsers_impl.hh:442-452 `select_rank_construct`. -/
def select_rank_construct : PBody :=
  .comb (.seqIf Tag.PG_SELECT_RANK_CONSTRUCT (.stmt .select_rank_stmt) [.star (.seqIf Tag.HOIST
    (.stmt .select_rank_case_stmt) [.rule .block]), .stmt .end_select_rank_stmt])

/-- Prgm_Parsers_impl.hh:455-465 `select_type_construct`. -/
def select_type_construct : PBody :=
  .comb (.seqIf Tag.PG_SELECT_TYPE_CONSTRUCT (.stmt .select_type_stmt) [.star (.seqIf Tag.HOIST
    (.stmt .type_guard_stmt) [.rule .block]), .stmt .end_select_type_stmt])

/-- Prgm_Parsers_impl.hh:468-481 `specification_construct`. -/
def specification_construct : PBody :=
  .comb (.alts Tag.PG_SPECIFICATION_CONSTRUCT [.rule .derived_type_def, .rule .enum_def,
    .stmt .generic_stmt, .rule .interface_block, .stmt .parameter_stmt,
    .stmt .procedure_declaration_stmt, .stmt .other_specification_stmt,
    .stmt .type_declaration_stmt])

/-- Prgm_Parsers_impl.hh:484-494 `specification_part`. -/
def specification_part : PBody :=
  .comb (.seq Tag.PG_SPECIFICATION_PART [.star (.stmt .use_stmt), .star (.stmt .import_stmt), .opt
    (.rule .implicit_part), .star (.rule .declaration_construct)])

/-- Prgm_Parsers_impl.hh:497-506 `subroutine_subprogram`. -/
def subroutine_subprogram : PBody :=
  .comb (.seqIf Tag.PG_SUBROUTINE_SUBPROGRAM (.stmt .subroutine_stmt) [.opt
    (.rule .specification_part), .opt (.rule .execution_part), .opt
    (.rule .internal_subprogram_part), .stmt .end_subroutine_stmt])

/-- Prgm_Parsers_impl.hh:511-519 `type_bound_procedure_part`. -/
def type_bound_procedure_part : PBody :=
  .comb (.seqIf Tag.PG_TYPE_BOUND_PROCEDURE_PART (.stmt .contains_stmt) [.opt
    (.stmt .binding_private_stmt), .star (.stmt .type_bound_proc_binding)])

/-- Prgm_Parsers_impl.hh:527-535 `where_body_construct`. -/
def where_body_construct : PBody :=
  .comb (.alts Tag.PG_WHERE_BODY_CONSTRUCT [.stmt .assignment_stmt, .stmt .where_stmt,
    .rule .where_construct])

/-- Prgm_Parsers_impl.hh:538-550 `where_construct`. -/
def where_construct : PBody :=
  .comb (.seqIf Tag.PG_WHERE_CONSTRUCT (.stmt .where_construct_stmt) [.star
    (.rule .where_body_construct), .star (.seqIf Tag.HOIST (.stmt .masked_elsewhere_stmt) [.star
    (.rule .where_body_construct)]), .opt (.seqIf Tag.HOIST (.stmt .elsewhere_stmt) [.star
    (.rule .where_body_construct)]), .stmt .end_where_stmt])

end Gr

/-- What each parser does. -/
def PR.body : PR → PBody
  | .associate_construct => Gr.associate_construct
  | .block => Gr.block
  | .block_construct => Gr.block_construct
  | .block_specification_part => Gr.block_specification_part
  | .case_construct => Gr.case_construct
  | .component_part => Gr.component_part
  | .declaration_construct => Gr.declaration_construct
  | .derived_type_def => Gr.derived_type_def
  | .do_construct => Gr.do_construct
  | .enum_def => Gr.enum_def
  | .executable_construct => Gr.executable_construct
  | .execution_part => Gr.execution_part
  | .execution_part_construct => Gr.execution_part_construct
  | .external_subprogram => Gr.external_subprogram
  | .forall_body_construct => Gr.forall_body_construct
  | .forall_construct => Gr.forall_construct
  | .function_subprogram => Gr.function_subprogram
  | .if_construct => Gr.if_construct
  | .implicit_part => Gr.implicit_part
  | .implicit_part_stmt => Gr.implicit_part_stmt
  | .interface_block => Gr.interface_block
  | .interface_body => Gr.interface_body
  | .interface_specification => Gr.interface_specification
  | .internal_subprogram => Gr.internal_subprogram
  | .internal_subprogram_part => Gr.internal_subprogram_part
  | .main_program => Gr.main_program
  | .module_ => Gr.module_
  | .module_subprogram => Gr.module_subprogram
  | .module_subprogram_part => Gr.module_subprogram_part
  | .program => Gr.program
  | .program_unit => Gr.program_unit
  | .separate_module_subprogram => Gr.separate_module_subprogram
  | .select_rank_construct => Gr.select_rank_construct
  | .select_type_construct => Gr.select_type_construct
  | .specification_construct => Gr.specification_construct
  | .specification_part => Gr.specification_part
  | .subroutine_subprogram => Gr.subroutine_subprogram
  | .type_bound_procedure_part => Gr.type_bound_procedure_part
  | .where_body_construct => Gr.where_body_construct
  | .where_construct => Gr.where_construct

end PP
end FLPR
