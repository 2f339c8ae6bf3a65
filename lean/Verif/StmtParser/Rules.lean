/-!
# The rules of the statement grammar (src/flpr/parse_stmt.cc)

One constructor per function `Stmt_Tree f(TT_Stream &)` of the file.  Written by `tools/grammar.py`.
-/

namespace FLPR
namespace SP

/-- The rule functions of parse_stmt.cc. -/
inductive R where
  | consume_parens
  | list_name
  | bind_c
  | access_id
  | access_spec
  | access_stmt
  | action_stmt
  | actual_arg
  | actual_arg_spec
  | add_op
  | alloc_opt
  | allocatable_stmt
  | allocatable_decl
  | allocate_coarray_spec
  | allocate_coshape_spec
  | allocate_object
  | allocate_shape_spec
  | allocate_stmt
  | allocation
  | arithmetic_if_stmt
  | array_element
  | array_spec
  | assignment_stmt
  | associate_stmt
  | association
  | assumed_implied_spec
  | assumed_shape_spec
  | assumed_size_spec
  | asynchronous_stmt
  | attr_spec
  | backspace_stmt
  | bind_entity
  | bind_stmt
  | binding_attr
  | binding_private_stmt
  | block_stmt
  | bounds_remapping
  | bounds_spec
  | call_stmt
  | case_selector
  | case_stmt
  | case_value_range
  | char_length
  | char_selector
  | close_stmt
  | coarray_spec
  | codimension_decl
  | codimension_stmt
  | coindexed_named_object
  | common_block_object
  | common_stmt
  | component_array_spec
  | component_attr_spec
  | component_data_source
  | component_decl
  | component_def_stmt
  | component_initialization
  | component_spec
  | computed_goto_stmt
  | concurrent_control
  | concurrent_header
  | concurrent_locality
  | contains_stmt
  | continue_stmt
  | cosubscript
  | cycle_stmt
  | data_component_def_stmt
  | data_implied_do
  | data_pointer_object
  | data_ref
  | data_stmt
  | data_stmt_constant
  | data_stmt_object
  | data_stmt_repeat
  | data_stmt_set
  | data_stmt_value
  | dealloc_opt
  | deallocate_stmt
  | declaration_type_spec
  | declaration_type_spec_no_kind
  | default_char_expr
  | deferred_shape_spec
  | defined_io_generic_spec
  | defined_operator
  | derived_type_spec
  | derived_type_stmt
  | designator
  | dimension_stmt
  | do_stmt
  | dummy_arg
  | else_stmt
  | else_if_stmt
  | elsewhere_stmt
  | end_associate_stmt
  | end_block_stmt
  | end_do
  | end_do_stmt
  | end_enum_stmt
  | end_forall_stmt
  | end_function_stmt
  | end_if_stmt
  | end_interface_stmt
  | end_module_stmt
  | end_mp_subprogram_stmt
  | end_program_stmt
  | end_select_stmt
  | end_select_rank_stmt
  | end_select_type_stmt
  | end_submodule_stmt
  | end_subroutine_stmt
  | end_type_stmt
  | end_where_stmt
  | endfile_stmt
  | entity_decl
  | entry_stmt
  | enumerator
  | enumerator_def_stmt
  | enum_def_stmt
  | equiv_op
  | equivalence_object
  | equivalence_set
  | equivalence_stmt
  | error_stop_stmt
  | event_post_stmt
  | event_wait_stmt
  | explicit_coshape_spec
  | explicit_shape_spec
  | exit_stmt
  | expr
  | extended_intrinsic_op
  | external_stmt
  | fail_image_stmt
  | form_team_stmt
  | final_procedure_stmt
  | flush_stmt
  | forall_assignment_stmt
  | forall_construct_stmt
  | forall_stmt
  | format
  | format_specification
  | format_stmt
  | function_reference
  | function_stmt
  | generic_spec
  | generic_stmt
  | goto_stmt
  | if_stmt
  | if_then_stmt
  | image_selector
  | image_selector_spec
  | implicit_none_spec
  | implicit_spec
  | implicit_stmt
  | implied_shape_or_assumed_size_spec
  | implied_shape_spec
  | import_stmt
  | initialization
  | input_item
  | inquire_stmt
  | int_constant_expr
  | int_expr
  | integer_type_spec
  | intent_spec
  | intent_stmt
  | interface_stmt
  | intrinsic_operator
  | intrinsic_stmt
  | intrinsic_type_spec
  | intrinsic_type_spec_no_kind
  | io_implied_do
  | io_implied_do_control
  | io_implied_do_object
  | kind_selector
  | label
  | label_do_stmt
  | language_binding_spec
  | length_selector
  | letter_spec
  | locality_spec
  | lock_stmt
  | logical_expr
  | logical_literal_constant
  | loop_control
  | lower_bound_expr
  | macro_stmt
  | masked_elsewhere_stmt
  | module_nature
  | module_stmt
  | mp_subprogram_stmt
  | mult_op
  | named_constant_def
  | namelist_stmt
  | nonlabel_do_stmt
  | nullify_stmt
  | only
  | open_stmt
  | optional_stmt
  | other_specification_stmt
  | output_item
  | parameter_stmt
  | parent_string
  | part_ref
  | pointer_assignment_stmt
  | pointer_decl
  | pointer_object
  | pointer_stmt
  | «prefix»
  | prefix_spec
  | print_stmt
  | private_components_stmt
  | private_or_sequence
  | proc_attr_spec
  | proc_component_attr_spec
  | proc_component_def_stmt
  | proc_component_ref
  | proc_decl
  | proc_interface
  | proc_language_binding_spec
  | proc_pointer_init
  | proc_pointer_object
  | proc_target
  | procedure_declaration_stmt
  | procedure_designator
  | procedure_stmt
  | program_stmt
  | protected_stmt
  | read_stmt
  | real_literal_constant
  | rel_op
  | rename
  | return_stmt
  | rewind_stmt
  | save_stmt
  | saved_entity
  | section_subscript
  | select_case_stmt
  | select_rank_stmt
  | select_rank_case_stmt
  | select_type_stmt
  | selector
  | sequence_stmt
  | sign
  | signed_real_literal_constant
  | stop_stmt
  | structure_component
  | structure_constructor
  | submodule_stmt
  | subroutine_stmt
  | substring
  | substring_range
  | suffix
  | sync_all_stmt
  | sync_images_stmt
  | sync_memory_stmt
  | sync_stat
  | sync_team_stmt
  | target_decl
  | target_stmt
  | type_attr_spec
  | type_bound_generic_stmt
  | type_bound_proc_binding
  | type_bound_proc_decl
  | type_bound_procedure_stmt
  | type_decl_attr_seq1
  | type_decl_attr_seq2
  | type_declaration_stmt
  | type_guard_stmt
  | type_param_attr_spec
  | type_param_decl
  | type_param_def_stmt
  | type_param_spec
  | type_param_value
  | type_spec
  | unlock_stmt
  | upper_bound_expr
  | use_stmt
  | value_stmt
  | «variable»
  | volatile_stmt
  | wait_spec
  | wait_stmt
  | where_construct_stmt
  | where_stmt
  | write_stmt
  deriving DecidableEq, Repr

/-- All of them. -/
def R.all : List R :=
  [.consume_parens, .list_name, .bind_c, .access_id, .access_spec, .access_stmt, .action_stmt,
   .actual_arg, .actual_arg_spec, .add_op, .alloc_opt, .allocatable_stmt, .allocatable_decl,
   .allocate_coarray_spec, .allocate_coshape_spec, .allocate_object, .allocate_shape_spec,
   .allocate_stmt, .allocation, .arithmetic_if_stmt, .array_element, .array_spec,
   .assignment_stmt, .associate_stmt, .association, .assumed_implied_spec, .assumed_shape_spec,
   .assumed_size_spec, .asynchronous_stmt, .attr_spec, .backspace_stmt, .bind_entity, .bind_stmt,
   .binding_attr, .binding_private_stmt, .block_stmt, .bounds_remapping, .bounds_spec,
   .call_stmt, .case_selector, .case_stmt, .case_value_range, .char_length, .char_selector,
   .close_stmt, .coarray_spec, .codimension_decl, .codimension_stmt, .coindexed_named_object,
   .common_block_object, .common_stmt, .component_array_spec, .component_attr_spec,
   .component_data_source, .component_decl, .component_def_stmt, .component_initialization,
   .component_spec, .computed_goto_stmt, .concurrent_control, .concurrent_header,
   .concurrent_locality, .contains_stmt, .continue_stmt, .cosubscript, .cycle_stmt,
   .data_component_def_stmt, .data_implied_do, .data_pointer_object, .data_ref, .data_stmt,
   .data_stmt_constant, .data_stmt_object, .data_stmt_repeat, .data_stmt_set, .data_stmt_value,
   .dealloc_opt, .deallocate_stmt, .declaration_type_spec, .declaration_type_spec_no_kind,
   .default_char_expr, .deferred_shape_spec, .defined_io_generic_spec, .defined_operator,
   .derived_type_spec, .derived_type_stmt, .designator, .dimension_stmt, .do_stmt, .dummy_arg,
   .else_stmt, .else_if_stmt, .elsewhere_stmt, .end_associate_stmt, .end_block_stmt, .end_do,
   .end_do_stmt, .end_enum_stmt, .end_forall_stmt, .end_function_stmt, .end_if_stmt,
   .end_interface_stmt, .end_module_stmt, .end_mp_subprogram_stmt, .end_program_stmt,
   .end_select_stmt, .end_select_rank_stmt, .end_select_type_stmt, .end_submodule_stmt,
   .end_subroutine_stmt, .end_type_stmt, .end_where_stmt, .endfile_stmt, .entity_decl,
   .entry_stmt, .enumerator, .enumerator_def_stmt, .enum_def_stmt, .equiv_op,
   .equivalence_object, .equivalence_set, .equivalence_stmt, .error_stop_stmt, .event_post_stmt,
   .event_wait_stmt, .explicit_coshape_spec, .explicit_shape_spec, .exit_stmt, .expr,
   .extended_intrinsic_op, .external_stmt, .fail_image_stmt, .form_team_stmt,
   .final_procedure_stmt, .flush_stmt, .forall_assignment_stmt, .forall_construct_stmt,
   .forall_stmt, .format, .format_specification, .format_stmt, .function_reference,
   .function_stmt, .generic_spec, .generic_stmt, .goto_stmt, .if_stmt, .if_then_stmt,
   .image_selector, .image_selector_spec, .implicit_none_spec, .implicit_spec, .implicit_stmt,
   .implied_shape_or_assumed_size_spec, .implied_shape_spec, .import_stmt, .initialization,
   .input_item, .inquire_stmt, .int_constant_expr, .int_expr, .integer_type_spec, .intent_spec,
   .intent_stmt, .interface_stmt, .intrinsic_operator, .intrinsic_stmt, .intrinsic_type_spec,
   .intrinsic_type_spec_no_kind, .io_implied_do, .io_implied_do_control, .io_implied_do_object,
   .kind_selector, .label, .label_do_stmt, .language_binding_spec, .length_selector,
   .letter_spec, .locality_spec, .lock_stmt, .logical_expr, .logical_literal_constant,
   .loop_control, .lower_bound_expr, .macro_stmt, .masked_elsewhere_stmt, .module_nature,
   .module_stmt, .mp_subprogram_stmt, .mult_op, .named_constant_def, .namelist_stmt,
   .nonlabel_do_stmt, .nullify_stmt, .only, .open_stmt, .optional_stmt,
   .other_specification_stmt, .output_item, .parameter_stmt, .parent_string, .part_ref,
   .pointer_assignment_stmt, .pointer_decl, .pointer_object, .pointer_stmt, .«prefix»,
   .prefix_spec, .print_stmt, .private_components_stmt, .private_or_sequence, .proc_attr_spec,
   .proc_component_attr_spec, .proc_component_def_stmt, .proc_component_ref, .proc_decl,
   .proc_interface, .proc_language_binding_spec, .proc_pointer_init, .proc_pointer_object,
   .proc_target, .procedure_declaration_stmt, .procedure_designator, .procedure_stmt,
   .program_stmt, .protected_stmt, .read_stmt, .real_literal_constant, .rel_op, .rename,
   .return_stmt, .rewind_stmt, .save_stmt, .saved_entity, .section_subscript, .select_case_stmt,
   .select_rank_stmt, .select_rank_case_stmt, .select_type_stmt, .selector, .sequence_stmt,
   .sign, .signed_real_literal_constant, .stop_stmt, .structure_component,
   .structure_constructor, .submodule_stmt, .subroutine_stmt, .substring, .substring_range,
   .suffix, .sync_all_stmt, .sync_images_stmt, .sync_memory_stmt, .sync_stat, .sync_team_stmt,
   .target_decl, .target_stmt, .type_attr_spec, .type_bound_generic_stmt,
   .type_bound_proc_binding, .type_bound_proc_decl, .type_bound_procedure_stmt,
   .type_decl_attr_seq1, .type_decl_attr_seq2, .type_declaration_stmt, .type_guard_stmt,
   .type_param_attr_spec, .type_param_decl, .type_param_def_stmt, .type_param_spec,
   .type_param_value, .type_spec, .unlock_stmt, .upper_bound_expr, .use_stmt, .value_stmt,
   .«variable», .volatile_stmt, .wait_spec, .wait_stmt, .where_construct_stmt, .where_stmt,
   .write_stmt]

theorem R.mem_all (r : R) : r ∈ R.all := by cases r <;> decide

end SP
end FLPR
