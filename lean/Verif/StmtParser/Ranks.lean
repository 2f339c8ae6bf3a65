import Verif.StmtParser.Rules
/-!
# Tables for the termination proof

Nothing is taken on trust from these tables: `Term.lean` checks them against the grammar.  Written by
`tools/grammar.py`.
-/

namespace FLPR
namespace SP

/-- The rules that can match without taking a token. -/
def R.mayTakeNone : List R :=
  [.action_stmt, .concurrent_locality, .import_stmt, .interface_stmt, .other_specification_stmt,
   .«prefix», .procedure_designator]

/-- A rule calls only rules of lower rank before it takes a token. -/
def R.rank : R → Nat
  | .access_id => 2
  | .access_stmt => 1
  | .action_stmt => 7
  | .actual_arg => 1
  | .actual_arg_spec => 2
  | .allocate_coarray_spec => 3
  | .allocate_coshape_spec => 2
  | .allocate_object => 2
  | .allocate_shape_spec => 2
  | .allocation => 3
  | .array_spec => 3
  | .assignment_stmt => 4
  | .assumed_implied_spec => 1
  | .assumed_shape_spec => 1
  | .assumed_size_spec => 2
  | .attr_spec => 1
  | .bind_stmt => 1
  | .binding_attr => 1
  | .bounds_remapping => 2
  | .bounds_spec => 2
  | .case_value_range => 1
  | .char_selector => 1
  | .coarray_spec => 2
  | .component_array_spec => 2
  | .component_attr_spec => 1
  | .component_data_source => 6
  | .component_def_stmt => 4
  | .component_spec => 7
  | .concurrent_locality => 1
  | .cosubscript => 2
  | .data_component_def_stmt => 3
  | .data_implied_do => 1
  | .data_pointer_object => 4
  | .data_ref => 1
  | .data_stmt_constant => 3
  | .data_stmt_object => 4
  | .data_stmt_repeat => 3
  | .data_stmt_set => 5
  | .data_stmt_value => 4
  | .declaration_type_spec => 2
  | .declaration_type_spec_no_kind => 1
  | .default_char_expr => 1
  | .defined_operator => 3
  | .designator => 2
  | .do_stmt => 1
  | .end_do => 1
  | .equivalence_object => 4
  | .explicit_coshape_spec => 1
  | .explicit_shape_spec => 1
  | .extended_intrinsic_op => 2
  | .forall_assignment_stmt => 7
  | .format => 1
  | .format_specification => 1
  | .function_reference => 2
  | .function_stmt => 5
  | .generic_spec => 1
  | .implicit_spec => 3
  | .implied_shape_or_assumed_size_spec => 2
  | .implied_shape_spec => 2
  | .input_item => 4
  | .int_constant_expr => 2
  | .int_expr => 1
  | .intrinsic_operator => 1
  | .intrinsic_type_spec => 1
  | .io_implied_do_control => 4
  | .io_implied_do_object => 5
  | .logical_expr => 1
  | .lower_bound_expr => 1
  | .only => 2
  | .other_specification_stmt => 2
  | .output_item => 1
  | .parent_string => 2
  | .pointer_assignment_stmt => 6
  | .pointer_object => 2
  | .«prefix» => 4
  | .prefix_spec => 3
  | .private_or_sequence => 1
  | .proc_attr_spec => 2
  | .proc_component_attr_spec => 1
  | .proc_component_ref => 4
  | .proc_interface => 3
  | .proc_language_binding_spec => 1
  | .proc_pointer_init => 3
  | .proc_pointer_object => 5
  | .proc_target => 5
  | .procedure_designator => 1
  | .section_subscript => 2
  | .selector => 4
  | .signed_real_literal_constant => 1
  | .structure_component => 1
  | .structure_constructor => 1
  | .subroutine_stmt => 5
  | .substring => 3
  | .substring_range => 2
  | .suffix => 2
  | .type_attr_spec => 1
  | .type_bound_proc_binding => 1
  | .type_decl_attr_seq1 => 3
  | .type_declaration_stmt => 4
  | .type_param_def_stmt => 1
  | .type_param_spec => 3
  | .type_param_value => 2
  | .type_spec => 2
  | .upper_bound_expr => 1
  | .«variable» => 3
  | .wait_spec => 1
  | _ => 0

end SP
end FLPR
