import Verif.StmtParser.Comb
import Verif.Tags.Defs
/-!
# The statement grammar (src/flpr/parse_stmt.cc:140-3816) as data

Each rule function of the file is `return p(ts)` for a combinator expression `p`; the expressions are
written out here one by one, with the lines they come from.  Written by `tools/grammar.py`.
-/

namespace FLPR
namespace SP
namespace G

/-- The parser of `real_literal_constant`, which `consume_until_break` calls as well. -/
def realLiteral : P :=
  .seq Tag.SG_REAL_LITERAL_CONSTANT [.tok Tag.SG_SIGNIFICAND,
  .opt (.seq Tag.HOIST [.tok Tag.SG_EXPONENT_LETTER, .tok Tag.SG_EXPONENT]),
  .opt (.seq Tag.HOIST [.tok Tag.TK_UNDERSCORE, .tok Tag.SG_KIND_PARAM])]

/-- parse_stmt.cc:105-126 `consume_parens`. -/
def consume_parens : Body :=
  .parens

/-- parse_stmt.cc:133-142 `list_name`. -/
def list_name : Body :=
  .listName

/-- parse_stmt.cc:145-148 `bind_c`. -/
def bind_c : Body :=
  .comb (.seq Tag.HOIST [.tok Tag.KW_BIND, .tok Tag.TK_PARENL, .literal "c".toList,
  .tok Tag.TK_PARENR])

/-- parse_stmt.cc:157-165 `access_id`. -/
def access_id : Body :=
  .comb (.alts Tag.SG_ACCESS_ID [.rule .generic_spec, .name])

/-- parse_stmt.cc:168-172 `access_spec`. -/
def access_spec : Body :=
  .comb (.alts Tag.SG_ACCESS_SPEC [.tok Tag.KW_PUBLIC, .tok Tag.KW_PRIVATE])

/-- parse_stmt.cc:175-185 `access_stmt`. -/
def access_stmt : Body :=
  .comb (.seq Tag.SG_ACCESS_STMT [.rule .access_spec,
  .opt (.seq Tag.HOIST [.opt (.tok Tag.TK_DBL_COLON),
  .list Tag.SG_ACCESS_ID_LIST (.rule .access_id)]), .peek Tag.BAD])

/-- parse_stmt.cc:191-240 `action_stmt`. -/
def action_stmt : Body :=
  .withExts true (.alts Tag.SG_ACTION_STMT [.rule .allocate_stmt, .rule .assignment_stmt,
  .rule .backspace_stmt, .rule .call_stmt, .rule .close_stmt, .rule .continue_stmt,
  .rule .cycle_stmt, .rule .deallocate_stmt, .rule .endfile_stmt, .rule .error_stop_stmt,
  .rule .event_post_stmt, .rule .event_wait_stmt, .rule .exit_stmt, .rule .fail_image_stmt,
  .rule .flush_stmt, .rule .form_team_stmt, .rule .goto_stmt, .rule .if_stmt,
  .rule .inquire_stmt, .rule .lock_stmt, .rule .nullify_stmt, .rule .open_stmt,
  .rule .pointer_assignment_stmt, .rule .print_stmt, .rule .read_stmt, .rule .return_stmt,
  .rule .rewind_stmt, .rule .stop_stmt, .rule .sync_all_stmt, .rule .sync_images_stmt,
  .rule .sync_memory_stmt, .rule .sync_team_stmt, .rule .unlock_stmt, .rule .wait_stmt,
  .rule .where_stmt, .rule .write_stmt, .rule .computed_goto_stmt, .rule .arithmetic_if_stmt,
  .rule .forall_stmt, .rule .macro_stmt])

/-- parse_stmt.cc:243-251 `actual_arg`. -/
def actual_arg : Body :=
  .comb (.seq Tag.SG_ACTUAL_ARG [.rule .expr])

/-- parse_stmt.cc:254-261 `actual_arg_spec`. -/
def actual_arg_spec : Body :=
  .comb (.seq Tag.SG_ACTUAL_ARG_SPEC [.opt (.seq Tag.HOIST [.name, .tok Tag.TK_EQUAL]),
  .rule .actual_arg])

/-- parse_stmt.cc:264-271 `add_op`. -/
def add_op : Body :=
  .comb (.alts Tag.SG_ADD_OP [.tok Tag.TK_PLUS, .tok Tag.TK_MINUS])

/-- parse_stmt.cc:274-283 `alloc_opt`. -/
def alloc_opt : Body :=
  .comb (.alts Tag.SG_ALLOC_OPT [.seq Tag.HOIST [.tok Tag.KW_ERRMSG, .tok Tag.TK_EQUAL,
  .rule .«variable»], .seq Tag.HOIST [.tok Tag.KW_MOLD, .tok Tag.TK_EQUAL, .rule .expr],
  .seq Tag.HOIST [.tok Tag.KW_SOURCE, .tok Tag.TK_EQUAL, .rule .expr],
  .seq Tag.HOIST [.tok Tag.KW_STAT, .tok Tag.TK_EQUAL, .rule .«variable»]])

/-- parse_stmt.cc:286-296 `allocatable_stmt`. -/
def allocatable_stmt : Body :=
  .comb (.seq Tag.SG_ALLOCATABLE_STMT [.tok Tag.KW_ALLOCATABLE, .opt (.tok Tag.TK_DBL_COLON),
  .list Tag.SG_ALLOCATABLE_DECL_LIST (.rule .allocatable_decl), .peek Tag.BAD])

/-- parse_stmt.cc:299-306 `allocatable_decl`. -/
def allocatable_decl : Body :=
  .comb (.seq Tag.SG_ALLOCATABLE_DECL [.name, .opt (.parens Tag.HOIST [.rule .array_spec]),
  .opt (.brackets Tag.HOIST [.rule .coarray_spec])])

/-- parse_stmt.cc:309-320 `allocate_coarray_spec`. -/
def allocate_coarray_spec : Body :=
  .comb (.seq Tag.SG_ALLOCATE_COARRAY_SPEC [.opt (.seq Tag.HOIST [.list Tag.SG_ALLOCATE_COSHAPE_SPEC_LIST (.rule .allocate_coshape_spec),
  .tok Tag.TK_COMMA]), .opt (.seq Tag.HOIST [.rule .lower_bound_expr, .tok Tag.TK_COLON]),
  .tok Tag.TK_ASTERISK])

/-- parse_stmt.cc:323-330 `allocate_coshape_spec`. -/
def allocate_coshape_spec : Body :=
  .comb (.seq Tag.SG_ALLOCATE_COSHAPE_SPEC [.opt (.seq Tag.HOIST [.rule .lower_bound_expr,
  .tok Tag.TK_COLON]), .rule .upper_bound_expr])

/-- parse_stmt.cc:333-341 `allocate_object`. -/
def allocate_object : Body :=
  .comb (.alts Tag.SG_ALLOCATE_OBJECT [.rule .structure_component, .seq Tag.HOIST [.name,
  .neg (.peek Tag.TK_EQUAL)]])

/-- parse_stmt.cc:344-351 `allocate_shape_spec`. -/
def allocate_shape_spec : Body :=
  .comb (.seq Tag.SG_ALLOCATE_SHAPE_SPEC [.opt (.seq Tag.HOIST [.rule .lower_bound_expr,
  .tok Tag.TK_COLON]), .rule .upper_bound_expr])

/-- parse_stmt.cc:354-367 `allocate_stmt`. -/
def allocate_stmt : Body :=
  .comb (.seq Tag.SG_ALLOCATE_STMT [.tok Tag.KW_ALLOCATE,
  .parens Tag.HOIST [.seq Tag.HOIST [.opt (.seq Tag.HOIST [.rule .type_spec,
  .tok Tag.TK_DBL_COLON]), .list Tag.SG_ALLOCATION_LIST (.rule .allocation),
  .opt (.seq Tag.HOIST [.tok Tag.TK_COMMA, .list Tag.SG_ALLOC_OPT_LIST (.rule .alloc_opt)])]],
  .peek Tag.BAD])

/-- parse_stmt.cc:370-380 `allocation`. -/
def allocation : Body :=
  .comb (.seq Tag.SG_ALLOCATION [.rule .allocate_object, .neg (.peek Tag.TK_EQUAL),
  .opt (.parens Tag.HOIST [.list Tag.SG_ALLOCATE_SHAPE_SPEC_LIST (.rule .allocate_shape_spec)]),
  .opt (.brackets Tag.HOIST [.rule .allocate_coarray_spec])])

/-- parse_stmt.cc:383-394 `arithmetic_if_stmt`. -/
def arithmetic_if_stmt : Body :=
  .comb (.seq Tag.SG_ARITHMETIC_IF_STMT [.tok Tag.KW_IF, .parens Tag.HOIST [.rule .expr],
  .rule .label, .tok Tag.TK_COMMA, .rule .label, .tok Tag.TK_COMMA, .rule .label, .peek Tag.BAD])

/-- parse_stmt.cc:397-421 `array_element`. -/
def array_element : Body :=
  .comb (.seq Tag.SG_ARRAY_ELEMENT [.opt (.seq Tag.HOIST [.name,
  .opt (.parens Tag.HOIST [.list Tag.SG_SECTION_SUBSCRIPT_LIST (.rule .expr)]),
  .opt (.rule .image_selector), .peek Tag.TK_PERCENT, .star (.seq Tag.HOIST [.tok Tag.TK_PERCENT,
  .name, .opt (.parens Tag.HOIST [.list Tag.SG_SECTION_SUBSCRIPT_LIST (.rule .expr)]),
  .opt (.rule .image_selector), .peek Tag.TK_PERCENT]), .tok Tag.TK_PERCENT]), .name,
  .parens Tag.HOIST [.list Tag.SG_SECTION_SUBSCRIPT_LIST (.rule .expr)],
  .opt (.rule .image_selector)])

/-- parse_stmt.cc:424-442 `array_spec`. -/
def array_spec : Body :=
  .comb (.alts Tag.SG_ARRAY_SPEC [.rule .assumed_size_spec,
  .list Tag.SG_EXPLICIT_SHAPE_SPEC_LIST (.rule .explicit_shape_spec),
  .list Tag.SG_ASSUMED_SHAPE_SPEC_LIST (.rule .assumed_shape_spec), .rule .implied_shape_spec,
  .rule .implied_shape_or_assumed_size_spec,
  .tagIf Tag.SG_ASSUMED_RANK_SPEC (.tok Tag.TK_DBL_DOT)])

/-- parse_stmt.cc:445-450 `assignment_stmt`. -/
def assignment_stmt : Body :=
  .comb (.seq Tag.SG_ASSIGNMENT_STMT [.rule .«variable», .tok Tag.TK_EQUAL, .rule .expr,
  .peek Tag.BAD])

/-- parse_stmt.cc:453-463 `associate_stmt`. -/
def associate_stmt : Body :=
  .comb (.seq Tag.SG_ASSOCIATE_STMT [.opt (.seq Tag.HOIST [.name, .tok Tag.TK_COLON]),
  .tok Tag.KW_ASSOCIATE, .parens Tag.HOIST [.list Tag.SG_ASSOCIATION_LIST (.rule .association)],
  .peek Tag.BAD])

/-- parse_stmt.cc:466-474 `association`. -/
def association : Body :=
  .comb (.seq Tag.SG_ASSOCIATION [.name, .tok Tag.TK_ARROW, .rule .selector])

/-- parse_stmt.cc:477-484 `assumed_implied_spec`. -/
def assumed_implied_spec : Body :=
  .comb (.seq Tag.SG_ASSUMED_IMPLIED_SPEC [.opt (.seq Tag.HOIST [.rule .expr,
  .tok Tag.TK_COLON]), .tok Tag.TK_ASTERISK])

/-- parse_stmt.cc:487-498 `assumed_shape_spec`. -/
def assumed_shape_spec : Body :=
  .comb (.seq Tag.SG_ASSUMED_SHAPE_SPEC [.opt (.rule .expr), .tok Tag.TK_COLON,
  .alts Tag.HOIST [.peek Tag.TK_PARENR, .peek Tag.TK_COMMA]])

/-- parse_stmt.cc:501-509 `assumed_size_spec`. -/
def assumed_size_spec : Body :=
  .comb (.seq Tag.SG_ASSUMED_SIZE_SPEC [.list Tag.SG_EXPLICIT_SHAPE_SPEC_LIST (.rule .explicit_shape_spec),
  .tok Tag.TK_COMMA, .rule .assumed_implied_spec])

/-- parse_stmt.cc:512-521 `asynchronous_stmt`. -/
def asynchronous_stmt : Body :=
  .comb (.seq Tag.SG_ASYNCHRONOUS_STMT [.tok Tag.KW_ASYNCHRONOUS, .opt (.tok Tag.TK_DBL_COLON),
  .list Tag.HOIST (.name), .peek Tag.BAD])

/-- parse_stmt.cc:524-547 `attr_spec`. -/
def attr_spec : Body :=
  .comb (.alts Tag.SG_ATTR_SPEC [.rule .access_spec, .tok Tag.KW_ALLOCATABLE,
  .tok Tag.KW_ASYNCHRONOUS, .seq Tag.HOIST [.tok Tag.KW_CODIMENSION,
  .brackets Tag.HOIST [.rule .coarray_spec]], .tok Tag.KW_CONTIGUOUS,
  .seq Tag.HOIST [.tok Tag.KW_DIMENSION, .parens Tag.HOIST [.rule .array_spec]],
  .tok Tag.KW_EXTERNAL, .seq Tag.HOIST [.tok Tag.KW_INTENT,
  .parens Tag.HOIST [.rule .intent_spec]], .tok Tag.KW_INTRINSIC, .rule .language_binding_spec,
  .tok Tag.KW_OPTIONAL, .tok Tag.KW_PARAMETER, .tok Tag.KW_POINTER, .tok Tag.KW_PROTECTED,
  .tok Tag.KW_SAVE, .tok Tag.KW_TARGET, .tok Tag.KW_VALUE, .tok Tag.KW_VOLATILE])

/-- parse_stmt.cc:552-561 `backspace_stmt`. -/
def backspace_stmt : Body :=
  .comb (.seq Tag.SG_BACKSPACE_STMT [.tok Tag.KW_BACKSPACE, .alts Tag.HOIST [.rule .int_expr,
  .rule .consume_parens], .peek Tag.BAD])

/-- parse_stmt.cc:564-573 `bind_entity`. -/
def bind_entity : Body :=
  .comb (.alts Tag.SG_BIND_ENTITY [.seq Tag.HOIST [.tok Tag.TK_SLASHF, .name,
  .tok Tag.TK_SLASHF], .name])

/-- parse_stmt.cc:576-585 `bind_stmt`. -/
def bind_stmt : Body :=
  .comb (.seq Tag.SG_BIND_STMT [.rule .language_binding_spec, .opt (.tok Tag.TK_DBL_COLON),
  .list Tag.HOIST (.rule .bind_entity), .peek Tag.BAD])

/-- parse_stmt.cc:588-599 `binding_attr`. -/
def binding_attr : Body :=
  .comb (.alts Tag.SG_BINDING_ATTR [.rule .access_spec, .tok Tag.KW_DEFERRED,
  .tok Tag.KW_NON_OVERRIDABLE, .tok Tag.KW_NOPASS, .seq Tag.HOIST [.tok Tag.KW_PASS,
  .opt (.parens Tag.HOIST [.name])]])

/-- parse_stmt.cc:602-609 `binding_private_stmt`. -/
def binding_private_stmt : Body :=
  .comb (.seq Tag.SG_BINDING_PRIVATE_STMT [.tok Tag.KW_PRIVATE, .peek Tag.BAD])

/-- parse_stmt.cc:612-620 `block_stmt`. -/
def block_stmt : Body :=
  .comb (.seq Tag.SG_BLOCK_STMT [.opt (.seq Tag.HOIST [.name, .tok Tag.TK_COLON]),
  .tok Tag.KW_BLOCK, .peek Tag.BAD])

/-- parse_stmt.cc:623-631 `bounds_remapping`. -/
def bounds_remapping : Body :=
  .comb (.seq Tag.SG_BOUNDS_REMAPPING [.rule .lower_bound_expr, .tok Tag.TK_COLON,
  .rule .upper_bound_expr])

/-- parse_stmt.cc:634-641 `bounds_spec`. -/
def bounds_spec : Body :=
  .comb (.seq Tag.SG_BOUNDS_SPEC [.rule .lower_bound_expr, .tok Tag.TK_COLON])

/-- parse_stmt.cc:646-657 `call_stmt`. -/
def call_stmt : Body :=
  .comb (.seq Tag.SG_CALL_STMT [.tok Tag.KW_CALL, .rule .procedure_designator,
  .opt (.parens Tag.HOIST [.opt (.list Tag.SG_ACTUAL_ARG_SPEC_LIST (.rule .actual_arg_spec))]),
  .peek Tag.BAD])

/-- parse_stmt.cc:660-668 `case_selector`. -/
def case_selector : Body :=
  .comb (.alts Tag.SG_CASE_SELECTOR [.parens Tag.HOIST [.list Tag.SG_CASE_VALUE_RANGE_LIST (.rule .case_value_range)],
  .tok Tag.KW_DEFAULT])

/-- parse_stmt.cc:671-680 `case_stmt`. -/
def case_stmt : Body :=
  .comb (.seq Tag.SG_CASE_STMT [.tok Tag.KW_CASE, .rule .case_selector, .opt (.name),
  .peek Tag.BAD])

/-- parse_stmt.cc:683-692 `case_value_range`. -/
def case_value_range : Body :=
  .comb (.alts Tag.SG_CASE_VALUE_RANGE [.seq Tag.HOIST [.rule .expr, .tok Tag.TK_COLON,
  .rule .expr], .seq Tag.HOIST [.rule .expr, .tok Tag.TK_COLON],
  .seq Tag.HOIST [.tok Tag.TK_COLON, .rule .expr], .seq Tag.HOIST [.rule .expr]])

/-- parse_stmt.cc:695-704 `char_length`. -/
def char_length : Body :=
  .comb (.alts Tag.SG_CHAR_LENGTH [.parens Tag.HOIST [.rule .type_param_value],
  .tok Tag.SG_INT_LITERAL_CONSTANT, .name])

/-- parse_stmt.cc:707-723 `char_selector`. -/
def char_selector : Body :=
  .comb (.alts Tag.SG_CHAR_SELECTOR [.rule .length_selector, .parens Tag.HOIST [.tok Tag.KW_LEN,
  .tok Tag.TK_EQUAL, .rule .type_param_value, .tok Tag.TK_COMMA, .tok Tag.KW_KIND,
  .tok Tag.TK_EQUAL, .rule .int_constant_expr], .parens Tag.HOIST [.rule .type_param_value,
  .tok Tag.TK_COMMA, .opt (.seq Tag.HOIST [.tok Tag.KW_KIND, .tok Tag.TK_EQUAL]),
  .rule .int_constant_expr], .parens Tag.HOIST [.tok Tag.KW_KIND, .tok Tag.TK_EQUAL,
  .rule .int_constant_expr, .opt (.seq Tag.HOIST [.tok Tag.TK_COMMA, .tok Tag.KW_LEN,
  .tok Tag.TK_EQUAL, .rule .type_param_value])]])

/-- parse_stmt.cc:726-734 `close_stmt`. -/
def close_stmt : Body :=
  .comb (.seq Tag.SG_CLOSE_STMT [.tok Tag.KW_CLOSE, .rule .consume_parens, .peek Tag.BAD])

/-- parse_stmt.cc:737-746 `coarray_spec`. -/
def coarray_spec : Body :=
  .comb (.alts Tag.SG_COARRAY_SPEC [.rule .explicit_coshape_spec,
  .list Tag.SG_DEFERRED_COSHAPE_SPEC_LIST (.tagIf Tag.SG_DEFERRED_COSHAPE_SPEC (.tok Tag.TK_COLON))])

/-- parse_stmt.cc:749-756 `codimension_decl`. -/
def codimension_decl : Body :=
  .comb (.seq Tag.SG_CODIMENSION_DECL [.name, .brackets Tag.HOIST [.rule .coarray_spec]])

/-- parse_stmt.cc:759-768 `codimension_stmt`. -/
def codimension_stmt : Body :=
  .comb (.seq Tag.SG_CODIMENSION_STMT [.tok Tag.KW_CODIMENSION, .opt (.tok Tag.TK_DBL_COLON),
  .list Tag.HOIST (.rule .codimension_decl), .peek Tag.BAD])

/-- parse_stmt.cc:771-784 `coindexed_named_object`. -/
def coindexed_named_object : Body :=
  .comb (.seq Tag.SG_COINDEXED_NAMED_OBJECT [.name,
  .opt (.parens Tag.HOIST [.list Tag.SG_SECTION_SUBSCRIPT_LIST (.rule .section_subscript)]),
  .rule .image_selector, .neg (.peek Tag.TK_PERCENT)])

/-- parse_stmt.cc:787-792 `common_block_object`. -/
def common_block_object : Body :=
  .comb (.seq Tag.SG_COMMON_BLOCK_OBJECT [.name, .opt (.parens Tag.HOIST [.rule .array_spec])])

/-- parse_stmt.cc:795-810 `common_stmt`. -/
def common_stmt : Body :=
  .comb (.seq Tag.SG_COMMON_STMT [.tok Tag.KW_COMMON,
  .opt (.alts Tag.HOIST [.seq Tag.HOIST [.tok Tag.TK_SLASHF, .opt (.name), .tok Tag.TK_SLASHF],
  .tok Tag.TK_CONCAT]), .list Tag.SG_COMMON_BLOCK_OBJECT_LIST (.rule .common_block_object),
  .star (.seq Tag.HOIST [.opt (.tok Tag.TK_COMMA),
  .alts Tag.HOIST [.seq Tag.HOIST [.tok Tag.TK_SLASHF, .opt (.name), .tok Tag.TK_SLASHF],
  .tok Tag.TK_CONCAT], .list Tag.SG_COMMON_BLOCK_OBJECT_LIST (.rule .common_block_object)]),
  .peek Tag.BAD])

/-- parse_stmt.cc:813-821 `component_array_spec`. -/
def component_array_spec : Body :=
  .comb (.alts Tag.SG_COMPONENT_ARRAY_SPEC [.list Tag.SG_EXPLICIT_SHAPE_SPEC_LIST (.rule .explicit_shape_spec),
  .list Tag.SG_DEFERRED_SHAPE_SPEC_LIST (.rule .deferred_shape_spec)])

/-- parse_stmt.cc:824-835 `component_attr_spec`. -/
def component_attr_spec : Body :=
  .comb (.alts Tag.SG_COMPONENT_ATTR_SPEC [.rule .access_spec, .tok Tag.KW_ALLOCATABLE,
  .seq Tag.HOIST [.tok Tag.KW_CODIMENSION, .brackets Tag.HOIST [.rule .coarray_spec]],
  .tok Tag.KW_CONTIGUOUS, .seq Tag.HOIST [.tok Tag.KW_DIMENSION,
  .parens Tag.HOIST [.rule .component_array_spec]], .tok Tag.KW_POINTER])

/-- parse_stmt.cc:838-847 `component_data_source`. -/
def component_data_source : Body :=
  .comb (.tagIf Tag.SG_COMPONENT_DATA_SOURCE (.rule .proc_target))

/-- parse_stmt.cc:850-860 `component_decl`. -/
def component_decl : Body :=
  .comb (.seq Tag.SG_COMPONENT_DECL [.name,
  .opt (.parens Tag.HOIST [.rule .component_array_spec]),
  .opt (.parens Tag.HOIST [.rule .coarray_spec]), .opt (.seq Tag.HOIST [.tok Tag.TK_ASTERISK,
  .rule .char_length]), .opt (.rule .component_initialization)])

/-- parse_stmt.cc:863-870 `component_def_stmt`. -/
def component_def_stmt : Body :=
  .comb (.alts Tag.SG_COMPONENT_DEF_STMT [.rule .data_component_def_stmt,
  .rule .proc_component_def_stmt])

/-- parse_stmt.cc:873-880 `component_initialization`. -/
def component_initialization : Body :=
  .comb (.alts Tag.SG_COMPONENT_INITIALIZATION [.seq Tag.HOIST [.tok Tag.TK_EQUAL, .rule .expr],
  .seq Tag.HOIST [.tok Tag.TK_ARROW, .rule .expr]])

/-- parse_stmt.cc:883-890 `component_spec`. -/
def component_spec : Body :=
  .comb (.seq Tag.SG_COMPONENT_SPEC [.opt (.seq Tag.HOIST [.name, .tok Tag.TK_EQUAL]),
  .rule .component_data_source])

/-- parse_stmt.cc:893-904 `computed_goto_stmt`. -/
def computed_goto_stmt : Body :=
  .comb (.seq Tag.SG_COMPUTED_GOTO_STMT [.tok Tag.KW_GO, .tok Tag.KW_TO,
  .parens Tag.HOIST [.list Tag.SG_LABEL_LIST (.rule .label)], .opt (.tok Tag.TK_COMMA),
  .rule .expr, .peek Tag.BAD])

/-- parse_stmt.cc:907-920 `concurrent_control`. -/
def concurrent_control : Body :=
  .comb (.seq Tag.SG_CONCURRENT_CONTROL [.name, .tok Tag.TK_EQUAL,
  .tagIf Tag.SG_CONCURRENT_LIMIT (.rule .int_expr), .tok Tag.TK_COLON,
  .tagIf Tag.SG_CONCURRENT_LIMIT (.rule .int_expr), .opt (.seq Tag.HOIST [.tok Tag.TK_COLON,
  .tagIf Tag.SG_CONCURRENT_STEP (.rule .int_expr)])])

/-- parse_stmt.cc:923-934 `concurrent_header`. -/
def concurrent_header : Body :=
  .comb (.parens Tag.SG_CONCURRENT_HEADER [.opt (.seq Tag.HOIST [.rule .integer_type_spec,
  .tok Tag.TK_DBL_COLON]), .list Tag.SG_CONCURRENT_CONTROL_LIST (.rule .concurrent_control),
  .opt (.seq Tag.HOIST [.tok Tag.TK_COMMA, .rule .logical_expr])])

/-- parse_stmt.cc:937-944 `concurrent_locality`. -/
def concurrent_locality : Body :=
  .comb (.seq Tag.SG_CONCURRENT_LOCALITY [.star (.rule .locality_spec)])

/-- parse_stmt.cc:947-951 `contains_stmt`. -/
def contains_stmt : Body :=
  .comb (.seq Tag.SG_CONTAINS_STMT [.tok Tag.KW_CONTAINS, .peek Tag.BAD])

/-- parse_stmt.cc:954-959 `continue_stmt`. -/
def continue_stmt : Body :=
  .comb (.seq Tag.SG_CONTINUE_STMT [.tok Tag.KW_CONTINUE, .peek Tag.BAD])

/-- parse_stmt.cc:962-967 `cosubscript`. -/
def cosubscript : Body :=
  .comb (.tagIf Tag.SG_COSUBSCRIPT (.rule .int_expr))

/-- parse_stmt.cc:970-975 `cycle_stmt`. -/
def cycle_stmt : Body :=
  .comb (.seq Tag.SG_CYCLE_STMT [.tok Tag.KW_CYCLE, .opt (.name), .peek Tag.BAD])

/-- parse_stmt.cc:980-992 `data_component_def_stmt`. -/
def data_component_def_stmt : Body :=
  .comb (.seq Tag.SG_DATA_COMPONENT_DEF_STMT [.rule .declaration_type_spec,
  .opt (.seq Tag.HOIST [.opt (.seq Tag.HOIST [.tok Tag.TK_COMMA,
  .list Tag.SG_COMPONENT_ATTR_SPEC_LIST (.rule .component_attr_spec)]), .tok Tag.TK_DBL_COLON]),
  .list Tag.SG_COMPONENT_DECL_LIST (.rule .component_decl), .peek Tag.BAD])

/-- parse_stmt.cc:995-1000 `data_implied_do`. -/
def data_implied_do : Body :=
  .comb (.tagIf Tag.SG_DATA_IMPLIED_DO (.rule .consume_parens))

/-- parse_stmt.cc:1003-1018 `data_pointer_object`. -/
def data_pointer_object : Body :=
  .comb (.alts Tag.SG_DATA_POINTER_OBJECT [.rule .«variable»,
  .tagIf Tag.SG_VARIABLE_NAME (.seq Tag.HOIST [.name, .neg (.tok Tag.TK_PERCENT)])])

/-- parse_stmt.cc:1021-1029 `data_ref`. -/
def data_ref : Body :=
  .comb (.seq Tag.SG_DATA_REF [.rule .part_ref, .star (.seq Tag.HOIST [.tok Tag.TK_PERCENT,
  .rule .part_ref])])

/-- parse_stmt.cc:1032-1042 `data_stmt`. -/
def data_stmt : Body :=
  .comb (.seq Tag.SG_DATA_STMT [.tok Tag.KW_DATA,
  .list Tag.SG_DATA_STMT_SET_LIST (.rule .data_stmt_set), .peek Tag.BAD])

/-- parse_stmt.cc:1045-1058 `data_stmt_constant`. -/
def data_stmt_constant : Body :=
  .comb (.alts Tag.SG_DATA_STMT_CONSTANT [.tok Tag.SG_CHAR_LITERAL_CONSTANT,
  .rule .signed_real_literal_constant, .seq Tag.HOIST [.opt (.rule .sign),
  .tok Tag.SG_INT_LITERAL_CONSTANT], .rule .logical_literal_constant,
  .tagIf Tag.SG_NULL_INIT (.rule .function_reference),
  .tagIf Tag.SG_INITIAL_DATA_TARGET (.rule .designator), .rule .structure_constructor])

/-- parse_stmt.cc:1061-1068 `data_stmt_object`. -/
def data_stmt_object : Body :=
  .comb (.alts Tag.SG_DATA_STMT_OBJECT [.rule .data_implied_do, .rule .«variable»])

/-- parse_stmt.cc:1071-1080 `data_stmt_repeat`. -/
def data_stmt_repeat : Body :=
  .comb (.alts Tag.SG_DATA_STMT_REPEAT [.tok Tag.SG_INT_LITERAL_CONSTANT, .name,
  .rule .designator])

/-- parse_stmt.cc:1083-1095 `data_stmt_set`. -/
def data_stmt_set : Body :=
  .comb (.seq Tag.SG_DATA_STMT_SET [.list Tag.SG_DATA_STMT_OBJECT_LIST (.rule .data_stmt_object),
  .tok Tag.TK_SLASHF, .list Tag.SG_DATA_STMT_VALUE_LIST (.rule .data_stmt_value),
  .tok Tag.TK_SLASHF])

/-- parse_stmt.cc:1098-1106 `data_stmt_value`. -/
def data_stmt_value : Body :=
  .comb (.seq Tag.SG_DATA_STMT_VALUE [.opt (.seq Tag.HOIST [.rule .data_stmt_repeat,
  .tok Tag.TK_ASTERISK]), .rule .data_stmt_constant])

/-- parse_stmt.cc:1109-1116 `dealloc_opt`. -/
def dealloc_opt : Body :=
  .comb (.alts Tag.SG_DEALLOC_OPT [.seq Tag.HOIST [.tok Tag.KW_ERRMSG, .tok Tag.TK_EQUAL,
  .rule .«variable»], .seq Tag.HOIST [.tok Tag.KW_STAT, .tok Tag.TK_EQUAL, .rule .«variable»]])

/-- parse_stmt.cc:1119-1132 `deallocate_stmt`. -/
def deallocate_stmt : Body :=
  .comb (.seq Tag.SG_DEALLOCATE_STMT [.tok Tag.KW_DEALLOCATE,
  .parens Tag.HOIST [.list Tag.SG_ALLOCATE_OBJECT_LIST (.rule .allocate_object),
  .opt (.seq Tag.HOIST [.tok Tag.TK_COMMA, .list Tag.SG_DEALLOC_OPT_LIST (.rule .dealloc_opt)])],
  .peek Tag.BAD])

/-- parse_stmt.cc:1135-1147 `declaration_type_spec`. -/
def declaration_type_spec : Body :=
  .comb (.alts Tag.SG_DECLARATION_TYPE_SPEC [.rule .intrinsic_type_spec,
  .seq Tag.HOIST [.tok Tag.KW_TYPE, .parens Tag.HOIST [.rule .intrinsic_type_spec]],
  .seq Tag.HOIST [.tok Tag.KW_TYPE, .parens Tag.HOIST [.rule .derived_type_spec]],
  .seq Tag.HOIST [.tok Tag.KW_CLASS, .parens Tag.HOIST [.rule .derived_type_spec]],
  .seq Tag.HOIST [.tok Tag.KW_CLASS, .parens Tag.HOIST [.tok Tag.TK_ASTERISK]],
  .seq Tag.HOIST [.tok Tag.KW_TYPE, .parens Tag.HOIST [.tok Tag.TK_ASTERISK]]])

/-- parse_stmt.cc:1150-1162 `declaration_type_spec_no_kind`. -/
def declaration_type_spec_no_kind : Body :=
  .comb (.alts Tag.SG_DECLARATION_TYPE_SPEC [.rule .intrinsic_type_spec_no_kind,
  .seq Tag.HOIST [.tok Tag.KW_TYPE, .parens Tag.HOIST [.rule .intrinsic_type_spec]],
  .seq Tag.HOIST [.tok Tag.KW_TYPE, .parens Tag.HOIST [.rule .derived_type_spec]],
  .seq Tag.HOIST [.tok Tag.KW_CLASS, .parens Tag.HOIST [.rule .derived_type_spec]],
  .seq Tag.HOIST [.tok Tag.KW_CLASS, .parens Tag.HOIST [.tok Tag.TK_ASTERISK]],
  .seq Tag.HOIST [.tok Tag.KW_TYPE, .parens Tag.HOIST [.tok Tag.TK_ASTERISK]]])

/-- parse_stmt.cc:1165-1169 `default_char_expr`. -/
def default_char_expr : Body :=
  .comb (.tagIf Tag.SG_DEFAULT_CHAR_EXPR (.rule .expr))

/-- parse_stmt.cc:1172-1176 `deferred_shape_spec`. -/
def deferred_shape_spec : Body :=
  .comb (.tagIf Tag.SG_DEFERRED_SHAPE_SPEC (.tok Tag.TK_COLON))

/-- parse_stmt.cc:1179-1189 `defined_io_generic_spec`. -/
def defined_io_generic_spec : Body :=
  .comb (.alts Tag.SG_DEFINED_IO_GENERIC_SPEC [.seq Tag.HOIST [.tok Tag.KW_READ,
  .parens Tag.HOIST [.tok Tag.KW_FORMATTED]], .seq Tag.HOIST [.tok Tag.KW_READ,
  .parens Tag.HOIST [.tok Tag.KW_UNFORMATTED]], .seq Tag.HOIST [.tok Tag.KW_WRITE,
  .parens Tag.HOIST [.tok Tag.KW_FORMATTED]], .seq Tag.HOIST [.tok Tag.KW_WRITE,
  .parens Tag.HOIST [.tok Tag.KW_UNFORMATTED]]])

/-- parse_stmt.cc:1192-1199 `defined_operator`. -/
def defined_operator : Body :=
  .comb (.alts Tag.SG_DEFINED_OPERATOR [.tok Tag.TK_DEF_OP, .rule .extended_intrinsic_op])

/-- parse_stmt.cc:1202-1211 `derived_type_spec`. -/
def derived_type_spec : Body :=
  .comb (.seq Tag.SG_DERIVED_TYPE_SPEC [.name,
  .opt (.parens Tag.HOIST [.list Tag.SG_TYPE_PARAM_SPEC_LIST (.rule .type_param_spec)])])

/-- parse_stmt.cc:1214-1228 `derived_type_stmt`. -/
def derived_type_stmt : Body :=
  .comb (.seq Tag.SG_DERIVED_TYPE_STMT [.tok Tag.KW_TYPE,
  .opt (.seq Tag.HOIST [.opt (.seq Tag.HOIST [.tok Tag.TK_COMMA,
  .list Tag.SG_TYPE_ATTR_SPEC_LIST (.rule .type_attr_spec)]), .tok Tag.TK_DBL_COLON]), .name,
  .opt (.parens Tag.HOIST [.list Tag.SG_TYPE_PARAM_NAME_LIST (.tagIf Tag.SG_TYPE_PARAM_NAME (.name))]),
  .peek Tag.BAD])

/-- parse_stmt.cc:1231-1247 `designator`. -/
def designator : Body :=
  .comb (.seq Tag.SG_DESIGNATOR [.rule .data_ref,
  .opt (.parens Tag.HOIST [.rule .substring_range])])

/-- parse_stmt.cc:1250-1266 `dimension_stmt`. -/
def dimension_stmt : Body :=
  .comb (.seq Tag.SG_DIMENSION_STMT [.tok Tag.KW_DIMENSION, .opt (.tok Tag.TK_DBL_COLON),
  .list Tag.HOIST (.seq Tag.HOIST [.name, .parens Tag.HOIST [.rule .array_spec]]), .peek Tag.BAD])

/-- parse_stmt.cc:1269-1277 `do_stmt`. -/
def do_stmt : Body :=
  .comb (.seq Tag.SG_DO_STMT [.alts Tag.HOIST [.rule .label_do_stmt, .rule .nonlabel_do_stmt],
  .peek Tag.BAD])

/-- parse_stmt.cc:1281-1288 `dummy_arg`. -/
def dummy_arg : Body :=
  .comb (.alts Tag.SG_DUMMY_ARG [.name, .tok Tag.TK_ASTERISK])

/-- parse_stmt.cc:1293-1301 `else_stmt`. -/
def else_stmt : Body :=
  .comb (.seq Tag.SG_ELSE_STMT [.tok Tag.KW_ELSE, .opt (.name), .peek Tag.BAD])

/-- parse_stmt.cc:1304-1315 `else_if_stmt`. -/
def else_if_stmt : Body :=
  .comb (.seq Tag.SG_ELSE_IF_STMT [.tok Tag.KW_ELSE, .tok Tag.KW_IF,
  .parens Tag.HOIST [.rule .logical_expr], .tok Tag.KW_THEN, .opt (.name), .peek Tag.BAD])

/-- parse_stmt.cc:1318-1324 `elsewhere_stmt`. -/
def elsewhere_stmt : Body :=
  .comb (.seq Tag.SG_ELSEWHERE_STMT [.tok Tag.KW_ELSE, .tok Tag.KW_WHERE, .opt (.name),
  .peek Tag.BAD])

/-- parse_stmt.cc:1327-1336 `end_associate_stmt`. -/
def end_associate_stmt : Body :=
  .comb (.seq Tag.SG_END_ASSOCIATE_STMT [.tok Tag.KW_END, .tok Tag.KW_ASSOCIATE, .opt (.name),
  .peek Tag.BAD])

/-- parse_stmt.cc:1339-1348 `end_block_stmt`. -/
def end_block_stmt : Body :=
  .comb (.seq Tag.SG_END_BLOCK_STMT [.tok Tag.KW_END, .tok Tag.KW_BLOCK, .opt (.name),
  .peek Tag.BAD])

/-- parse_stmt.cc:1351-1358 `end_do`. -/
def end_do : Body :=
  .comb (.alts Tag.SG_END_DO [.rule .end_do_stmt, .rule .continue_stmt])

/-- parse_stmt.cc:1361-1366 `end_do_stmt`. -/
def end_do_stmt : Body :=
  .comb (.seq Tag.SG_END_DO_STMT [.tok Tag.KW_END, .tok Tag.KW_DO, .opt (.name), .peek Tag.BAD])

/-- parse_stmt.cc:1369-1374 `end_enum_stmt`. -/
def end_enum_stmt : Body :=
  .comb (.seq Tag.SG_END_ENUM_STMT [.tok Tag.KW_END, .tok Tag.KW_ENUM, .peek Tag.BAD])

/-- parse_stmt.cc:1377-1383 `end_forall_stmt`. -/
def end_forall_stmt : Body :=
  .comb (.seq Tag.SG_END_FORALL_STMT [.tok Tag.KW_END, .tok Tag.KW_FORALL, .opt (.name),
  .peek Tag.BAD])

/-- parse_stmt.cc:1386-1396 `end_function_stmt`. -/
def end_function_stmt : Body :=
  .comb (.seq Tag.SG_END_FUNCTION_STMT [.tok Tag.KW_END,
  .opt (.seq Tag.HOIST [.tok Tag.KW_FUNCTION, .opt (.name)]), .peek Tag.BAD])

/-- parse_stmt.cc:1399-1404 `end_if_stmt`. -/
def end_if_stmt : Body :=
  .comb (.seq Tag.SG_END_IF_STMT [.tok Tag.KW_END, .tok Tag.KW_IF, .opt (.name), .peek Tag.BAD])

/-- parse_stmt.cc:1407-1413 `end_interface_stmt`. -/
def end_interface_stmt : Body :=
  .comb (.seq Tag.SG_END_INTERFACE_STMT [.tok Tag.KW_END, .tok Tag.KW_INTERFACE,
  .opt (.rule .generic_spec), .peek Tag.BAD])

/-- parse_stmt.cc:1416-1425 `end_module_stmt`. -/
def end_module_stmt : Body :=
  .comb (.seq Tag.SG_END_MODULE_STMT [.tok Tag.KW_END, .opt (.seq Tag.HOIST [.tok Tag.KW_MODULE,
  .opt (.name)]), .peek Tag.BAD])

/-- parse_stmt.cc:1428-1438 `end_mp_subprogram_stmt`. -/
def end_mp_subprogram_stmt : Body :=
  .comb (.seq Tag.SG_END_MP_SUBPROGRAM_STMT [.tok Tag.KW_END,
  .opt (.seq Tag.HOIST [.tok Tag.KW_PROCEDURE, .opt (.name)]), .peek Tag.BAD])

/-- parse_stmt.cc:1441-1450 `end_program_stmt`. -/
def end_program_stmt : Body :=
  .comb (.seq Tag.SG_END_PROGRAM_STMT [.tok Tag.KW_END,
  .opt (.seq Tag.HOIST [.tok Tag.KW_PROGRAM, .opt (.name)]), .peek Tag.BAD])

/-- parse_stmt.cc:1453-1461 `end_select_stmt`. -/
def end_select_stmt : Body :=
  .comb (.seq Tag.SG_END_SELECT_STMT [.tok Tag.KW_END, .tok Tag.KW_SELECT, .opt (.name),
  .peek Tag.BAD])

/-- parse_stmt.cc:1464-1472 `end_select_rank_stmt`. -/
def end_select_rank_stmt : Body :=
  .comb (.seq Tag.SG_END_SELECT_RANK_STMT [.tok Tag.KW_END, .tok Tag.KW_SELECT, .opt (.name),
  .peek Tag.BAD])

/-- parse_stmt.cc:1475-1483 `end_select_type_stmt`. -/
def end_select_type_stmt : Body :=
  .comb (.seq Tag.SG_END_SELECT_TYPE_STMT [.tok Tag.KW_END, .tok Tag.KW_SELECT, .opt (.name),
  .peek Tag.BAD])

/-- parse_stmt.cc:1486-1496 `end_submodule_stmt`. -/
def end_submodule_stmt : Body :=
  .comb (.seq Tag.SG_END_SUBMODULE_STMT [.tok Tag.KW_END,
  .opt (.seq Tag.HOIST [.tok Tag.KW_SUBMODULE, .opt (.name)]), .peek Tag.BAD])

/-- parse_stmt.cc:1499-1509 `end_subroutine_stmt`. -/
def end_subroutine_stmt : Body :=
  .comb (.seq Tag.SG_END_SUBROUTINE_STMT [.tok Tag.KW_END,
  .opt (.seq Tag.HOIST [.tok Tag.KW_SUBROUTINE, .opt (.name)]), .peek Tag.BAD])

/-- parse_stmt.cc:1512-1521 `end_type_stmt`. -/
def end_type_stmt : Body :=
  .comb (.seq Tag.SG_END_TYPE_STMT [.tok Tag.KW_END, .tok Tag.KW_TYPE, .opt (.name),
  .peek Tag.BAD])

/-- parse_stmt.cc:1524-1530 `end_where_stmt`. -/
def end_where_stmt : Body :=
  .comb (.seq Tag.SG_END_WHERE_STMT [.tok Tag.KW_END, .tok Tag.KW_WHERE, .opt (.name),
  .peek Tag.BAD])

/-- parse_stmt.cc:1533-1542 `endfile_stmt`. -/
def endfile_stmt : Body :=
  .comb (.seq Tag.SG_ENDFILE_STMT [.tok Tag.KW_END, .tok Tag.KW_FILE,
  .alts Tag.HOIST [.rule .int_expr, .rule .consume_parens], .peek Tag.BAD])

/-- parse_stmt.cc:1545-1555 `entity_decl`. -/
def entity_decl : Body :=
  .comb (.seq Tag.SG_ENTITY_DECL [.name, .opt (.parens Tag.HOIST [.rule .array_spec]),
  .opt (.brackets Tag.HOIST [.rule .coarray_spec]), .opt (.seq Tag.HOIST [.tok Tag.TK_ASTERISK,
  .rule .char_length]), .opt (.rule .initialization)])

/-- parse_stmt.cc:1558-1568 `entry_stmt`. -/
def entry_stmt : Body :=
  .comb (.seq Tag.SG_ENTRY_STMT [.tok Tag.KW_ENTRY, .name,
  .opt (.seq Tag.HOIST [.parens Tag.HOIST [.opt (.list Tag.HOIST (.rule .dummy_arg))],
  .opt (.rule .suffix)]), .peek Tag.BAD])

/-- parse_stmt.cc:1571-1579 `enumerator`. -/
def enumerator : Body :=
  .comb (.seq Tag.SG_ENUMERATOR [.name, .opt (.seq Tag.HOIST [.tok Tag.TK_EQUAL,
  .rule .int_expr])])

/-- parse_stmt.cc:1582-1592 `enumerator_def_stmt`. -/
def enumerator_def_stmt : Body :=
  .comb (.seq Tag.SG_ENUMERATOR_DEF_STMT [.tok Tag.KW_ENUMERATOR, .opt (.tok Tag.TK_DBL_COLON),
  .list Tag.SG_ENUMERATOR_LIST (.rule .enumerator), .peek Tag.BAD])

/-- parse_stmt.cc:1595-1601 `enum_def_stmt`. -/
def enum_def_stmt : Body :=
  .comb (.seq Tag.SG_ENUM_DEF_STMT [.tok Tag.KW_ENUM, .tok Tag.TK_COMMA, .rule .bind_c,
  .peek Tag.BAD])

/-- parse_stmt.cc:1604-1611 `equiv_op`. -/
def equiv_op : Body :=
  .comb (.alts Tag.SG_EQUIV_OP [.tok Tag.TK_REL_EQ, .tok Tag.TK_REL_NE])

/-- parse_stmt.cc:1614-1622 `equivalence_object`. -/
def equivalence_object : Body :=
  .comb (.alts Tag.SG_EQUIVALENCE_OBJECT [.rule .array_element, .rule .substring,
  .tagIf Tag.SG_VARIABLE_NAME (.name)])

/-- parse_stmt.cc:1625-1634 `equivalence_set`. -/
def equivalence_set : Body :=
  .comb (.parens Tag.SG_EQUIVALENCE_SET [.rule .equivalence_object, .tok Tag.TK_COMMA,
  .list Tag.SG_EQUIVALENCE_OBJECT_LIST (.rule .equivalence_object)])

/-- parse_stmt.cc:1637-1646 `equivalence_stmt`. -/
def equivalence_stmt : Body :=
  .comb (.seq Tag.SG_EQUIVALENCE_STMT [.tok Tag.KW_EQUIVALENCE,
  .list Tag.SG_EQUIVALENCE_SET_LIST (.rule .equivalence_set), .peek Tag.BAD])

/-- parse_stmt.cc:1649-1662 `error_stop_stmt`. -/
def error_stop_stmt : Body :=
  .comb (.seq Tag.SG_ERROR_STOP_STMT [.tok Tag.KW_ERROR, .tok Tag.KW_STOP,
  .opt (.rule .default_char_expr), .opt (.seq Tag.HOIST [.tok Tag.TK_COMMA, .tok Tag.KW_QUIET,
  .tok Tag.TK_EQUAL, .rule .logical_expr]), .peek Tag.BAD])

/-- parse_stmt.cc:1665-1676 `event_post_stmt`. -/
def event_post_stmt : Body :=
  .comb (.seq Tag.SG_EVENT_POST_STMT [.tok Tag.KW_EVENT, .tok Tag.KW_POST,
  .parens Tag.HOIST [.rule .«variable», .opt (.seq Tag.HOIST [.tok Tag.TK_COMMA,
  .list Tag.HOIST (.rule .sync_stat)])], .peek Tag.BAD])

/-- parse_stmt.cc:1679-1693 `event_wait_stmt`. -/
def event_wait_stmt : Body :=
  .comb (.seq Tag.SG_EVENT_WAIT_STMT [.tok Tag.KW_EVENT, .tok Tag.KW_WAIT,
  .parens Tag.HOIST [.rule .«variable», .opt (.seq Tag.HOIST [.tok Tag.TK_COMMA,
  .list Tag.HOIST (.alts Tag.HOIST [.seq Tag.HOIST [.tok Tag.KW_UNTIL_COUNT, .tok Tag.TK_EQUAL,
  .rule .expr], .rule .sync_stat])])], .peek Tag.BAD])

/-- parse_stmt.cc:1696-1708 `explicit_coshape_spec`. -/
def explicit_coshape_spec : Body :=
  .comb (.seq Tag.SG_EXPLICIT_COSHAPE_SPEC [.opt (.seq Tag.HOIST [.list Tag.HOIST (.seq Tag.HOIST [.opt (.seq Tag.HOIST [.rule .expr,
  .tok Tag.TK_COLON]), .rule .expr]), .tok Tag.TK_COMMA]),
  .seq Tag.HOIST [.opt (.seq Tag.HOIST [.rule .expr, .tok Tag.TK_COLON]), .tok Tag.TK_ASTERISK]])

/-- parse_stmt.cc:1711-1718 `explicit_shape_spec`. -/
def explicit_shape_spec : Body :=
  .comb (.seq Tag.SG_EXPLICIT_SHAPE_SPEC [.opt (.seq Tag.HOIST [.rule .expr, .tok Tag.TK_COLON]),
  .rule .expr])

/-- parse_stmt.cc:1721-1726 `exit_stmt`. -/
def exit_stmt : Body :=
  .comb (.seq Tag.SG_EXIT_STMT [.tok Tag.KW_EXIT, .opt (.name), .peek Tag.BAD])

/-- parse_stmt.cc:1729-1735 `expr`. -/
def expr : Body :=
  .expr Tag.SG_EXPR realLiteral

/-- parse_stmt.cc:1738-1744 `extended_intrinsic_op`. -/
def extended_intrinsic_op : Body :=
  .comb (.tagIf Tag.SG_EXTENDED_INTRINSIC_OP (.rule .intrinsic_operator))

/-- parse_stmt.cc:1747-1755 `external_stmt`. -/
def external_stmt : Body :=
  .comb (.seq Tag.SG_EXTERNAL_STMT [.tok Tag.KW_EXTERNAL, .opt (.tok Tag.TK_DBL_COLON),
  .list Tag.SG_EXTERNAL_NAME_LIST (.name), .peek Tag.BAD])

/-- parse_stmt.cc:1760-1768 `fail_image_stmt`. -/
def fail_image_stmt : Body :=
  .comb (.seq Tag.SG_FAIL_IMAGE_STMT [.tok Tag.KW_FAIL, .tok Tag.KW_IMAGE, .peek Tag.BAD])

/-- parse_stmt.cc:1771-1791 `form_team_stmt`. -/
def form_team_stmt : Body :=
  .comb (.seq Tag.SG_FORM_TEAM_STMT [.tok Tag.KW_FORM, .tok Tag.KW_TEAM,
  .parens Tag.HOIST [.seq Tag.HOIST [.rule .expr, .tok Tag.TK_COMMA, .rule .«variable»,
  .opt (.seq Tag.HOIST [.tok Tag.TK_COMMA,
  .list Tag.HOIST (.alts Tag.HOIST [.seq Tag.HOIST [.tok Tag.KW_NEW_INDEX, .tok Tag.TK_EQUAL,
  .rule .expr], .rule .sync_stat])])]], .peek Tag.BAD])

/-- parse_stmt.cc:1794-1803 `final_procedure_stmt`. -/
def final_procedure_stmt : Body :=
  .comb (.seq Tag.SG_FINAL_PROCEDURE_STMT [.tok Tag.KW_FINAL, .opt (.tok Tag.TK_DBL_COLON),
  .list Tag.SG_FINAL_SUBROUTINE_NAME_LIST (.name), .peek Tag.BAD])

/-- parse_stmt.cc:1806-1815 `flush_stmt`. -/
def flush_stmt : Body :=
  .comb (.seq Tag.SG_FLUSH_STMT [.tok Tag.KW_FLUSH, .alts Tag.HOIST [.rule .int_expr,
  .rule .consume_parens], .peek Tag.BAD])

/-- parse_stmt.cc:1818-1826 `forall_assignment_stmt`. -/
def forall_assignment_stmt : Body :=
  .comb (.alts Tag.SG_FORALL_ASSIGNMENT_STMT [.rule .assignment_stmt,
  .rule .pointer_assignment_stmt])

/-- parse_stmt.cc:1829-1839 `forall_construct_stmt`. -/
def forall_construct_stmt : Body :=
  .comb (.seq Tag.SG_FORALL_CONSTRUCT_STMT [.opt (.seq Tag.HOIST [.name, .tok Tag.TK_COLON]),
  .tok Tag.KW_FORALL, .rule .concurrent_header, .peek Tag.BAD])

/-- parse_stmt.cc:1842-1851 `forall_stmt`. -/
def forall_stmt : Body :=
  .comb (.seq Tag.SG_FORALL_STMT [.tok Tag.KW_FORALL, .rule .concurrent_header,
  .rule .forall_assignment_stmt, .peek Tag.BAD])

/-- parse_stmt.cc:1854-1862 `format`. -/
def format : Body :=
  .comb (.alts Tag.SG_FORMAT [.seq Tag.HOIST [.rule .expr, .neg (.peek Tag.TK_EQUAL)],
  .tok Tag.TK_ASTERISK])

/-- parse_stmt.cc:1865-1870 `format_specification`. -/
def format_specification : Body :=
  .comb (.tagIf Tag.SG_FORMAT_SPECIFICATION (.rule .consume_parens))

/-- parse_stmt.cc:1873-1878 `format_stmt`. -/
def format_stmt : Body :=
  .comb (.seq Tag.SG_FORMAT_STMT [.tok Tag.KW_FORMAT, .rule .format_specification, .peek Tag.BAD])

/-- parse_stmt.cc:1881-1890 `function_reference`. -/
def function_reference : Body :=
  .comb (.seq Tag.SG_FUNCTION_REFERENCE [.rule .procedure_designator,
  .parens Tag.HOIST [.opt (.list Tag.SG_ACTUAL_ARG_SPEC_LIST (.rule .actual_arg_spec))]])

/-- parse_stmt.cc:1893-1909 `function_stmt`. -/
def function_stmt : Body :=
  .comb (.seq Tag.SG_FUNCTION_STMT [.opt (.rule .«prefix»), .tok Tag.KW_FUNCTION, .name,
  .opt (.seq Tag.HOIST [.parens Tag.HOIST [.opt (.list Tag.SG_DUMMY_ARG_NAME_LIST (.name))]]),
  .opt (.rule .suffix), .peek Tag.BAD])

/-- parse_stmt.cc:1914-1924 `generic_spec`. -/
def generic_spec : Body :=
  .comb (.alts Tag.SG_GENERIC_SPEC [.rule .list_name, .seq Tag.HOIST [.tok Tag.KW_OPERATOR,
  .parens Tag.HOIST [.rule .defined_operator]], .seq Tag.HOIST [.tok Tag.KW_ASSIGNMENT,
  .parens Tag.HOIST [.tok Tag.TK_EQUAL]], .rule .defined_io_generic_spec])

/-- parse_stmt.cc:1927-1939 `generic_stmt`. -/
def generic_stmt : Body :=
  .comb (.seq Tag.SG_GENERIC_STMT [.tok Tag.KW_GENERIC, .opt (.seq Tag.HOIST [.tok Tag.TK_COMMA,
  .rule .access_spec]), .tok Tag.TK_DBL_COLON, .rule .generic_spec, .tok Tag.TK_ARROW,
  .list Tag.HOIST (.name), .peek Tag.BAD])

/-- parse_stmt.cc:1942-1948 `goto_stmt`. -/
def goto_stmt : Body :=
  .comb (.seq Tag.SG_GOTO_STMT [.tok Tag.KW_GO, .tok Tag.KW_TO, .rule .label, .peek Tag.BAD])

/-- parse_stmt.cc:1954-1963 `if_stmt`. -/
def if_stmt : Body :=
  .comb (.seq Tag.SG_IF_STMT [.tok Tag.KW_IF, .parens Tag.HOIST [.rule .logical_expr],
  .rule .action_stmt, .peek Tag.BAD])

/-- parse_stmt.cc:1966-1976 `if_then_stmt`. -/
def if_then_stmt : Body :=
  .comb (.seq Tag.SG_IF_THEN_STMT [.opt (.seq Tag.HOIST [.name, .tok Tag.TK_COLON]),
  .tok Tag.KW_IF, .parens Tag.HOIST [.rule .logical_expr], .tok Tag.KW_THEN, .peek Tag.BAD])

/-- parse_stmt.cc:1979-1990 `image_selector`. -/
def image_selector : Body :=
  .comb (.brackets Tag.SG_IMAGE_SELECTOR [.list Tag.SG_COSUBSCRIPT_LIST (.rule .cosubscript),
  .opt (.seq Tag.HOIST [.tok Tag.TK_COMMA,
  .list Tag.SG_IMAGE_SELECTOR_SPEC_LIST (.rule .image_selector_spec)])])

/-- parse_stmt.cc:1993-2002 `image_selector_spec`. -/
def image_selector_spec : Body :=
  .comb (.alts Tag.SG_IMAGE_SELECTOR_SPEC [.seq Tag.HOIST [.tok Tag.KW_STAT, .tok Tag.TK_EQUAL,
  .rule .«variable»], .seq Tag.HOIST [.tok Tag.KW_TEAM, .tok Tag.TK_EQUAL, .rule .expr],
  .seq Tag.HOIST [.tok Tag.KW_TEAM_NUMBER, .tok Tag.TK_EQUAL, .rule .expr]])

/-- parse_stmt.cc:2005-2013 `implicit_none_spec`. -/
def implicit_none_spec : Body :=
  .comb (.alts Tag.SG_IMPLICIT_NONE_SPEC [.tok Tag.KW_EXTERNAL, .tok Tag.KW_TYPE])

/-- parse_stmt.cc:2018-2030 `implicit_spec`. -/
def implicit_spec : Body :=
  .comb (.alts Tag.SG_IMPLICIT_SPEC [.seq Tag.HOIST [.rule .declaration_type_spec,
  .parens Tag.HOIST [.list Tag.SG_LETTER_SPEC_LIST (.rule .letter_spec)]],
  .seq Tag.HOIST [.rule .declaration_type_spec_no_kind,
  .parens Tag.HOIST [.list Tag.SG_LETTER_SPEC_LIST (.rule .letter_spec)]]])

/-- parse_stmt.cc:2033-2046 `implicit_stmt`. -/
def implicit_stmt : Body :=
  .comb (.alts Tag.SG_IMPLICIT_STMT [.seq Tag.HOIST [.tok Tag.KW_IMPLICIT, .tok Tag.KW_NONE,
  .opt (.parens Tag.HOIST [.opt (.list Tag.SG_IMPLICIT_NONE_SPEC_LIST (.rule .implicit_none_spec))]),
  .peek Tag.BAD], .seq Tag.HOIST [.tok Tag.KW_IMPLICIT,
  .list Tag.SG_IMPLICIT_SPEC_LIST (.rule .implicit_spec), .peek Tag.BAD]])

/-- parse_stmt.cc:2049-2056 `implied_shape_or_assumed_size_spec`. -/
def implied_shape_or_assumed_size_spec : Body :=
  .comb (.seq Tag.SG_IMPLIED_SHAPE_OR_ASSUMED_SIZE_SPEC [.rule .assumed_implied_spec])

/-- parse_stmt.cc:2059-2071 `implied_shape_spec`. -/
def implied_shape_spec : Body :=
  .comb (.seq Tag.SG_IMPLIED_SHAPE_SPEC [.rule .assumed_implied_spec, .tok Tag.TK_COMMA,
  .list Tag.SG_ASSUMED_IMPLIED_SPEC_LIST (.rule .assumed_implied_spec)])

/-- parse_stmt.cc:2074-2086 `import_stmt`. -/
def import_stmt : Body :=
  .comb (.alts Tag.SG_IMPORT_STMT [.seq Tag.HOIST [.tok Tag.KW_IMPORT,
  .opt (.seq Tag.HOIST [.opt (.tok Tag.TK_DBL_COLON), .list Tag.SG_IMPORT_NAME_LIST (.name)]),
  .peek Tag.BAD], .seq Tag.HOIST [.tok Tag.KW_IMPORT, .tok Tag.TK_COMMA, .tok Tag.KW_ONLY,
  .tok Tag.TK_COLON, .list Tag.SG_IMPORT_NAME_LIST (.name), .peek Tag.BAD],
  .seq Tag.HOIST [.tok Tag.KW_IMPORT, .tok Tag.TK_COMMA, .alts Tag.HOIST [.tok Tag.KW_NONE,
  .tok Tag.KW_ALL]], .peek Tag.BAD])

/-- parse_stmt.cc:2089-2096 `initialization`. -/
def initialization : Body :=
  .comb (.alts Tag.SG_INITIALIZATION [.seq Tag.HOIST [.tok Tag.TK_EQUAL, .rule .expr],
  .seq Tag.HOIST [.tok Tag.TK_ARROW, .rule .expr]])

/-- parse_stmt.cc:2099-2106 `input_item`. -/
def input_item : Body :=
  .comb (.alts Tag.SG_INPUT_ITEM [.rule .io_implied_do, .rule .«variable»])

/-- parse_stmt.cc:2109-2118 `inquire_stmt`. -/
def inquire_stmt : Body :=
  .comb (.seq Tag.SG_INQUIRE_STMT [.tok Tag.KW_INQUIRE, .rule .consume_parens,
  .opt (.list Tag.SG_OUTPUT_ITEM_LIST (.rule .output_item)), .peek Tag.BAD])

/-- parse_stmt.cc:2121-2125 `int_constant_expr`. -/
def int_constant_expr : Body :=
  .comb (.tagIf Tag.SG_INT_CONSTANT_EXPR (.rule .int_expr))

/-- parse_stmt.cc:2128-2132 `int_expr`. -/
def int_expr : Body :=
  .comb (.tagIf Tag.SG_INT_EXPR (.rule .expr))

/-- parse_stmt.cc:2135-2140 `integer_type_spec`. -/
def integer_type_spec : Body :=
  .comb (.seq Tag.SG_INTEGER_TYPE_SPEC [.tok Tag.KW_INTEGER, .opt (.rule .kind_selector)])

/-- parse_stmt.cc:2143-2152 `intent_spec`. -/
def intent_spec : Body :=
  .comb (.alts Tag.SG_INTENT_SPEC [.seq Tag.HOIST [.tok Tag.KW_IN, .tok Tag.KW_OUT],
  .tok Tag.KW_IN, .tok Tag.KW_OUT, .tok Tag.KW_INOUT])

/-- parse_stmt.cc:2155-2166 `intent_stmt`. -/
def intent_stmt : Body :=
  .comb (.seq Tag.SG_INTENT_STMT [.tok Tag.KW_INTENT, .parens Tag.HOIST [.rule .intent_spec],
  .opt (.tok Tag.TK_DBL_COLON), .list Tag.SG_DUMMY_ARG_NAME_LIST (.name), .peek Tag.BAD])

/-- parse_stmt.cc:2169-2176 `interface_stmt`. -/
def interface_stmt : Body :=
  .comb (.alts Tag.SG_INTERFACE_STMT [.seq Tag.HOIST [.tok Tag.KW_INTERFACE,
  .opt (.rule .generic_spec), .peek Tag.BAD], .seq Tag.HOIST [.tok Tag.KW_ABSTRACT,
  .tok Tag.KW_INTERFACE], .peek Tag.BAD])

/-- parse_stmt.cc:2179-2193 `intrinsic_operator`. -/
def intrinsic_operator : Body :=
  .comb (.alts Tag.SG_INTRINSIC_OPERATOR [.tok Tag.TK_POWER_OP, .rule .mult_op, .rule .add_op,
  .tok Tag.TK_CONCAT, .rule .rel_op, .tok Tag.TK_NOT_OP, .tok Tag.TK_AND_OP, .tok Tag.TK_OR_OP,
  .rule .equiv_op])

/-- parse_stmt.cc:2196-2206 `intrinsic_stmt`. -/
def intrinsic_stmt : Body :=
  .comb (.seq Tag.SG_INTRINSIC_STMT [.tok Tag.KW_INTRINSIC, .opt (.tok Tag.TK_DBL_COLON),
  .list Tag.SG_INTRINSIC_PROCEDURE_NAME_LIST (.name), .peek Tag.BAD])

/-- parse_stmt.cc:2209-2222 `intrinsic_type_spec`. -/
def intrinsic_type_spec : Body :=
  .comb (.alts Tag.SG_INTRINSIC_TYPE_SPEC [.rule .integer_type_spec,
  .seq Tag.HOIST [.tok Tag.KW_REAL, .opt (.rule .kind_selector)],
  .seq Tag.HOIST [.tok Tag.KW_COMPLEX, .opt (.rule .kind_selector)],
  .seq Tag.HOIST [.tok Tag.KW_LOGICAL, .opt (.rule .kind_selector)],
  .seq Tag.KW_DOUBLEPRECISION [.tok Tag.KW_DOUBLE, .tok Tag.KW_PRECISION],
  .tok Tag.KW_DOUBLEPRECISION, .seq Tag.HOIST [.tok Tag.KW_CHARACTER,
  .opt (.rule .char_selector)]])

/-- parse_stmt.cc:2225-2238 `intrinsic_type_spec_no_kind`. -/
def intrinsic_type_spec_no_kind : Body :=
  .comb (.alts Tag.SG_INTRINSIC_TYPE_SPEC [.tok Tag.KW_INTEGER, .tok Tag.KW_REAL,
  .tok Tag.KW_COMPLEX, .tok Tag.KW_LOGICAL, .seq Tag.KW_DOUBLEPRECISION [.tok Tag.KW_DOUBLE,
  .tok Tag.KW_PRECISION], .tok Tag.KW_DOUBLEPRECISION, .tok Tag.KW_CHARACTER])

/-- parse_stmt.cc:2241-2251 `io_implied_do`. -/
def io_implied_do : Body :=
  .comb (.parens Tag.SG_IO_IMPLIED_DO [.seq Tag.HOIST [.list Tag.SG_IO_IMPLIED_DO_OBJECT_LIST (.rule .io_implied_do_object),
  .tok Tag.TK_COMMA, .rule .io_implied_do_control]])

/-- parse_stmt.cc:2254-2263 `io_implied_do_control`. -/
def io_implied_do_control : Body :=
  .comb (.seq Tag.SG_IO_IMPLIED_DO_CONTROL [.rule .«variable», .tok Tag.TK_EQUAL, .rule .expr,
  .tok Tag.TK_COMMA, .rule .expr, .opt (.seq Tag.HOIST [.tok Tag.TK_COMMA, .rule .expr])])

/-- parse_stmt.cc:2266-2274 `io_implied_do_object`. -/
def io_implied_do_object : Body :=
  .comb (.alts Tag.SG_IO_IMPLIED_DO_OBJECT [.seq Tag.HOIST [.rule .input_item,
  .neg (.peek Tag.TK_EQUAL)], .seq Tag.HOIST [.rule .output_item, .neg (.peek Tag.TK_EQUAL)]])

/-- parse_stmt.cc:2281-2291 `kind_selector`. -/
def kind_selector : Body :=
  .comb (.alts Tag.SG_KIND_SELECTOR [.parens Tag.HOIST [.opt (.seq Tag.HOIST [.tok Tag.KW_KIND,
  .tok Tag.TK_EQUAL]), .rule .int_constant_expr], .seq Tag.HOIST [.tok Tag.TK_ASTERISK,
  .tok Tag.SG_INT_LITERAL_CONSTANT]])

/-- parse_stmt.cc:2296-2303 `label`. -/
def label : Body :=
  .comb (.tagIf Tag.SG_LABEL (.tok Tag.SG_INT_LITERAL_CONSTANT))

/-- parse_stmt.cc:2306-2315 `label_do_stmt`. -/
def label_do_stmt : Body :=
  .comb (.seq Tag.SG_LABEL_DO_STMT [.opt (.seq Tag.HOIST [.name, .tok Tag.TK_COLON]),
  .tok Tag.KW_DO, .rule .label, .opt (.rule .loop_control), .peek Tag.BAD])

/-- parse_stmt.cc:2318-2331 `language_binding_spec`. -/
def language_binding_spec : Body :=
  .comb (.seq Tag.SG_LANGUAGE_BINDING_SPEC [.tok Tag.KW_BIND, .tok Tag.TK_PARENL,
  .literal "c".toList, .opt (.seq Tag.HOIST [.tok Tag.TK_COMMA, .tok Tag.KW_NAME,
  .tok Tag.TK_EQUAL, .rule .default_char_expr]), .tok Tag.TK_PARENR])

/-- parse_stmt.cc:2334-2342 `length_selector`. -/
def length_selector : Body :=
  .comb (.alts Tag.SG_LENGTH_SELECTOR [.parens Tag.HOIST [.opt (.seq Tag.HOIST [.tok Tag.KW_LEN,
  .tok Tag.TK_EQUAL]), .rule .type_param_value], .seq Tag.HOIST [.tok Tag.TK_ASTERISK,
  .rule .char_length]])

/-- parse_stmt.cc:2345-2352 `letter_spec`. -/
def letter_spec : Body :=
  .comb (.seq Tag.SG_LETTER_SPEC [.letter, .opt (.seq Tag.HOIST [.tok Tag.TK_MINUS, .letter])])

/-- parse_stmt.cc:2355-2371 `locality_spec`. -/
def locality_spec : Body :=
  .comb (.alts Tag.SG_LOCALITY_SPEC [.seq Tag.HOIST [.tok Tag.KW_LOCAL,
  .parens Tag.HOIST [.list Tag.SG_VARIABLE_NAME_LIST (.tagIf Tag.SG_VARIABLE_NAME (.name))]],
  .seq Tag.HOIST [.tok Tag.KW_LOCAL_INIT,
  .parens Tag.HOIST [.list Tag.SG_VARIABLE_NAME_LIST (.tagIf Tag.SG_VARIABLE_NAME (.name))]],
  .seq Tag.HOIST [.tok Tag.KW_SHARED,
  .parens Tag.HOIST [.list Tag.SG_VARIABLE_NAME_LIST (.tagIf Tag.SG_VARIABLE_NAME (.name))]],
  .seq Tag.HOIST [.tok Tag.KW_DEFAULT, .tok Tag.TK_PARENL, .tok Tag.KW_NONE, .tok Tag.TK_PARENR]])

/-- parse_stmt.cc:2374-2387 `lock_stmt`. -/
def lock_stmt : Body :=
  .comb (.seq Tag.SG_LOCK_STMT [.tok Tag.KW_LOCK, .parens Tag.HOIST [.rule .«variable»,
  .opt (.seq Tag.HOIST [.tok Tag.TK_COMMA,
  .list Tag.HOIST (.alts Tag.HOIST [.seq Tag.HOIST [.tok Tag.KW_ACQUIRED_LOCK, .tok Tag.TK_EQUAL,
  .rule .«variable»], .rule .sync_stat])])], .peek Tag.BAD])

/-- parse_stmt.cc:2390-2395 `logical_expr`. -/
def logical_expr : Body :=
  .comb (.tagIf Tag.SG_LOGICAL_EXPR (.rule .expr))

/-- parse_stmt.cc:2398-2405 `logical_literal_constant`. -/
def logical_literal_constant : Body :=
  .comb (.alts Tag.SG_LOGICAL_LITERAL_CONSTANT [.tok Tag.TK_FALSE_CONSTANT,
  .tok Tag.TK_TRUE_CONSTANT])

/-- parse_stmt.cc:2408-2429 `loop_control`. -/
def loop_control : Body :=
  .comb (.seq Tag.SG_LOOP_CONTROL [.opt (.tok Tag.TK_COMMA),
  .alts Tag.HOIST [.seq Tag.HOIST [.name, .tok Tag.TK_EQUAL, .rule .int_expr, .tok Tag.TK_COMMA,
  .rule .int_expr, .opt (.seq Tag.HOIST [.tok Tag.TK_COMMA, .rule .int_expr])],
  .seq Tag.HOIST [.tok Tag.KW_WHILE, .parens Tag.HOIST [.rule .logical_expr]],
  .seq Tag.HOIST [.tok Tag.KW_CONCURRENT, .rule .concurrent_header,
  .opt (.rule .concurrent_locality)]]])

/-- parse_stmt.cc:2432-2437 `lower_bound_expr`. -/
def lower_bound_expr : Body :=
  .comb (.tagIf Tag.SG_LOWER_BOUND_EXPR (.rule .expr))

/-- parse_stmt.cc:2444-2456 `macro_stmt`. -/
def macro_stmt : Body :=
  .comb (.seq Tag.SG_MACRO_STMT [.neg (.peek Tag.KW_ASSOCIATE), .neg (.peek Tag.KW_WHERE),
  .neg (.peek Tag.KW_FORALL), .neg (.peek Tag.KW_CASE), .name, .rule .consume_parens,
  .peek Tag.BAD])

/-- parse_stmt.cc:2459-2468 `masked_elsewhere_stmt`. -/
def masked_elsewhere_stmt : Body :=
  .comb (.seq Tag.SG_MASKED_ELSEWHERE_STMT [.tok Tag.KW_ELSE, .tok Tag.KW_WHERE,
  .parens Tag.HOIST [.rule .logical_expr], .opt (.name), .peek Tag.BAD])

/-- parse_stmt.cc:2471-2476 `module_nature`. -/
def module_nature : Body :=
  .comb (.alts Tag.SG_MODULE_NATURE [.tok Tag.KW_INTRINSIC, .tok Tag.KW_NON_INTRINSIC])

/-- parse_stmt.cc:2479-2484 `module_stmt`. -/
def module_stmt : Body :=
  .comb (.seq Tag.SG_MODULE_STMT [.tok Tag.KW_MODULE, .name, .peek Tag.BAD])

/-- parse_stmt.cc:2487-2494 `mp_subprogram_stmt`. -/
def mp_subprogram_stmt : Body :=
  .comb (.seq Tag.SG_MP_SUBPROGRAM_STMT [.tok Tag.KW_MODULE, .tok Tag.KW_PROCEDURE, .name,
  .peek Tag.BAD])

/-- parse_stmt.cc:2497-2504 `mult_op`. -/
def mult_op : Body :=
  .comb (.alts Tag.SG_MULT_OP [.tok Tag.TK_ASTERISK, .tok Tag.TK_SLASHF])

/-- parse_stmt.cc:2509-2514 `named_constant_def`. -/
def named_constant_def : Body :=
  .comb (.seq Tag.SG_NAMED_CONSTANT_DEF [.name, .tok Tag.TK_EQUAL, .rule .expr])

/-- parse_stmt.cc:2517-2534 `namelist_stmt`. -/
def namelist_stmt : Body :=
  .comb (.seq Tag.SG_NAMELIST_STMT [.tok Tag.KW_NAMELIST, .tok Tag.TK_SLASHF, .name,
  .tok Tag.TK_SLASHF, .list Tag.SG_NAMELIST_GROUP_OBJECT_LIST (.name),
  .star (.seq Tag.HOIST [.opt (.tok Tag.TK_COMMA), .tok Tag.TK_SLASHF, .name, .tok Tag.TK_SLASHF,
  .list Tag.SG_NAMELIST_GROUP_OBJECT_LIST (.name)]), .peek Tag.BAD])

/-- parse_stmt.cc:2537-2546 `nonlabel_do_stmt`. -/
def nonlabel_do_stmt : Body :=
  .comb (.seq Tag.SG_NONLABEL_DO_STMT [.opt (.seq Tag.HOIST [.name, .tok Tag.TK_COLON]),
  .tok Tag.KW_DO, .opt (.rule .loop_control), .peek Tag.BAD])

/-- parse_stmt.cc:2549-2558 `nullify_stmt`. -/
def nullify_stmt : Body :=
  .comb (.seq Tag.SG_NULLIFY_STMT [.tok Tag.KW_NULLIFY,
  .parens Tag.HOIST [.list Tag.SG_POINTER_OBJECT_LIST (.rule .pointer_object)], .peek Tag.BAD])

/-- parse_stmt.cc:2563-2571 `only`. -/
def only : Body :=
  .comb (.alts Tag.SG_ONLY [.rule .rename, .rule .generic_spec, .rule .list_name])

/-- parse_stmt.cc:2574-2582 `open_stmt`. -/
def open_stmt : Body :=
  .comb (.seq Tag.SG_OPEN_STMT [.tok Tag.KW_OPEN, .rule .consume_parens, .peek Tag.BAD])

/-- parse_stmt.cc:2585-2593 `optional_stmt`. -/
def optional_stmt : Body :=
  .comb (.seq Tag.SG_OPTIONAL_STMT [.tok Tag.KW_OPTIONAL, .opt (.tok Tag.TK_DBL_COLON),
  .list Tag.SG_DUMMY_ARG_NAME_LIST (.name), .peek Tag.BAD])

/-- parse_stmt.cc:2596-2626 `other_specification_stmt`. -/
def other_specification_stmt : Body :=
  .withExts false (.alts Tag.SG_OTHER_SPECIFICATION_STMT [.rule .access_stmt,
  .rule .allocatable_stmt, .rule .asynchronous_stmt, .rule .bind_stmt, .rule .codimension_stmt,
  .rule .dimension_stmt, .rule .external_stmt, .rule .intent_stmt, .rule .intrinsic_stmt,
  .rule .namelist_stmt, .rule .optional_stmt, .rule .pointer_stmt, .rule .protected_stmt,
  .rule .save_stmt, .rule .target_stmt, .rule .volatile_stmt, .rule .value_stmt,
  .rule .common_stmt, .rule .equivalence_stmt])

/-- parse_stmt.cc:2629-2636 `output_item`. -/
def output_item : Body :=
  .comb (.alts Tag.SG_OUTPUT_ITEM [.rule .io_implied_do, .rule .expr])

/-- parse_stmt.cc:2641-2650 `parameter_stmt`. -/
def parameter_stmt : Body :=
  .comb (.seq Tag.SG_PARAMETER_STMT [.tok Tag.KW_PARAMETER,
  .parens Tag.HOIST [.list Tag.SG_NAMED_CONSTANT_DEF_LIST (.rule .named_constant_def)],
  .peek Tag.BAD])

/-- parse_stmt.cc:2653-2664 `parent_string`. -/
def parent_string : Body :=
  .comb (.alts Tag.SG_PARENT_STRING [.rule .array_element, .rule .coindexed_named_object,
  .rule .structure_component, .tok Tag.SG_CHAR_LITERAL_CONSTANT, .name])

/-- parse_stmt.cc:2667-2677 `part_ref`. -/
def part_ref : Body :=
  .comb (.seq Tag.SG_PART_REF [.name,
  .opt (.parens Tag.HOIST [.list Tag.SG_SECTION_SUBSCRIPT_LIST (.rule .section_subscript)]),
  .opt (.rule .image_selector)])

/-- parse_stmt.cc:2680-2702 `pointer_assignment_stmt`. -/
def pointer_assignment_stmt : Body :=
  .comb (.alts Tag.SG_POINTER_ASSIGNMENT_STMT [.seq Tag.HOIST [.rule .data_pointer_object,
  .parens Tag.HOIST [.list Tag.SG_BOUNDS_REMAPPING_LIST (.rule .bounds_remapping)],
  .tok Tag.TK_ARROW, .tagIf Tag.SG_DATA_TARGET (.rule .expr), .peek Tag.BAD],
  .seq Tag.HOIST [.rule .data_pointer_object,
  .opt (.parens Tag.HOIST [.list Tag.SG_BOUNDS_SPEC_LIST (.rule .bounds_spec)]),
  .tok Tag.TK_ARROW, .tagIf Tag.SG_DATA_TARGET (.rule .expr), .peek Tag.BAD],
  .seq Tag.HOIST [.rule .proc_pointer_object, .tok Tag.TK_ARROW, .rule .proc_target,
  .peek Tag.BAD]])

/-- parse_stmt.cc:2705-2713 `pointer_decl`. -/
def pointer_decl : Body :=
  .comb (.seq Tag.SG_POINTER_DECL [.name,
  .opt (.parens Tag.HOIST [.list Tag.HOIST (.tok Tag.TK_COLON)])])

/-- parse_stmt.cc:2716-2725 `pointer_object`. -/
def pointer_object : Body :=
  .comb (.alts Tag.SG_POINTER_OBJECT [.rule .structure_component, .name])

/-- parse_stmt.cc:2728-2739 `pointer_stmt`. -/
def pointer_stmt : Body :=
  .comb (.seq Tag.SG_POINTER_STMT [.tok Tag.KW_POINTER, .opt (.tok Tag.TK_DBL_COLON),
  .list Tag.SG_POINTER_DECL_LIST (.rule .pointer_decl), .peek Tag.BAD])

/-- parse_stmt.cc:2742-2747 `prefix`. -/
def «prefix» : Body :=
  .comb (.tagIf Tag.SG_PREFIX (.star (.rule .prefix_spec)))

/-- parse_stmt.cc:2750-2763 `prefix_spec`. -/
def prefix_spec : Body :=
  .comb (.alts Tag.SG_PREFIX_SPEC [.tok Tag.KW_ELEMENTAL, .tok Tag.KW_IMPURE, .tok Tag.KW_MODULE,
  .tok Tag.KW_NON_RECURSIVE, .tok Tag.KW_PURE, .tok Tag.KW_RECURSIVE,
  .rule .declaration_type_spec])

/-- parse_stmt.cc:2766-2774 `print_stmt`. -/
def print_stmt : Body :=
  .comb (.seq Tag.SG_PRINT_STMT [.tok Tag.KW_PRINT, .rule .format,
  .opt (.seq Tag.HOIST [.tok Tag.TK_COMMA, .list Tag.SG_OUTPUT_ITEM_LIST (.rule .output_item)]),
  .peek Tag.BAD])

/-- parse_stmt.cc:2777-2784 `private_components_stmt`. -/
def private_components_stmt : Body :=
  .comb (.seq Tag.SG_PRIVATE_COMPONENTS_STMT [.tok Tag.KW_PRIVATE, .peek Tag.BAD])

/-- parse_stmt.cc:2787-2794 `private_or_sequence`. -/
def private_or_sequence : Body :=
  .comb (.alts Tag.SG_PRIVATE_OR_SEQUENCE [.rule .private_components_stmt, .rule .sequence_stmt])

/-- parse_stmt.cc:2797-2809 `proc_attr_spec`. -/
def proc_attr_spec : Body :=
  .comb (.alts Tag.SG_PROC_ATTR_SPEC [.rule .access_spec, .rule .proc_language_binding_spec,
  .seq Tag.HOIST [.tok Tag.KW_INTENT, .parens Tag.HOIST [.rule .intent_spec]],
  .tok Tag.KW_OPTIONAL, .tok Tag.KW_POINTER, .tok Tag.KW_PROTECTED, .tok Tag.KW_SAVE])

/-- parse_stmt.cc:2812-2821 `proc_component_attr_spec`. -/
def proc_component_attr_spec : Body :=
  .comb (.alts Tag.SG_PROC_COMPONENT_ATTR_SPEC [.rule .access_spec, .tok Tag.KW_NOPASS,
  .seq Tag.HOIST [.tok Tag.KW_PASS, .opt (.parens Tag.HOIST [.name])], .tok Tag.KW_POINTER])

/-- parse_stmt.cc:2824-2838 `proc_component_def_stmt`. -/
def proc_component_def_stmt : Body :=
  .comb (.seq Tag.SG_PROC_COMPONENT_DEF_STMT [.tok Tag.KW_PROCEDURE,
  .parens Tag.HOIST [.opt (.rule .proc_interface)], .tok Tag.TK_COMMA,
  .list Tag.SG_PROC_COMPONENT_ATTR_SPEC_LIST (.rule .proc_component_attr_spec),
  .tok Tag.TK_DBL_COLON, .list Tag.SG_PROC_DECL_LIST (.rule .proc_decl), .peek Tag.BAD])

/-- parse_stmt.cc:2841-2855 `proc_component_ref`. -/
def proc_component_ref : Body :=
  .comb (.seq Tag.SG_PROC_COMPONENT_REF [.rule .«variable»])

/-- parse_stmt.cc:2858-2867 `proc_decl`. -/
def proc_decl : Body :=
  .comb (.seq Tag.SG_PROC_DECL [.name, .opt (.seq Tag.HOIST [.tok Tag.TK_ARROW,
  .rule .proc_pointer_init])])

/-- parse_stmt.cc:2870-2877 `proc_interface`. -/
def proc_interface : Body :=
  .comb (.alts Tag.SG_PROC_INTERFACE [.name, .rule .declaration_type_spec])

/-- parse_stmt.cc:2880-2885 `proc_language_binding_spec`. -/
def proc_language_binding_spec : Body :=
  .comb (.tagIf Tag.SG_PROC_LANGUAGE_BINDING_SPEC (.rule .language_binding_spec))

/-- parse_stmt.cc:2888-2896 `proc_pointer_init`. -/
def proc_pointer_init : Body :=
  .comb (.alts Tag.SG_PROC_POINTER_INIT [.tagIf Tag.SG_NULL_INIT (.rule .function_reference),
  .name])

/-- parse_stmt.cc:2899-2907 `proc_pointer_object`. -/
def proc_pointer_object : Body :=
  .comb (.alts Tag.SG_PROC_POINTER_OBJECT [.tagIf Tag.SG_PROC_POINTER_NAME (.seq Tag.HOIST [.name,
  .neg (.tok Tag.TK_PERCENT)]), .rule .proc_component_ref])

/-- parse_stmt.cc:2910-2918 `proc_target`. -/
def proc_target : Body :=
  .comb (.alts Tag.SG_PROC_TARGET [.rule .expr, .name, .rule .proc_component_ref])

/-- parse_stmt.cc:2921-2935 `procedure_declaration_stmt`. -/
def procedure_declaration_stmt : Body :=
  .comb (.seq Tag.SG_PROCEDURE_DECLARATION_STMT [.tok Tag.KW_PROCEDURE,
  .parens Tag.HOIST [.opt (.rule .proc_interface)],
  .opt (.seq Tag.HOIST [.star (.seq Tag.HOIST [.tok Tag.TK_COMMA, .rule .proc_attr_spec]),
  .tok Tag.TK_DBL_COLON]), .list Tag.SG_PROC_DECL_LIST (.rule .proc_decl), .peek Tag.BAD])

/-- parse_stmt.cc:2938-2981 `procedure_designator`. -/
def procedure_designator : Body :=
  .procDesignator (.seq Tag.SG_PROCEDURE_DESIGNATOR [.opt (.seq Tag.HOIST [.star (.seq Tag.HOIST [.rule .part_ref,
  .tok Tag.TK_PERCENT])]), .name, .peek Tag.BAD])

/-- parse_stmt.cc:2984-2995 `procedure_stmt`. -/
def procedure_stmt : Body :=
  .comb (.seq Tag.SG_PROCEDURE_STMT [.opt (.tok Tag.KW_MODULE), .tok Tag.KW_PROCEDURE,
  .opt (.tok Tag.TK_DBL_COLON),
  .list Tag.SG_SPECIFIC_PROCEDURE_LIST (.tagIf Tag.SG_SPECIFIC_PROCEDURE (.name)), .peek Tag.BAD])

/-- parse_stmt.cc:2998-3006 `program_stmt`. -/
def program_stmt : Body :=
  .comb (.seq Tag.SG_PROGRAM_STMT [.tok Tag.KW_PROGRAM, .name, .peek Tag.BAD])

/-- parse_stmt.cc:3009-3018 `protected_stmt`. -/
def protected_stmt : Body :=
  .comb (.seq Tag.SG_PROTECTED_STMT [.tok Tag.KW_PROTECTED, .opt (.tok Tag.TK_DBL_COLON),
  .list Tag.HOIST (.name), .peek Tag.BAD])

/-- parse_stmt.cc:3025-3042 `read_stmt`. -/
def read_stmt : Body :=
  .comb (.seq Tag.SG_READ_STMT [.tok Tag.KW_READ,
  .alts Tag.HOIST [.seq Tag.HOIST [.tagIf Tag.SG_IO_CONTROL_SPEC_LIST (.rule .consume_parens),
  .opt (.list Tag.SG_INPUT_ITEM_LIST (.rule .input_item))], .seq Tag.HOIST [.rule .format,
  .opt (.seq Tag.HOIST [.tok Tag.TK_COMMA, .list Tag.SG_INPUT_ITEM_LIST (.rule .input_item)])]],
  .peek Tag.BAD])

/-- parse_stmt.cc:3045-3056 `real_literal_constant`. -/
def real_literal_constant : Body :=
  .comb realLiteral

/-- parse_stmt.cc:3059-3068 `rel_op`. -/
def rel_op : Body :=
  .comb (.alts Tag.SG_REL_OP [.tok Tag.TK_REL_LT, .tok Tag.TK_REL_LE, .tok Tag.TK_REL_GT,
  .tok Tag.TK_REL_GE])

/-- parse_stmt.cc:3071-3080 `rename`. -/
def rename : Body :=
  .comb (.alts Tag.SG_RENAME [.seq Tag.HOIST [.name, .tok Tag.TK_ARROW, .name],
  .seq Tag.HOIST [.tok Tag.KW_OPERATOR, .parens Tag.HOIST [.tok Tag.TK_DEF_OP],
  .tok Tag.TK_ARROW, .tok Tag.KW_OPERATOR, .parens Tag.HOIST [.tok Tag.TK_DEF_OP]]])

/-- parse_stmt.cc:3083-3088 `return_stmt`. -/
def return_stmt : Body :=
  .comb (.seq Tag.SG_RETURN_STMT [.tok Tag.KW_RETURN, .opt (.rule .int_expr), .peek Tag.BAD])

/-- parse_stmt.cc:3091-3100 `rewind_stmt`. -/
def rewind_stmt : Body :=
  .comb (.seq Tag.SG_REWIND_STMT [.tok Tag.KW_REWIND, .alts Tag.HOIST [.rule .int_expr,
  .rule .consume_parens], .peek Tag.BAD])

/-- parse_stmt.cc:3105-3116 `save_stmt`. -/
def save_stmt : Body :=
  .comb (.seq Tag.SG_SAVE_STMT [.tok Tag.KW_SAVE,
  .opt (.seq Tag.HOIST [.opt (.tok Tag.TK_DBL_COLON),
  .list Tag.SG_SAVED_ENTITY_LIST (.rule .saved_entity)]), .peek Tag.BAD])

/-- parse_stmt.cc:3119-3128 `saved_entity`. -/
def saved_entity : Body :=
  .comb (.alts Tag.SG_SAVED_ENTITY [.name, .seq Tag.HOIST [.tok Tag.TK_SLASHF, .name,
  .tok Tag.TK_SLASHF]])

/-- parse_stmt.cc:3131-3141 `section_subscript`. -/
def section_subscript : Body :=
  .comb (.alts Tag.SG_SECTION_SUBSCRIPT [.seq Tag.HOIST [.opt (.rule .int_expr),
  .tok Tag.TK_COLON, .opt (.rule .int_expr), .opt (.seq Tag.HOIST [.tok Tag.TK_COLON,
  .rule .int_expr])], .rule .int_expr])

/-- parse_stmt.cc:3144-3154 `select_case_stmt`. -/
def select_case_stmt : Body :=
  .comb (.seq Tag.SG_SELECT_CASE_STMT [.opt (.seq Tag.HOIST [.name, .tok Tag.TK_COLON]),
  .tok Tag.KW_SELECT, .tok Tag.KW_CASE,
  .parens Tag.HOIST [.tagIf Tag.SG_CASE_EXPR (.rule .expr)], .peek Tag.BAD])

/-- parse_stmt.cc:3157-3167 `select_rank_stmt`. -/
def select_rank_stmt : Body :=
  .comb (.seq Tag.SG_SELECT_RANK_STMT [.opt (.seq Tag.HOIST [.name, .tok Tag.TK_COLON]),
  .tok Tag.KW_SELECT, .tok Tag.KW_RANK,
  .parens Tag.HOIST [.seq Tag.HOIST [.opt (.seq Tag.HOIST [.name, .tok Tag.TK_ARROW]),
  .rule .selector]], .peek Tag.BAD])

/-- parse_stmt.cc:3170-3180 `select_rank_case_stmt`. -/
def select_rank_case_stmt : Body :=
  .comb (.seq Tag.SG_SELECT_RANK_CASE_STMT [.tok Tag.KW_RANK,
  .alts Tag.HOIST [.tok Tag.KW_DEFAULT, .parens Tag.HOIST [.tok Tag.TK_ASTERISK],
  .parens Tag.HOIST [.rule .int_constant_expr]], .peek Tag.BAD])

/-- parse_stmt.cc:3183-3193 `select_type_stmt`. -/
def select_type_stmt : Body :=
  .comb (.seq Tag.SG_SELECT_TYPE_STMT [.opt (.seq Tag.HOIST [.name, .tok Tag.TK_COLON]),
  .tok Tag.KW_SELECT, .tok Tag.KW_TYPE,
  .parens Tag.HOIST [.seq Tag.HOIST [.opt (.seq Tag.HOIST [.name, .tok Tag.TK_ARROW]),
  .rule .selector]], .peek Tag.BAD])

/-- parse_stmt.cc:3196-3203 `selector`. -/
def selector : Body :=
  .comb (.alts Tag.SG_SELECTOR [.rule .expr, .rule .«variable»])

/-- parse_stmt.cc:3206-3213 `sequence_stmt`. -/
def sequence_stmt : Body :=
  .comb (.seq Tag.SG_SEQUENCE_STMT [.tok Tag.KW_SEQUENCE, .peek Tag.BAD])

/-- parse_stmt.cc:3216-3223 `sign`. -/
def sign : Body :=
  .comb (.alts Tag.SG_SIGN [.tok Tag.TK_PLUS, .tok Tag.TK_MINUS])

/-- parse_stmt.cc:3226-3233 `signed_real_literal_constant`. -/
def signed_real_literal_constant : Body :=
  .comb (.seq Tag.SG_SIGNED_REAL_LITERAL_CONSTANT [.opt (.rule .sign),
  .rule .real_literal_constant])

/-- parse_stmt.cc:3236-3248 `stop_stmt`. -/
def stop_stmt : Body :=
  .comb (.seq Tag.SG_STOP_STMT [.tok Tag.KW_STOP, .opt (.rule .default_char_expr),
  .opt (.seq Tag.HOIST [.tok Tag.TK_COMMA, .tok Tag.KW_QUIET, .tok Tag.TK_EQUAL,
  .rule .logical_expr]), .peek Tag.BAD])

/-- parse_stmt.cc:3253-3262 `structure_component`. -/
def structure_component : Body :=
  .comb (.seq Tag.SG_STRUCTURE_COMPONENT [.rule .part_ref, .tok Tag.TK_PERCENT,
  .star (.seq Tag.HOIST [.rule .part_ref, .tok Tag.TK_PERCENT]), .name,
  .opt (.rule .image_selector)])

/-- parse_stmt.cc:3265-3273 `structure_constructor`. -/
def structure_constructor : Body :=
  .comb (.seq Tag.SG_STRUCTURE_CONSTRUCTOR [.rule .derived_type_spec,
  .parens Tag.HOIST [.opt (.list Tag.SG_COMPONENT_SPEC_LIST (.rule .component_spec))]])

/-- parse_stmt.cc:3276-3284 `submodule_stmt`. -/
def submodule_stmt : Body :=
  .comb (.seq Tag.SG_SUBMODULE_STMT [.tok Tag.KW_SUBMODULE, .tok Tag.TK_PARENL, .name,
  .opt (.seq Tag.HOIST [.tok Tag.TK_COLON, .name]), .tok Tag.TK_PARENR, .peek Tag.BAD])

/-- parse_stmt.cc:3287-3302 `subroutine_stmt`. -/
def subroutine_stmt : Body :=
  .comb (.seq Tag.SG_SUBROUTINE_STMT [.opt (.rule .«prefix»), .tok Tag.KW_SUBROUTINE, .name,
  .opt (.seq Tag.HOIST [.parens Tag.HOIST [.opt (.list Tag.SG_DUMMY_ARG_LIST (.rule .dummy_arg))]]),
  .opt (.rule .proc_language_binding_spec), .peek Tag.BAD])

/-- parse_stmt.cc:3305-3311 `substring`. -/
def substring : Body :=
  .comb (.seq Tag.SG_SUBSTRING [.rule .parent_string, .parens Tag.HOIST [.rule .substring_range]])

/-- parse_stmt.cc:3314-3322 `substring_range`. -/
def substring_range : Body :=
  .comb (.seq Tag.SG_SUBSTRING_RANGE [.opt (.rule .int_expr), .tok Tag.TK_COLON,
  .opt (.rule .int_expr)])

/-- parse_stmt.cc:3325-3335 `suffix`. -/
def suffix : Body :=
  .comb (.alts Tag.SG_SUFFIX [.seq Tag.HOIST [.rule .proc_language_binding_spec,
  .opt (.seq Tag.HOIST [.tok Tag.KW_RESULT, .parens Tag.HOIST [.name]])],
  .seq Tag.HOIST [.seq Tag.HOIST [.tok Tag.KW_RESULT, .parens Tag.HOIST [.name]],
  .opt (.rule .proc_language_binding_spec)]])

/-- parse_stmt.cc:3338-3347 `sync_all_stmt`. -/
def sync_all_stmt : Body :=
  .comb (.seq Tag.SG_SYNC_ALL_STMT [.tok Tag.KW_SYNC, .tok Tag.KW_ALL,
  .opt (.parens Tag.HOIST [.opt (.list Tag.HOIST (.rule .sync_stat))]), .peek Tag.BAD])

/-- parse_stmt.cc:3350-3364 `sync_images_stmt`. -/
def sync_images_stmt : Body :=
  .comb (.seq Tag.SG_SYNC_ALL_STMT [.tok Tag.KW_SYNC, .tok Tag.KW_IMAGES,
  .parens Tag.HOIST [.alts Tag.HOIST [.rule .expr, .tok Tag.TK_ASTERISK],
  .opt (.seq Tag.HOIST [.tok Tag.TK_COMMA, .list Tag.HOIST (.rule .sync_stat)])], .peek Tag.BAD])

/-- parse_stmt.cc:3367-3376 `sync_memory_stmt`. -/
def sync_memory_stmt : Body :=
  .comb (.seq Tag.SG_SYNC_MEMORY_STMT [.tok Tag.KW_SYNC, .tok Tag.KW_MEMORY,
  .opt (.parens Tag.HOIST [.opt (.list Tag.HOIST (.rule .sync_stat))]), .peek Tag.BAD])

/-- parse_stmt.cc:3379-3387 `sync_stat`. -/
def sync_stat : Body :=
  .comb (.alts Tag.SG_SYNC_STAT [.seq Tag.HOIST [.tok Tag.KW_STAT, .tok Tag.TK_EQUAL,
  .rule .«variable»], .seq Tag.HOIST [.tok Tag.KW_ERRMSG, .tok Tag.TK_EQUAL, .rule .«variable»]])

/-- parse_stmt.cc:3390-3403 `sync_team_stmt`. -/
def sync_team_stmt : Body :=
  .comb (.seq Tag.SG_SYNC_TEAM_STMT [.tok Tag.KW_SYNC, .tok Tag.KW_TEAM,
  .parens Tag.HOIST [.rule .expr, .opt (.seq Tag.HOIST [.tok Tag.TK_COMMA,
  .list Tag.HOIST (.rule .sync_stat)])], .peek Tag.BAD])

/-- parse_stmt.cc:3409-3417 `target_decl`. -/
def target_decl : Body :=
  .comb (.seq Tag.SG_TARGET_DECL [.name, .opt (.parens Tag.HOIST [.rule .array_spec]),
  .opt (.brackets Tag.HOIST [.rule .coarray_spec])])

/-- parse_stmt.cc:3420-3429 `target_stmt`. -/
def target_stmt : Body :=
  .comb (.seq Tag.SG_TARGET_STMT [.tok Tag.KW_TARGET, .opt (.tok Tag.TK_DBL_COLON),
  .list Tag.SG_TARGET_DECL_LIST (.rule .target_decl), .peek Tag.BAD])

/-- parse_stmt.cc:3432-3442 `type_attr_spec`. -/
def type_attr_spec : Body :=
  .comb (.alts Tag.SG_TYPE_ATTR_SPEC [.tok Tag.KW_ABSTRACT, .rule .access_spec, .rule .bind_c,
  .seq Tag.HOIST [.tok Tag.KW_EXTENDS, .parens Tag.HOIST [.name]]])

/-- parse_stmt.cc:3445-3458 `type_bound_generic_stmt`. -/
def type_bound_generic_stmt : Body :=
  .comb (.seq Tag.SG_TYPE_BOUND_GENERIC_STMT [.tok Tag.KW_GENERIC,
  .opt (.seq Tag.HOIST [.tok Tag.TK_COMMA, .rule .access_spec]), .tok Tag.TK_DBL_COLON,
  .rule .generic_spec, .tok Tag.TK_ARROW, .list Tag.SG_BINDING_NAME_LIST (.name), .peek Tag.BAD])

/-- parse_stmt.cc:3461-3469 `type_bound_proc_binding`. -/
def type_bound_proc_binding : Body :=
  .comb (.alts Tag.SG_TYPE_BOUND_PROC_BINDING [.rule .type_bound_procedure_stmt,
  .rule .type_bound_generic_stmt, .rule .final_procedure_stmt])

/-- parse_stmt.cc:3472-3481 `type_bound_proc_decl`. -/
def type_bound_proc_decl : Body :=
  .comb (.seq Tag.SG_TYPE_BOUND_PROC_DECL [.name, .opt (.seq Tag.HOIST [.tok Tag.TK_ARROW,
  .name])])

/-- parse_stmt.cc:3484-3508 `type_bound_procedure_stmt`. -/
def type_bound_procedure_stmt : Body :=
  .comb (.alts Tag.SG_TYPE_BOUND_PROCEDURE_STMT [.seq Tag.HOIST [.tok Tag.KW_PROCEDURE,
  .opt (.seq Tag.HOIST [.opt (.seq Tag.HOIST [.tok Tag.TK_COMMA,
  .list Tag.SG_BINDING_ATTR_LIST (.rule .binding_attr)]), .tok Tag.TK_DBL_COLON]),
  .list Tag.SG_TYPE_BOUND_PROC_DECL_LIST (.rule .type_bound_proc_decl), .peek Tag.BAD],
  .seq Tag.HOIST [.tok Tag.KW_PROCEDURE, .parens Tag.HOIST [.name], .tok Tag.TK_COMMA,
  .list Tag.SG_BINDING_ATTR_LIST (.rule .binding_attr), .tok Tag.TK_DBL_COLON,
  .list Tag.SG_BINDING_NAME_LIST (.name), .peek Tag.BAD]])

/-- parse_stmt.cc:3518-3527 `type_decl_attr_seq1`. -/
def type_decl_attr_seq1 : Body :=
  .comb (.seq Tag.SG_TYPE_DECL_ATTR_SEQ [.rule .declaration_type_spec,
  .opt (.seq Tag.HOIST [.star (.seq Tag.HOIST [.tok Tag.TK_COMMA, .rule .attr_spec]),
  .tok Tag.TK_DBL_COLON])])

/-- parse_stmt.cc:3542-3555 `type_decl_attr_seq2`. -/
def type_decl_attr_seq2 : Body :=
  .comb (.seq Tag.SG_TYPE_DECL_ATTR_SEQ [.seq Tag.SG_DECLARATION_TYPE_SPEC [.seq Tag.SG_INTRINSIC_TYPE_SPEC [.tok Tag.KW_CHARACTER,
  .seq Tag.SG_CHAR_SELECTOR [.seq Tag.SG_LENGTH_SELECTOR [.tok Tag.TK_ASTERISK,
  .rule .char_length, .tok Tag.TK_COMMA]]]]])

/-- parse_stmt.cc:3561-3572 `type_declaration_stmt`. -/
def type_declaration_stmt : Body :=
  .comb (.alts Tag.SG_TYPE_DECLARATION_STMT [.seq Tag.HOIST [.rule .type_decl_attr_seq1,
  .list Tag.SG_ENTITY_DECL_LIST (.rule .entity_decl), .peek Tag.BAD],
  .seq Tag.HOIST [.rule .type_decl_attr_seq2, .list Tag.SG_ENTITY_DECL_LIST (.rule .entity_decl),
  .peek Tag.BAD]])

/-- parse_stmt.cc:3575-3587 `type_guard_stmt`. -/
def type_guard_stmt : Body :=
  .comb (.alts Tag.SG_TYPE_GUARD_STMT [.seq Tag.HOIST [.tok Tag.KW_TYPE, .tok Tag.KW_IS,
  .parens Tag.HOIST [.rule .type_spec], .opt (.name), .peek Tag.BAD],
  .seq Tag.HOIST [.tok Tag.KW_CLASS, .tok Tag.KW_IS,
  .parens Tag.HOIST [.rule .derived_type_spec], .opt (.name), .peek Tag.BAD],
  .seq Tag.HOIST [.tok Tag.KW_CLASS, .tok Tag.KW_DEFAULT, .opt (.name), .peek Tag.BAD]])

/-- parse_stmt.cc:3590-3597 `type_param_attr_spec`. -/
def type_param_attr_spec : Body :=
  .comb (.alts Tag.SG_TYPE_PARAM_ATTR_SPEC [.tok Tag.KW_KIND, .tok Tag.KW_LEN])

/-- parse_stmt.cc:3600-3609 `type_param_decl`. -/
def type_param_decl : Body :=
  .comb (.seq Tag.SG_TYPE_PARAM_DECL [.name, .opt (.seq Tag.HOIST [.tok Tag.TK_EQUAL,
  .rule .int_expr])])

/-- parse_stmt.cc:3612-3623 `type_param_def_stmt`. -/
def type_param_def_stmt : Body :=
  .comb (.seq Tag.SG_TYPE_PARAM_DEF_STMT [.rule .integer_type_spec, .tok Tag.TK_COMMA,
  .rule .type_param_attr_spec, .tok Tag.TK_DBL_COLON,
  .list Tag.SG_TYPE_PARAM_DECL_LIST (.rule .type_param_decl), .peek Tag.BAD])

/-- parse_stmt.cc:3626-3634 `type_param_spec`. -/
def type_param_spec : Body :=
  .comb (.seq Tag.SG_TYPE_PARAM_SPEC [.opt (.seq Tag.HOIST [.name, .tok Tag.TK_EQUAL]),
  .rule .type_param_value])

/-- parse_stmt.cc:3637-3646 `type_param_value`. -/
def type_param_value : Body :=
  .comb (.alts Tag.SG_TYPE_PARAM_VALUE [.tok Tag.TK_ASTERISK, .tok Tag.TK_COLON, .rule .int_expr])

/-- parse_stmt.cc:3649-3656 `type_spec`. -/
def type_spec : Body :=
  .comb (.alts Tag.SG_TYPE_SPEC [.rule .intrinsic_type_spec, .rule .derived_type_spec])

/-- parse_stmt.cc:3661-3671 `unlock_stmt`. -/
def unlock_stmt : Body :=
  .comb (.seq Tag.SG_UNLOCK_STMT [.tok Tag.KW_UNLOCK, .parens Tag.HOIST [.rule .«variable»,
  .opt (.seq Tag.HOIST [.tok Tag.TK_COMMA, .list Tag.HOIST (.rule .sync_stat)])], .peek Tag.BAD])

/-- parse_stmt.cc:3674-3679 `upper_bound_expr`. -/
def upper_bound_expr : Body :=
  .comb (.tagIf Tag.SG_UPPER_BOUND_EXPR (.rule .expr))

/-- parse_stmt.cc:3682-3702 `use_stmt`. -/
def use_stmt : Body :=
  .comb (.alts Tag.SG_USE_STMT [.seq Tag.HOIST [.tok Tag.KW_USE,
  .opt (.seq Tag.HOIST [.opt (.seq Tag.HOIST [.tok Tag.TK_COMMA, .rule .module_nature]),
  .tok Tag.TK_DBL_COLON]), .name, .opt (.seq Tag.HOIST [.tok Tag.TK_COMMA,
  .list Tag.SG_RENAME_LIST (.rule .rename)]), .peek Tag.BAD], .seq Tag.HOIST [.tok Tag.KW_USE,
  .opt (.seq Tag.HOIST [.opt (.seq Tag.HOIST [.tok Tag.TK_COMMA, .rule .module_nature]),
  .tok Tag.TK_DBL_COLON]), .name, .tok Tag.TK_COMMA, .tok Tag.KW_ONLY, .tok Tag.TK_COLON,
  .opt (.list Tag.SG_ONLY_LIST (.rule .only)), .peek Tag.BAD]])

/-- parse_stmt.cc:3707-3716 `value_stmt`. -/
def value_stmt : Body :=
  .comb (.seq Tag.SG_VALUE_STMT [.tok Tag.KW_VALUE, .opt (.tok Tag.TK_DBL_COLON),
  .list Tag.HOIST (.name), .peek Tag.BAD])

/-- parse_stmt.cc:3719-3728 `variable`. -/
def «variable» : Body :=
  .comb (.alts Tag.SG_VARIABLE [.rule .function_reference, .rule .designator])

/-- parse_stmt.cc:3732-3742 `volatile_stmt`. -/
def volatile_stmt : Body :=
  .comb (.seq Tag.SG_VOLATILE_STMT [.tok Tag.KW_VOLATILE, .opt (.tok Tag.TK_DBL_COLON),
  .list Tag.SG_OBJECT_NAME_LIST (.name), .peek Tag.BAD])

/-- parse_stmt.cc:3747-3762 `wait_spec`. -/
def wait_spec : Body :=
  .comb (.alts Tag.SG_WAIT_SPEC [.seq Tag.HOIST [.tok Tag.KW_UNIT, .tok Tag.TK_EQUAL,
  .rule .expr], .seq Tag.HOIST [.tok Tag.KW_END, .tok Tag.TK_EQUAL, .rule .label],
  .seq Tag.HOIST [.tok Tag.KW_EOR, .tok Tag.TK_EQUAL, .rule .label],
  .seq Tag.HOIST [.tok Tag.KW_ERR, .tok Tag.TK_EQUAL, .rule .label],
  .seq Tag.HOIST [.tok Tag.KW_ID, .tok Tag.TK_EQUAL, .rule .expr],
  .seq Tag.HOIST [.tok Tag.KW_IOMSG, .tok Tag.TK_EQUAL, .rule .«variable»],
  .seq Tag.HOIST [.tok Tag.KW_IOSTAT, .tok Tag.TK_EQUAL, .rule .«variable»], .rule .expr])

/-- parse_stmt.cc:3765-3773 `wait_stmt`. -/
def wait_stmt : Body :=
  .comb (.seq Tag.SG_WAIT_STMT [.tok Tag.KW_WAIT,
  .parens Tag.HOIST [.list Tag.HOIST (.rule .wait_spec)], .peek Tag.BAD])

/-- parse_stmt.cc:3776-3785 `where_construct_stmt`. -/
def where_construct_stmt : Body :=
  .comb (.seq Tag.SG_WHERE_CONSTRUCT_STMT [.opt (.seq Tag.HOIST [.name, .tok Tag.TK_COLON]),
  .tok Tag.KW_WHERE, .parens Tag.HOIST [.rule .logical_expr], .peek Tag.BAD])

/-- parse_stmt.cc:3788-3797 `where_stmt`. -/
def where_stmt : Body :=
  .comb (.seq Tag.SG_WHERE_STMT [.tok Tag.KW_WHERE, .parens Tag.HOIST [.rule .logical_expr],
  .rule .assignment_stmt, .peek Tag.BAD])

/-- parse_stmt.cc:3800-3812 `write_stmt`. -/
def write_stmt : Body :=
  .comb (.seq Tag.SG_WRITE_STMT [.tok Tag.KW_WRITE,
  .tagIf Tag.SG_IO_CONTROL_SPEC_LIST (.rule .consume_parens),
  .opt (.list Tag.SG_OUTPUT_ITEM_LIST (.rule .output_item)), .peek Tag.BAD])

end G

/-- The body of each rule function. -/
def R.body : R → Body
  | .consume_parens => G.consume_parens
  | .list_name => G.list_name
  | .bind_c => G.bind_c
  | .access_id => G.access_id
  | .access_spec => G.access_spec
  | .access_stmt => G.access_stmt
  | .action_stmt => G.action_stmt
  | .actual_arg => G.actual_arg
  | .actual_arg_spec => G.actual_arg_spec
  | .add_op => G.add_op
  | .alloc_opt => G.alloc_opt
  | .allocatable_stmt => G.allocatable_stmt
  | .allocatable_decl => G.allocatable_decl
  | .allocate_coarray_spec => G.allocate_coarray_spec
  | .allocate_coshape_spec => G.allocate_coshape_spec
  | .allocate_object => G.allocate_object
  | .allocate_shape_spec => G.allocate_shape_spec
  | .allocate_stmt => G.allocate_stmt
  | .allocation => G.allocation
  | .arithmetic_if_stmt => G.arithmetic_if_stmt
  | .array_element => G.array_element
  | .array_spec => G.array_spec
  | .assignment_stmt => G.assignment_stmt
  | .associate_stmt => G.associate_stmt
  | .association => G.association
  | .assumed_implied_spec => G.assumed_implied_spec
  | .assumed_shape_spec => G.assumed_shape_spec
  | .assumed_size_spec => G.assumed_size_spec
  | .asynchronous_stmt => G.asynchronous_stmt
  | .attr_spec => G.attr_spec
  | .backspace_stmt => G.backspace_stmt
  | .bind_entity => G.bind_entity
  | .bind_stmt => G.bind_stmt
  | .binding_attr => G.binding_attr
  | .binding_private_stmt => G.binding_private_stmt
  | .block_stmt => G.block_stmt
  | .bounds_remapping => G.bounds_remapping
  | .bounds_spec => G.bounds_spec
  | .call_stmt => G.call_stmt
  | .case_selector => G.case_selector
  | .case_stmt => G.case_stmt
  | .case_value_range => G.case_value_range
  | .char_length => G.char_length
  | .char_selector => G.char_selector
  | .close_stmt => G.close_stmt
  | .coarray_spec => G.coarray_spec
  | .codimension_decl => G.codimension_decl
  | .codimension_stmt => G.codimension_stmt
  | .coindexed_named_object => G.coindexed_named_object
  | .common_block_object => G.common_block_object
  | .common_stmt => G.common_stmt
  | .component_array_spec => G.component_array_spec
  | .component_attr_spec => G.component_attr_spec
  | .component_data_source => G.component_data_source
  | .component_decl => G.component_decl
  | .component_def_stmt => G.component_def_stmt
  | .component_initialization => G.component_initialization
  | .component_spec => G.component_spec
  | .computed_goto_stmt => G.computed_goto_stmt
  | .concurrent_control => G.concurrent_control
  | .concurrent_header => G.concurrent_header
  | .concurrent_locality => G.concurrent_locality
  | .contains_stmt => G.contains_stmt
  | .continue_stmt => G.continue_stmt
  | .cosubscript => G.cosubscript
  | .cycle_stmt => G.cycle_stmt
  | .data_component_def_stmt => G.data_component_def_stmt
  | .data_implied_do => G.data_implied_do
  | .data_pointer_object => G.data_pointer_object
  | .data_ref => G.data_ref
  | .data_stmt => G.data_stmt
  | .data_stmt_constant => G.data_stmt_constant
  | .data_stmt_object => G.data_stmt_object
  | .data_stmt_repeat => G.data_stmt_repeat
  | .data_stmt_set => G.data_stmt_set
  | .data_stmt_value => G.data_stmt_value
  | .dealloc_opt => G.dealloc_opt
  | .deallocate_stmt => G.deallocate_stmt
  | .declaration_type_spec => G.declaration_type_spec
  | .declaration_type_spec_no_kind => G.declaration_type_spec_no_kind
  | .default_char_expr => G.default_char_expr
  | .deferred_shape_spec => G.deferred_shape_spec
  | .defined_io_generic_spec => G.defined_io_generic_spec
  | .defined_operator => G.defined_operator
  | .derived_type_spec => G.derived_type_spec
  | .derived_type_stmt => G.derived_type_stmt
  | .designator => G.designator
  | .dimension_stmt => G.dimension_stmt
  | .do_stmt => G.do_stmt
  | .dummy_arg => G.dummy_arg
  | .else_stmt => G.else_stmt
  | .else_if_stmt => G.else_if_stmt
  | .elsewhere_stmt => G.elsewhere_stmt
  | .end_associate_stmt => G.end_associate_stmt
  | .end_block_stmt => G.end_block_stmt
  | .end_do => G.end_do
  | .end_do_stmt => G.end_do_stmt
  | .end_enum_stmt => G.end_enum_stmt
  | .end_forall_stmt => G.end_forall_stmt
  | .end_function_stmt => G.end_function_stmt
  | .end_if_stmt => G.end_if_stmt
  | .end_interface_stmt => G.end_interface_stmt
  | .end_module_stmt => G.end_module_stmt
  | .end_mp_subprogram_stmt => G.end_mp_subprogram_stmt
  | .end_program_stmt => G.end_program_stmt
  | .end_select_stmt => G.end_select_stmt
  | .end_select_rank_stmt => G.end_select_rank_stmt
  | .end_select_type_stmt => G.end_select_type_stmt
  | .end_submodule_stmt => G.end_submodule_stmt
  | .end_subroutine_stmt => G.end_subroutine_stmt
  | .end_type_stmt => G.end_type_stmt
  | .end_where_stmt => G.end_where_stmt
  | .endfile_stmt => G.endfile_stmt
  | .entity_decl => G.entity_decl
  | .entry_stmt => G.entry_stmt
  | .enumerator => G.enumerator
  | .enumerator_def_stmt => G.enumerator_def_stmt
  | .enum_def_stmt => G.enum_def_stmt
  | .equiv_op => G.equiv_op
  | .equivalence_object => G.equivalence_object
  | .equivalence_set => G.equivalence_set
  | .equivalence_stmt => G.equivalence_stmt
  | .error_stop_stmt => G.error_stop_stmt
  | .event_post_stmt => G.event_post_stmt
  | .event_wait_stmt => G.event_wait_stmt
  | .explicit_coshape_spec => G.explicit_coshape_spec
  | .explicit_shape_spec => G.explicit_shape_spec
  | .exit_stmt => G.exit_stmt
  | .expr => G.expr
  | .extended_intrinsic_op => G.extended_intrinsic_op
  | .external_stmt => G.external_stmt
  | .fail_image_stmt => G.fail_image_stmt
  | .form_team_stmt => G.form_team_stmt
  | .final_procedure_stmt => G.final_procedure_stmt
  | .flush_stmt => G.flush_stmt
  | .forall_assignment_stmt => G.forall_assignment_stmt
  | .forall_construct_stmt => G.forall_construct_stmt
  | .forall_stmt => G.forall_stmt
  | .format => G.format
  | .format_specification => G.format_specification
  | .format_stmt => G.format_stmt
  | .function_reference => G.function_reference
  | .function_stmt => G.function_stmt
  | .generic_spec => G.generic_spec
  | .generic_stmt => G.generic_stmt
  | .goto_stmt => G.goto_stmt
  | .if_stmt => G.if_stmt
  | .if_then_stmt => G.if_then_stmt
  | .image_selector => G.image_selector
  | .image_selector_spec => G.image_selector_spec
  | .implicit_none_spec => G.implicit_none_spec
  | .implicit_spec => G.implicit_spec
  | .implicit_stmt => G.implicit_stmt
  | .implied_shape_or_assumed_size_spec => G.implied_shape_or_assumed_size_spec
  | .implied_shape_spec => G.implied_shape_spec
  | .import_stmt => G.import_stmt
  | .initialization => G.initialization
  | .input_item => G.input_item
  | .inquire_stmt => G.inquire_stmt
  | .int_constant_expr => G.int_constant_expr
  | .int_expr => G.int_expr
  | .integer_type_spec => G.integer_type_spec
  | .intent_spec => G.intent_spec
  | .intent_stmt => G.intent_stmt
  | .interface_stmt => G.interface_stmt
  | .intrinsic_operator => G.intrinsic_operator
  | .intrinsic_stmt => G.intrinsic_stmt
  | .intrinsic_type_spec => G.intrinsic_type_spec
  | .intrinsic_type_spec_no_kind => G.intrinsic_type_spec_no_kind
  | .io_implied_do => G.io_implied_do
  | .io_implied_do_control => G.io_implied_do_control
  | .io_implied_do_object => G.io_implied_do_object
  | .kind_selector => G.kind_selector
  | .label => G.label
  | .label_do_stmt => G.label_do_stmt
  | .language_binding_spec => G.language_binding_spec
  | .length_selector => G.length_selector
  | .letter_spec => G.letter_spec
  | .locality_spec => G.locality_spec
  | .lock_stmt => G.lock_stmt
  | .logical_expr => G.logical_expr
  | .logical_literal_constant => G.logical_literal_constant
  | .loop_control => G.loop_control
  | .lower_bound_expr => G.lower_bound_expr
  | .macro_stmt => G.macro_stmt
  | .masked_elsewhere_stmt => G.masked_elsewhere_stmt
  | .module_nature => G.module_nature
  | .module_stmt => G.module_stmt
  | .mp_subprogram_stmt => G.mp_subprogram_stmt
  | .mult_op => G.mult_op
  | .named_constant_def => G.named_constant_def
  | .namelist_stmt => G.namelist_stmt
  | .nonlabel_do_stmt => G.nonlabel_do_stmt
  | .nullify_stmt => G.nullify_stmt
  | .only => G.only
  | .open_stmt => G.open_stmt
  | .optional_stmt => G.optional_stmt
  | .other_specification_stmt => G.other_specification_stmt
  | .output_item => G.output_item
  | .parameter_stmt => G.parameter_stmt
  | .parent_string => G.parent_string
  | .part_ref => G.part_ref
  | .pointer_assignment_stmt => G.pointer_assignment_stmt
  | .pointer_decl => G.pointer_decl
  | .pointer_object => G.pointer_object
  | .pointer_stmt => G.pointer_stmt
  | .«prefix» => G.«prefix»
  | .prefix_spec => G.prefix_spec
  | .print_stmt => G.print_stmt
  | .private_components_stmt => G.private_components_stmt
  | .private_or_sequence => G.private_or_sequence
  | .proc_attr_spec => G.proc_attr_spec
  | .proc_component_attr_spec => G.proc_component_attr_spec
  | .proc_component_def_stmt => G.proc_component_def_stmt
  | .proc_component_ref => G.proc_component_ref
  | .proc_decl => G.proc_decl
  | .proc_interface => G.proc_interface
  | .proc_language_binding_spec => G.proc_language_binding_spec
  | .proc_pointer_init => G.proc_pointer_init
  | .proc_pointer_object => G.proc_pointer_object
  | .proc_target => G.proc_target
  | .procedure_declaration_stmt => G.procedure_declaration_stmt
  | .procedure_designator => G.procedure_designator
  | .procedure_stmt => G.procedure_stmt
  | .program_stmt => G.program_stmt
  | .protected_stmt => G.protected_stmt
  | .read_stmt => G.read_stmt
  | .real_literal_constant => G.real_literal_constant
  | .rel_op => G.rel_op
  | .rename => G.rename
  | .return_stmt => G.return_stmt
  | .rewind_stmt => G.rewind_stmt
  | .save_stmt => G.save_stmt
  | .saved_entity => G.saved_entity
  | .section_subscript => G.section_subscript
  | .select_case_stmt => G.select_case_stmt
  | .select_rank_stmt => G.select_rank_stmt
  | .select_rank_case_stmt => G.select_rank_case_stmt
  | .select_type_stmt => G.select_type_stmt
  | .selector => G.selector
  | .sequence_stmt => G.sequence_stmt
  | .sign => G.sign
  | .signed_real_literal_constant => G.signed_real_literal_constant
  | .stop_stmt => G.stop_stmt
  | .structure_component => G.structure_component
  | .structure_constructor => G.structure_constructor
  | .submodule_stmt => G.submodule_stmt
  | .subroutine_stmt => G.subroutine_stmt
  | .substring => G.substring
  | .substring_range => G.substring_range
  | .suffix => G.suffix
  | .sync_all_stmt => G.sync_all_stmt
  | .sync_images_stmt => G.sync_images_stmt
  | .sync_memory_stmt => G.sync_memory_stmt
  | .sync_stat => G.sync_stat
  | .sync_team_stmt => G.sync_team_stmt
  | .target_decl => G.target_decl
  | .target_stmt => G.target_stmt
  | .type_attr_spec => G.type_attr_spec
  | .type_bound_generic_stmt => G.type_bound_generic_stmt
  | .type_bound_proc_binding => G.type_bound_proc_binding
  | .type_bound_proc_decl => G.type_bound_proc_decl
  | .type_bound_procedure_stmt => G.type_bound_procedure_stmt
  | .type_decl_attr_seq1 => G.type_decl_attr_seq1
  | .type_decl_attr_seq2 => G.type_decl_attr_seq2
  | .type_declaration_stmt => G.type_declaration_stmt
  | .type_guard_stmt => G.type_guard_stmt
  | .type_param_attr_spec => G.type_param_attr_spec
  | .type_param_decl => G.type_param_decl
  | .type_param_def_stmt => G.type_param_def_stmt
  | .type_param_spec => G.type_param_spec
  | .type_param_value => G.type_param_value
  | .type_spec => G.type_spec
  | .unlock_stmt => G.unlock_stmt
  | .upper_bound_expr => G.upper_bound_expr
  | .use_stmt => G.use_stmt
  | .value_stmt => G.value_stmt
  | .«variable» => G.«variable»
  | .volatile_stmt => G.volatile_stmt
  | .wait_spec => G.wait_spec
  | .wait_stmt => G.wait_stmt
  | .where_construct_stmt => G.where_construct_stmt
  | .where_stmt => G.where_stmt
  | .write_stmt => G.write_stmt

/-- parse_stmt.cc:3820-4214 `parse_stmt_dispatch`: the cases of the switch. -/
def dispatchTable : List (Int × R) :=
  [(Tag.SG_ACCESS_STMT, .access_stmt), (Tag.SG_ACTION_STMT, .action_stmt),
   (Tag.SG_ALLOCATABLE_STMT, .allocatable_stmt), (Tag.SG_ALLOCATE_STMT, .allocate_stmt),
   (Tag.SG_ASSIGNMENT_STMT, .assignment_stmt), (Tag.SG_ASSOCIATE_STMT, .associate_stmt),
   (Tag.SG_ASYNCHRONOUS_STMT, .asynchronous_stmt), (Tag.SG_ARITHMETIC_IF_STMT,
   .arithmetic_if_stmt), (Tag.SG_BACKSPACE_STMT, .backspace_stmt), (Tag.SG_BIND_STMT,
   .bind_stmt), (Tag.SG_BINDING_PRIVATE_STMT, .binding_private_stmt), (Tag.SG_BLOCK_STMT,
   .block_stmt), (Tag.SG_CALL_STMT, .call_stmt), (Tag.SG_CASE_STMT, .case_stmt),
   (Tag.SG_CLOSE_STMT, .close_stmt), (Tag.SG_CODIMENSION_STMT, .codimension_stmt),
   (Tag.SG_COMMON_STMT, .common_stmt), (Tag.SG_COMPONENT_DEF_STMT, .component_def_stmt),
   (Tag.SG_COMPUTED_GOTO_STMT, .computed_goto_stmt), (Tag.SG_CONTAINS_STMT, .contains_stmt),
   (Tag.SG_CONTINUE_STMT, .continue_stmt), (Tag.SG_CYCLE_STMT, .cycle_stmt),
   (Tag.SG_DATA_COMPONENT_DEF_STMT, .data_component_def_stmt), (Tag.SG_DATA_STMT, .data_stmt),
   (Tag.SG_DEALLOCATE_STMT, .deallocate_stmt), (Tag.SG_DERIVED_TYPE_STMT, .derived_type_stmt),
   (Tag.SG_DIMENSION_STMT, .dimension_stmt), (Tag.SG_DO_STMT, .do_stmt), (Tag.SG_ELSE_IF_STMT,
   .else_if_stmt), (Tag.SG_ELSE_STMT, .else_stmt), (Tag.SG_ELSEWHERE_STMT, .elsewhere_stmt),
   (Tag.SG_END_ASSOCIATE_STMT, .end_associate_stmt), (Tag.SG_END_BLOCK_STMT, .end_block_stmt),
   (Tag.SG_END_DO_STMT, .end_do_stmt), (Tag.SG_END_ENUM_STMT, .end_enum_stmt),
   (Tag.SG_END_FORALL_STMT, .end_forall_stmt), (Tag.SG_END_FUNCTION_STMT, .end_function_stmt),
   (Tag.SG_END_IF_STMT, .end_if_stmt), (Tag.SG_END_INTERFACE_STMT, .end_interface_stmt),
   (Tag.SG_END_MODULE_STMT, .end_module_stmt), (Tag.SG_END_MP_SUBPROGRAM_STMT,
   .end_mp_subprogram_stmt), (Tag.SG_END_PROGRAM_STMT, .end_program_stmt),
   (Tag.SG_END_SELECT_STMT, .end_select_stmt), (Tag.SG_END_SELECT_RANK_STMT,
   .end_select_rank_stmt), (Tag.SG_END_SELECT_TYPE_STMT, .end_select_type_stmt),
   (Tag.SG_END_SUBMODULE_STMT, .end_submodule_stmt), (Tag.SG_END_SUBROUTINE_STMT,
   .end_subroutine_stmt), (Tag.SG_END_TYPE_STMT, .end_type_stmt), (Tag.SG_END_WHERE_STMT,
   .end_where_stmt), (Tag.SG_ENDFILE_STMT, .endfile_stmt), (Tag.SG_ENUM_DEF_STMT,
   .enum_def_stmt), (Tag.SG_ENUMERATOR_DEF_STMT, .enumerator_def_stmt), (Tag.SG_EQUIVALENCE_STMT,
   .equivalence_stmt), (Tag.SG_ENTRY_STMT, .entry_stmt), (Tag.SG_ERROR_STOP_STMT,
   .error_stop_stmt), (Tag.SG_EVENT_POST_STMT, .event_post_stmt), (Tag.SG_EVENT_WAIT_STMT,
   .event_wait_stmt), (Tag.SG_EXIT_STMT, .exit_stmt), (Tag.SG_EXTERNAL_STMT, .external_stmt),
   (Tag.SG_FAIL_IMAGE_STMT, .fail_image_stmt), (Tag.SG_FLUSH_STMT, .flush_stmt),
   (Tag.SG_FORALL_ASSIGNMENT_STMT, .forall_assignment_stmt), (Tag.SG_FORALL_CONSTRUCT_STMT,
   .forall_construct_stmt), (Tag.SG_FORALL_STMT, .forall_stmt), (Tag.SG_FORM_TEAM_STMT,
   .form_team_stmt), (Tag.SG_FORMAT_STMT, .format_stmt), (Tag.SG_FINAL_PROCEDURE_STMT,
   .final_procedure_stmt), (Tag.SG_FUNCTION_STMT, .function_stmt), (Tag.SG_GENERIC_STMT,
   .generic_stmt), (Tag.SG_GOTO_STMT, .goto_stmt), (Tag.SG_IF_STMT, .if_stmt),
   (Tag.SG_IF_THEN_STMT, .if_then_stmt), (Tag.SG_IMPLICIT_STMT, .implicit_stmt),
   (Tag.SG_IMPORT_STMT, .import_stmt), (Tag.SG_INQUIRE_STMT, .inquire_stmt), (Tag.SG_INTENT_STMT,
   .intent_stmt), (Tag.SG_INTERFACE_STMT, .interface_stmt), (Tag.SG_INTRINSIC_STMT,
   .intrinsic_stmt), (Tag.SG_LABEL_DO_STMT, .label_do_stmt), (Tag.SG_LOCK_STMT, .lock_stmt),
   (Tag.SG_LOOP_CONTROL, .loop_control), (Tag.SG_MASKED_ELSEWHERE_STMT, .masked_elsewhere_stmt),
   (Tag.SG_MACRO_STMT, .macro_stmt), (Tag.SG_MODULE_STMT, .module_stmt),
   (Tag.SG_MP_SUBPROGRAM_STMT, .mp_subprogram_stmt), (Tag.SG_NAMELIST_STMT, .namelist_stmt),
   (Tag.SG_NONLABEL_DO_STMT, .nonlabel_do_stmt), (Tag.SG_NULLIFY_STMT, .nullify_stmt),
   (Tag.SG_OPEN_STMT, .open_stmt), (Tag.SG_OPTIONAL_STMT, .optional_stmt),
   (Tag.SG_OTHER_SPECIFICATION_STMT, .other_specification_stmt), (Tag.SG_PARAMETER_STMT,
   .parameter_stmt), (Tag.SG_POINTER_ASSIGNMENT_STMT, .pointer_assignment_stmt),
   (Tag.SG_POINTER_STMT, .pointer_stmt), (Tag.SG_PRINT_STMT, .print_stmt),
   (Tag.SG_PRIVATE_COMPONENTS_STMT, .private_components_stmt), (Tag.SG_PROC_COMPONENT_DEF_STMT,
   .proc_component_def_stmt), (Tag.SG_PROCEDURE_DECLARATION_STMT, .procedure_declaration_stmt),
   (Tag.SG_PROCEDURE_STMT, .procedure_stmt), (Tag.SG_PROGRAM_STMT, .program_stmt),
   (Tag.SG_PROTECTED_STMT, .protected_stmt), (Tag.SG_READ_STMT, .read_stmt), (Tag.SG_RETURN_STMT,
   .return_stmt), (Tag.SG_REWIND_STMT, .rewind_stmt), (Tag.SG_SAVE_STMT, .save_stmt),
   (Tag.SG_SELECT_CASE_STMT, .select_case_stmt), (Tag.SG_SELECT_RANK_CASE_STMT,
   .select_rank_case_stmt), (Tag.SG_SELECT_RANK_STMT, .select_rank_stmt),
   (Tag.SG_SELECT_TYPE_STMT, .select_type_stmt), (Tag.SG_SEQUENCE_STMT, .sequence_stmt),
   (Tag.SG_STOP_STMT, .stop_stmt), (Tag.SG_SUBMODULE_STMT, .submodule_stmt),
   (Tag.SG_SUBROUTINE_STMT, .subroutine_stmt), (Tag.SG_SYNC_ALL_STMT, .sync_all_stmt),
   (Tag.SG_SYNC_IMAGES_STMT, .sync_images_stmt), (Tag.SG_SYNC_MEMORY_STMT, .sync_memory_stmt),
   (Tag.SG_SYNC_TEAM_STMT, .sync_team_stmt), (Tag.SG_TARGET_STMT, .target_stmt),
   (Tag.SG_TYPE_BOUND_GENERIC_STMT, .type_bound_generic_stmt), (Tag.SG_TYPE_BOUND_PROCEDURE_STMT,
   .type_bound_procedure_stmt), (Tag.SG_TYPE_DECLARATION_STMT, .type_declaration_stmt),
   (Tag.SG_TYPE_GUARD_STMT, .type_guard_stmt), (Tag.SG_TYPE_PARAM_DEF_STMT,
   .type_param_def_stmt), (Tag.SG_UNLOCK_STMT, .unlock_stmt), (Tag.SG_USE_STMT, .use_stmt),
   (Tag.SG_VALUE_STMT, .value_stmt), (Tag.SG_VOLATILE_STMT, .volatile_stmt), (Tag.SG_WAIT_STMT,
   .wait_stmt), (Tag.SG_WHERE_CONSTRUCT_STMT, .where_construct_stmt), (Tag.SG_WHERE_STMT,
   .where_stmt), (Tag.SG_WRITE_STMT, .write_stmt)]

/-- parse_stmt.cc:4224-4273 `is_action_stmt`: the cases that give `true`. -/
def actionTags : List Int :=
  [Tag.SG_ALLOCATE_STMT, Tag.SG_ASSIGNMENT_STMT, Tag.SG_BACKSPACE_STMT, Tag.SG_CALL_STMT,
   Tag.SG_CLOSE_STMT, Tag.SG_CONTINUE_STMT, Tag.SG_CYCLE_STMT, Tag.SG_DEALLOCATE_STMT,
   Tag.SG_ENDFILE_STMT, Tag.SG_ERROR_STOP_STMT, Tag.SG_EVENT_POST_STMT, Tag.SG_EVENT_WAIT_STMT,
   Tag.SG_EXIT_STMT, Tag.SG_FAIL_IMAGE_STMT, Tag.SG_FLUSH_STMT, Tag.SG_FORM_TEAM_STMT,
   Tag.SG_GOTO_STMT, Tag.SG_IF_STMT, Tag.SG_INQUIRE_STMT, Tag.SG_LOCK_STMT, Tag.SG_NULLIFY_STMT,
   Tag.SG_OPEN_STMT, Tag.SG_POINTER_ASSIGNMENT_STMT, Tag.SG_PRINT_STMT, Tag.SG_READ_STMT,
   Tag.SG_RETURN_STMT, Tag.SG_REWIND_STMT, Tag.SG_STOP_STMT, Tag.SG_SYNC_ALL_STMT,
   Tag.SG_SYNC_IMAGES_STMT, Tag.SG_SYNC_MEMORY_STMT, Tag.SG_SYNC_TEAM_STMT, Tag.SG_UNLOCK_STMT,
   Tag.SG_WAIT_STMT, Tag.SG_WHERE_STMT, Tag.SG_WRITE_STMT, Tag.SG_COMPUTED_GOTO_STMT,
   Tag.SG_ARITHMETIC_IF_STMT, Tag.SG_FORALL_STMT, Tag.SG_MACRO_STMT]

end SP
end FLPR
