/-!
# The syntax tags (src/flpr/Syntax_Tags_Defs.hh:55-664)

One constant per entry of the `MAP` macro, in order, then the tables of labels and types.  Written
from the header by a script; the numbers are the positions in the list.
-/

namespace FLPR
namespace Tag

abbrev EOL : Int := 0
abbrev UNKNOWN : Int := 1
abbrev BAD : Int := 2
abbrev HOIST : Int := 3
abbrev KW_000_LB : Int := 4
abbrev KW_ABSTRACT : Int := 5
abbrev KW_ACQUIRED_LOCK : Int := 6
abbrev KW_ALL : Int := 7
abbrev KW_ALLOCATABLE : Int := 8
abbrev KW_ALLOCATE : Int := 9
abbrev KW_ASSIGNMENT : Int := 10
abbrev KW_ASSOCIATE : Int := 11
abbrev KW_ASYNCHRONOUS : Int := 12
abbrev KW_BACKSPACE : Int := 13
abbrev KW_BIND : Int := 14
abbrev KW_BLOCK : Int := 15
abbrev KW_CALL : Int := 16
abbrev KW_CASE : Int := 17
abbrev KW_CHARACTER : Int := 18
abbrev KW_CLASS : Int := 19
abbrev KW_CLOSE : Int := 20
abbrev KW_CODIMENSION : Int := 21
abbrev KW_COMMON : Int := 22
abbrev KW_COMPLEX : Int := 23
abbrev KW_CONCURRENT : Int := 24
abbrev KW_CONTAINS : Int := 25
abbrev KW_CONTIGUOUS : Int := 26
abbrev KW_CONTINUE : Int := 27
abbrev KW_CRITICAL : Int := 28
abbrev KW_CYCLE : Int := 29
abbrev KW_DATA : Int := 30
abbrev KW_DEALLOCATE : Int := 31
abbrev KW_DEFAULT : Int := 32
abbrev KW_DEFERRED : Int := 33
abbrev KW_DIMENSION : Int := 34
abbrev KW_DO : Int := 35
abbrev KW_DOUBLE : Int := 36
abbrev KW_DOUBLEPRECISION : Int := 37
abbrev KW_DOWHILE : Int := 38
abbrev KW_ELEMENTAL : Int := 39
abbrev KW_ELSE : Int := 40
abbrev KW_END : Int := 41
abbrev KW_ENTRY : Int := 42
abbrev KW_ENUM : Int := 43
abbrev KW_ENUMERATOR : Int := 44
abbrev KW_EOR : Int := 45
abbrev KW_EQUIVALENCE : Int := 46
abbrev KW_ERR : Int := 47
abbrev KW_ERRMSG : Int := 48
abbrev KW_ERROR : Int := 49
abbrev KW_EVENT : Int := 50
abbrev KW_EXIT : Int := 51
abbrev KW_EXTENDS : Int := 52
abbrev KW_EXTERNAL : Int := 53
abbrev KW_FAIL : Int := 54
abbrev KW_FILE : Int := 55
abbrev KW_FINAL : Int := 56
abbrev KW_FLUSH : Int := 57
abbrev KW_FORALL : Int := 58
abbrev KW_FORM : Int := 59
abbrev KW_FORMAT : Int := 60
abbrev KW_FORMATTED : Int := 61
abbrev KW_FUNCTION : Int := 62
abbrev KW_GENERIC : Int := 63
abbrev KW_GO : Int := 64
abbrev KW_ID : Int := 65
abbrev KW_IF : Int := 66
abbrev KW_IMAGE : Int := 67
abbrev KW_IMAGES : Int := 68
abbrev KW_IMPLICIT : Int := 69
abbrev KW_IMPORT : Int := 70
abbrev KW_IMPURE : Int := 71
abbrev KW_IN : Int := 72
abbrev KW_INCLUDE : Int := 73
abbrev KW_INOUT : Int := 74
abbrev KW_INQUIRE : Int := 75
abbrev KW_INTEGER : Int := 76
abbrev KW_INTENT : Int := 77
abbrev KW_INTERFACE : Int := 78
abbrev KW_INTRINSIC : Int := 79
abbrev KW_IOMSG : Int := 80
abbrev KW_IOSTAT : Int := 81
abbrev KW_IS : Int := 82
abbrev KW_KIND : Int := 83
abbrev KW_LEN : Int := 84
abbrev KW_LOCAL : Int := 85
abbrev KW_LOCAL_INIT : Int := 86
abbrev KW_LOCK : Int := 87
abbrev KW_LOGICAL : Int := 88
abbrev KW_MEMORY : Int := 89
abbrev KW_MODULE : Int := 90
abbrev KW_MOLD : Int := 91
abbrev KW_NAME : Int := 92
abbrev KW_NAMELIST : Int := 93
abbrev KW_NEW_INDEX : Int := 94
abbrev KW_NONE : Int := 95
abbrev KW_NON_INTRINSIC : Int := 96
abbrev KW_NON_OVERRIDABLE : Int := 97
abbrev KW_NON_RECURSIVE : Int := 98
abbrev KW_NOPASS : Int := 99
abbrev KW_NULLIFY : Int := 100
abbrev KW_ONLY : Int := 101
abbrev KW_OPEN : Int := 102
abbrev KW_OPERATOR : Int := 103
abbrev KW_OPTIONAL : Int := 104
abbrev KW_OUT : Int := 105
abbrev KW_PARAMETER : Int := 106
abbrev KW_PASS : Int := 107
abbrev KW_POINTER : Int := 108
abbrev KW_POST : Int := 109
abbrev KW_PRECISION : Int := 110
abbrev KW_PRINT : Int := 111
abbrev KW_PRIVATE : Int := 112
abbrev KW_PROCEDURE : Int := 113
abbrev KW_PROGRAM : Int := 114
abbrev KW_PROTECTED : Int := 115
abbrev KW_PUBLIC : Int := 116
abbrev KW_PURE : Int := 117
abbrev KW_QUIET : Int := 118
abbrev KW_RANK : Int := 119
abbrev KW_READ : Int := 120
abbrev KW_REAL : Int := 121
abbrev KW_RECURSIVE : Int := 122
abbrev KW_RESULT : Int := 123
abbrev KW_RETURN : Int := 124
abbrev KW_REWIND : Int := 125
abbrev KW_SAVE : Int := 126
abbrev KW_SELECT : Int := 127
abbrev KW_SEQUENCE : Int := 128
abbrev KW_SHARED : Int := 129
abbrev KW_SOURCE : Int := 130
abbrev KW_STAT : Int := 131
abbrev KW_STOP : Int := 132
abbrev KW_SUBMODULE : Int := 133
abbrev KW_SUBROUTINE : Int := 134
abbrev KW_SYNC : Int := 135
abbrev KW_TARGET : Int := 136
abbrev KW_TEAM : Int := 137
abbrev KW_TEAM_NUMBER : Int := 138
abbrev KW_THEN : Int := 139
abbrev KW_TO : Int := 140
abbrev KW_TYPE : Int := 141
abbrev KW_UNFORMATTED : Int := 142
abbrev KW_UNIT : Int := 143
abbrev KW_UNLOCK : Int := 144
abbrev KW_UNTIL_COUNT : Int := 145
abbrev KW_USE : Int := 146
abbrev KW_VALUE : Int := 147
abbrev KW_VOLATILE : Int := 148
abbrev KW_WAIT : Int := 149
abbrev KW_WHERE : Int := 150
abbrev KW_WHILE : Int := 151
abbrev KW_WRITE : Int := 152
abbrev KW_ZZZ_UB : Int := 153
abbrev PG_000_LB : Int := 154
abbrev PG_ACTION_TERM_DO_CONSTRUCT : Int := 155
abbrev PG_ASSOCIATE_CONSTRUCT : Int := 156
abbrev PG_BLOCK : Int := 157
abbrev PG_BLOCK_CONSTRUCT : Int := 158
abbrev PG_BLOCK_SPECIFICATION_PART : Int := 159
abbrev PG_CASE_CONSTRUCT : Int := 160
abbrev PG_COMPONENT_PART : Int := 161
abbrev PG_DECLARATION_CONSTRUCT : Int := 162
abbrev PG_DERIVED_TYPE_DEF : Int := 163
abbrev PG_DO_BLOCK : Int := 164
abbrev PG_DO_BODY : Int := 165
abbrev PG_DO_CONSTRUCT : Int := 166
abbrev PG_DO_TERM_ACTION_STMT : Int := 167
abbrev PG_DO_TERM_SHARED_STMT : Int := 168
abbrev PG_ENUM_DEF : Int := 169
abbrev PG_EXECUTABLE_CONSTRUCT : Int := 170
abbrev PG_EXECUTION_PART : Int := 171
abbrev PG_EXECUTION_PART_CONSTRUCT : Int := 172
abbrev PG_EXTERNAL_SUBPROGRAM : Int := 173
abbrev PG_FORALL_BODY_CONSTRUCT : Int := 174
abbrev PG_FORALL_CONSTRUCT : Int := 175
abbrev PG_FUNCTION_SUBPROGRAM : Int := 176
abbrev PG_IF_CONSTRUCT : Int := 177
abbrev PG_IMPLICIT_PART : Int := 178
abbrev PG_IMPLICIT_PART_STMT : Int := 179
abbrev PG_INNER_SHARED_DO_CONSTRUCT : Int := 180
abbrev PG_INTERFACE_BLOCK : Int := 181
abbrev PG_INTERFACE_BODY : Int := 182
abbrev PG_INTERFACE_SPECIFICATION : Int := 183
abbrev PG_INTERNAL_SUBPROGRAM : Int := 184
abbrev PG_INTERNAL_SUBPROGRAM_PART : Int := 185
abbrev PG_MAIN_PROGRAM : Int := 186
abbrev PG_MODULE : Int := 187
abbrev PG_MODULE_SUBPROGRAM : Int := 188
abbrev PG_MODULE_SUBPROGRAM_PART : Int := 189
abbrev PG_NONBLOCK_DO_CONSTRUCT : Int := 190
abbrev PG_OUTER_SHARED_DO_CONSTRUCT : Int := 191
abbrev PG_PROGRAM : Int := 192
abbrev PG_PROGRAM_UNIT : Int := 193
abbrev PG_SELECT_RANK_CONSTRUCT : Int := 194
abbrev PG_SELECT_TYPE_CONSTRUCT : Int := 195
abbrev PG_SEPARATE_MODULE_SUBPROGRAM : Int := 196
abbrev PG_SPECIFICATION_CONSTRUCT : Int := 197
abbrev PG_SPECIFICATION_PART : Int := 198
abbrev PG_SUBMODULE : Int := 199
abbrev PG_SUBROUTINE_SUBPROGRAM : Int := 200
abbrev PG_TYPE_BOUND_PROCEDURE_PART : Int := 201
abbrev PG_WHERE_BODY_CONSTRUCT : Int := 202
abbrev PG_WHERE_CONSTRUCT : Int := 203
abbrev PG_ZZZ_UB : Int := 204
abbrev SG_000_LB : Int := 205
abbrev SG_ACCESS_ID : Int := 206
abbrev SG_ACCESS_ID_LIST : Int := 207
abbrev SG_ACCESS_SPEC : Int := 208
abbrev SG_ACCESS_STMT : Int := 209
abbrev SG_ACTION_STMT : Int := 210
abbrev SG_ACTUAL_ARG : Int := 211
abbrev SG_ACTUAL_ARG_SPEC : Int := 212
abbrev SG_ACTUAL_ARG_SPEC_LIST : Int := 213
abbrev SG_ADD_OP : Int := 214
abbrev SG_ALLOCATABLE_DECL : Int := 215
abbrev SG_ALLOCATABLE_DECL_LIST : Int := 216
abbrev SG_ALLOCATABLE_STMT : Int := 217
abbrev SG_ALLOCATE_COARRAY_SPEC : Int := 218
abbrev SG_ALLOCATE_COSHAPE_SPEC : Int := 219
abbrev SG_ALLOCATE_COSHAPE_SPEC_LIST : Int := 220
abbrev SG_ALLOCATE_OBJECT : Int := 221
abbrev SG_ALLOCATE_OBJECT_LIST : Int := 222
abbrev SG_ALLOCATE_SHAPE_SPEC : Int := 223
abbrev SG_ALLOCATE_SHAPE_SPEC_LIST : Int := 224
abbrev SG_ALLOCATE_STMT : Int := 225
abbrev SG_ALLOCATION : Int := 226
abbrev SG_ALLOCATION_LIST : Int := 227
abbrev SG_ALLOC_OPT : Int := 228
abbrev SG_ALLOC_OPT_LIST : Int := 229
abbrev SG_ARITHMETIC_IF_STMT : Int := 230
abbrev SG_ARRAY_ELEMENT : Int := 231
abbrev SG_ARRAY_SPEC : Int := 232
abbrev SG_ASSIGNMENT_STMT : Int := 233
abbrev SG_ASSOCIATE_STMT : Int := 234
abbrev SG_ASSOCIATION : Int := 235
abbrev SG_ASSOCIATION_LIST : Int := 236
abbrev SG_ASSUMED_IMPLIED_SPEC : Int := 237
abbrev SG_ASSUMED_IMPLIED_SPEC_LIST : Int := 238
abbrev SG_ASSUMED_RANK_SPEC : Int := 239
abbrev SG_ASSUMED_SHAPE_SPEC : Int := 240
abbrev SG_ASSUMED_SHAPE_SPEC_LIST : Int := 241
abbrev SG_ASSUMED_SIZE_SPEC : Int := 242
abbrev SG_ASYNCHRONOUS_STMT : Int := 243
abbrev SG_ATTR_SPEC : Int := 244
abbrev SG_BACKSPACE_STMT : Int := 245
abbrev SG_BINDING_ATTR : Int := 246
abbrev SG_BINDING_ATTR_LIST : Int := 247
abbrev SG_BINDING_NAME_LIST : Int := 248
abbrev SG_BINDING_PRIVATE_STMT : Int := 249
abbrev SG_BIND_ENTITY : Int := 250
abbrev SG_BIND_STMT : Int := 251
abbrev SG_BLOCK_STMT : Int := 252
abbrev SG_BOUNDS_REMAPPING : Int := 253
abbrev SG_BOUNDS_REMAPPING_LIST : Int := 254
abbrev SG_BOUNDS_SPEC : Int := 255
abbrev SG_BOUNDS_SPEC_LIST : Int := 256
abbrev SG_CALL_STMT : Int := 257
abbrev SG_CASE_EXPR : Int := 258
abbrev SG_CASE_SELECTOR : Int := 259
abbrev SG_CASE_STMT : Int := 260
abbrev SG_CASE_VALUE_RANGE : Int := 261
abbrev SG_CASE_VALUE_RANGE_LIST : Int := 262
abbrev SG_CHAR_LENGTH : Int := 263
abbrev SG_CHAR_LITERAL_CONSTANT : Int := 264
abbrev SG_CHAR_SELECTOR : Int := 265
abbrev SG_CLOSE_STMT : Int := 266
abbrev SG_COARRAY_SPEC : Int := 267
abbrev SG_CODIMENSION_DECL : Int := 268
abbrev SG_CODIMENSION_STMT : Int := 269
abbrev SG_COINDEXED_NAMED_OBJECT : Int := 270
abbrev SG_COMMON_BLOCK_OBJECT : Int := 271
abbrev SG_COMMON_BLOCK_OBJECT_LIST : Int := 272
abbrev SG_COMMON_STMT : Int := 273
abbrev SG_COMPONENT_ARRAY_SPEC : Int := 274
abbrev SG_COMPONENT_ATTR_SPEC : Int := 275
abbrev SG_COMPONENT_ATTR_SPEC_LIST : Int := 276
abbrev SG_COMPONENT_DATA_SOURCE : Int := 277
abbrev SG_COMPONENT_DECL : Int := 278
abbrev SG_COMPONENT_DECL_LIST : Int := 279
abbrev SG_COMPONENT_DEF_STMT : Int := 280
abbrev SG_COMPONENT_INITIALIZATION : Int := 281
abbrev SG_COMPONENT_SPEC : Int := 282
abbrev SG_COMPONENT_SPEC_LIST : Int := 283
abbrev SG_COMPUTED_GOTO_STMT : Int := 284
abbrev SG_CONCURRENT_CONTROL : Int := 285
abbrev SG_CONCURRENT_CONTROL_LIST : Int := 286
abbrev SG_CONCURRENT_HEADER : Int := 287
abbrev SG_CONCURRENT_LIMIT : Int := 288
abbrev SG_CONCURRENT_LOCALITY : Int := 289
abbrev SG_CONCURRENT_STEP : Int := 290
abbrev SG_CONTAINS_STMT : Int := 291
abbrev SG_CONTINUE_STMT : Int := 292
abbrev SG_COSUBSCRIPT : Int := 293
abbrev SG_COSUBSCRIPT_LIST : Int := 294
abbrev SG_CYCLE_STMT : Int := 295
abbrev SG_DATA_COMPONENT_DEF_STMT : Int := 296
abbrev SG_DATA_IMPLIED_DO : Int := 297
abbrev SG_DATA_POINTER_COMPONENT_NAME : Int := 298
abbrev SG_DATA_POINTER_OBJECT : Int := 299
abbrev SG_DATA_REF : Int := 300
abbrev SG_DATA_STMT : Int := 301
abbrev SG_DATA_STMT_CONSTANT : Int := 302
abbrev SG_DATA_STMT_OBJECT : Int := 303
abbrev SG_DATA_STMT_OBJECT_LIST : Int := 304
abbrev SG_DATA_STMT_REPEAT : Int := 305
abbrev SG_DATA_STMT_SET : Int := 306
abbrev SG_DATA_STMT_SET_LIST : Int := 307
abbrev SG_DATA_STMT_VALUE : Int := 308
abbrev SG_DATA_STMT_VALUE_LIST : Int := 309
abbrev SG_DATA_TARGET : Int := 310
abbrev SG_DEALLOCATE_STMT : Int := 311
abbrev SG_DEALLOC_OPT : Int := 312
abbrev SG_DEALLOC_OPT_LIST : Int := 313
abbrev SG_DECLARATION_TYPE_SPEC : Int := 314
abbrev SG_DEFAULT_CHAR_EXPR : Int := 315
abbrev SG_DEFERRED_COSHAPE_SPEC : Int := 316
abbrev SG_DEFERRED_COSHAPE_SPEC_LIST : Int := 317
abbrev SG_DEFERRED_SHAPE_SPEC : Int := 318
abbrev SG_DEFERRED_SHAPE_SPEC_LIST : Int := 319
abbrev SG_DEFINED_IO_GENERIC_SPEC : Int := 320
abbrev SG_DEFINED_OPERATOR : Int := 321
abbrev SG_DERIVED_TYPE_SPEC : Int := 322
abbrev SG_DERIVED_TYPE_STMT : Int := 323
abbrev SG_DESIGNATOR : Int := 324
abbrev SG_DIGIT_STRING : Int := 325
abbrev SG_DIMENSION_STMT : Int := 326
abbrev SG_DO_STMT : Int := 327
abbrev SG_DUMMY_ARG : Int := 328
abbrev SG_DUMMY_ARG_LIST : Int := 329
abbrev SG_DUMMY_ARG_NAME_LIST : Int := 330
abbrev SG_ELSEWHERE_STMT : Int := 331
abbrev SG_ELSE_IF_STMT : Int := 332
abbrev SG_ELSE_STMT : Int := 333
abbrev SG_ENDFILE_STMT : Int := 334
abbrev SG_END_ASSOCIATE_STMT : Int := 335
abbrev SG_END_BLOCK_STMT : Int := 336
abbrev SG_END_DO : Int := 337
abbrev SG_END_DO_STMT : Int := 338
abbrev SG_END_ENUM_STMT : Int := 339
abbrev SG_END_FORALL_STMT : Int := 340
abbrev SG_END_FUNCTION_STMT : Int := 341
abbrev SG_END_IF_STMT : Int := 342
abbrev SG_END_INTERFACE_STMT : Int := 343
abbrev SG_END_MODULE_STMT : Int := 344
abbrev SG_END_MP_SUBPROGRAM_STMT : Int := 345
abbrev SG_END_PROGRAM_STMT : Int := 346
abbrev SG_END_SELECT_RANK_STMT : Int := 347
abbrev SG_END_SELECT_STMT : Int := 348
abbrev SG_END_SELECT_TYPE_STMT : Int := 349
abbrev SG_END_SUBMODULE_STMT : Int := 350
abbrev SG_END_SUBROUTINE_STMT : Int := 351
abbrev SG_END_TYPE_STMT : Int := 352
abbrev SG_END_WHERE_STMT : Int := 353
abbrev SG_ENTITY_DECL : Int := 354
abbrev SG_ENTITY_DECL_LIST : Int := 355
abbrev SG_ENTRY_STMT : Int := 356
abbrev SG_ENUMERATOR : Int := 357
abbrev SG_ENUMERATOR_DEF_STMT : Int := 358
abbrev SG_ENUMERATOR_LIST : Int := 359
abbrev SG_ENUM_DEF_STMT : Int := 360
abbrev SG_EQUIVALENCE_OBJECT : Int := 361
abbrev SG_EQUIVALENCE_OBJECT_LIST : Int := 362
abbrev SG_EQUIVALENCE_SET : Int := 363
abbrev SG_EQUIVALENCE_SET_LIST : Int := 364
abbrev SG_EQUIVALENCE_STMT : Int := 365
abbrev SG_EQUIV_OP : Int := 366
abbrev SG_ERROR_STOP_STMT : Int := 367
abbrev SG_EVENT_POST_STMT : Int := 368
abbrev SG_EVENT_WAIT_STMT : Int := 369
abbrev SG_EXIT_STMT : Int := 370
abbrev SG_EXPLICIT_COSHAPE_SPEC : Int := 371
abbrev SG_EXPLICIT_SHAPE_SPEC : Int := 372
abbrev SG_EXPLICIT_SHAPE_SPEC_LIST : Int := 373
abbrev SG_EXPONENT : Int := 374
abbrev SG_EXPONENT_LETTER : Int := 375
abbrev SG_EXPR : Int := 376
abbrev SG_EXTENDED_INTRINSIC_OP : Int := 377
abbrev SG_EXTERNAL_NAME_LIST : Int := 378
abbrev SG_EXTERNAL_STMT : Int := 379
abbrev SG_FAIL_IMAGE_STMT : Int := 380
abbrev SG_FINAL_PROCEDURE_STMT : Int := 381
abbrev SG_FINAL_SUBROUTINE_NAME_LIST : Int := 382
abbrev SG_FLUSH_STMT : Int := 383
abbrev SG_FORALL_ASSIGNMENT_STMT : Int := 384
abbrev SG_FORALL_CONSTRUCT_STMT : Int := 385
abbrev SG_FORALL_STMT : Int := 386
abbrev SG_FORMAT : Int := 387
abbrev SG_FORMAT_SPECIFICATION : Int := 388
abbrev SG_FORMAT_STMT : Int := 389
abbrev SG_FORM_TEAM_STMT : Int := 390
abbrev SG_FUNCTION_REFERENCE : Int := 391
abbrev SG_FUNCTION_STMT : Int := 392
abbrev SG_GENERIC_SPEC : Int := 393
abbrev SG_GENERIC_STMT : Int := 394
abbrev SG_GOTO_STMT : Int := 395
abbrev SG_IF_STMT : Int := 396
abbrev SG_IF_THEN_STMT : Int := 397
abbrev SG_IMAGE_SELECTOR : Int := 398
abbrev SG_IMAGE_SELECTOR_SPEC : Int := 399
abbrev SG_IMAGE_SELECTOR_SPEC_LIST : Int := 400
abbrev SG_IMPLICIT_NONE_SPEC : Int := 401
abbrev SG_IMPLICIT_NONE_SPEC_LIST : Int := 402
abbrev SG_IMPLICIT_SPEC : Int := 403
abbrev SG_IMPLICIT_SPEC_LIST : Int := 404
abbrev SG_IMPLICIT_STMT : Int := 405
abbrev SG_IMPLIED_SHAPE_OR_ASSUMED_SIZE_SPEC : Int := 406
abbrev SG_IMPLIED_SHAPE_SPEC : Int := 407
abbrev SG_IMPORT_NAME_LIST : Int := 408
abbrev SG_IMPORT_STMT : Int := 409
abbrev SG_INITIALIZATION : Int := 410
abbrev SG_INITIAL_DATA_TARGET : Int := 411
abbrev SG_INPUT_ITEM : Int := 412
abbrev SG_INPUT_ITEM_LIST : Int := 413
abbrev SG_INQUIRE_STMT : Int := 414
abbrev SG_INTEGER_TYPE_SPEC : Int := 415
abbrev SG_INTENT_SPEC : Int := 416
abbrev SG_INTENT_STMT : Int := 417
abbrev SG_INTERFACE_STMT : Int := 418
abbrev SG_INTRINSIC_OPERATOR : Int := 419
abbrev SG_INTRINSIC_PROCEDURE_NAME_LIST : Int := 420
abbrev SG_INTRINSIC_STMT : Int := 421
abbrev SG_INTRINSIC_TYPE_SPEC : Int := 422
abbrev SG_INT_CONSTANT_EXPR : Int := 423
abbrev SG_INT_EXPR : Int := 424
abbrev SG_INT_LITERAL_CONSTANT : Int := 425
abbrev SG_IO_CONTROL_SPEC_LIST : Int := 426
abbrev SG_IO_IMPLIED_DO : Int := 427
abbrev SG_IO_IMPLIED_DO_CONTROL : Int := 428
abbrev SG_IO_IMPLIED_DO_OBJECT : Int := 429
abbrev SG_IO_IMPLIED_DO_OBJECT_LIST : Int := 430
abbrev SG_KIND_PARAM : Int := 431
abbrev SG_KIND_SELECTOR : Int := 432
abbrev SG_LABEL : Int := 433
abbrev SG_LABEL_DO_STMT : Int := 434
abbrev SG_LABEL_LIST : Int := 435
abbrev SG_LANGUAGE_BINDING_SPEC : Int := 436
abbrev SG_LENGTH_SELECTOR : Int := 437
abbrev SG_LETTER_SPEC : Int := 438
abbrev SG_LETTER_SPEC_LIST : Int := 439
abbrev SG_LOCALITY_SPEC : Int := 440
abbrev SG_LOCK_STMT : Int := 441
abbrev SG_LOGICAL_EXPR : Int := 442
abbrev SG_LOGICAL_LITERAL_CONSTANT : Int := 443
abbrev SG_LOOP_CONTROL : Int := 444
abbrev SG_LOWER_BOUND_EXPR : Int := 445
abbrev SG_MACRO_STMT : Int := 446
abbrev SG_MASKED_ELSEWHERE_STMT : Int := 447
abbrev SG_MODULE_NATURE : Int := 448
abbrev SG_MODULE_STMT : Int := 449
abbrev SG_MP_SUBPROGRAM_STMT : Int := 450
abbrev SG_MULT_OP : Int := 451
abbrev SG_NAMED_CONSTANT_DEF : Int := 452
abbrev SG_NAMED_CONSTANT_DEF_LIST : Int := 453
abbrev SG_NAMELIST_GROUP_OBJECT_LIST : Int := 454
abbrev SG_NAMELIST_STMT : Int := 455
abbrev SG_NONLABEL_DO_STMT : Int := 456
abbrev SG_NULLIFY_STMT : Int := 457
abbrev SG_NULL_INIT : Int := 458
abbrev SG_OBJECT_NAME_LIST : Int := 459
abbrev SG_ONLY : Int := 460
abbrev SG_ONLY_LIST : Int := 461
abbrev SG_OPEN_STMT : Int := 462
abbrev SG_OPTIONAL_STMT : Int := 463
abbrev SG_OTHER_SPECIFICATION_STMT : Int := 464
abbrev SG_OUTPUT_ITEM : Int := 465
abbrev SG_OUTPUT_ITEM_LIST : Int := 466
abbrev SG_PARAMETER_STMT : Int := 467
abbrev SG_PARENT_STRING : Int := 468
abbrev SG_PART_REF : Int := 469
abbrev SG_POINTER_ASSIGNMENT_STMT : Int := 470
abbrev SG_POINTER_DECL : Int := 471
abbrev SG_POINTER_DECL_LIST : Int := 472
abbrev SG_POINTER_OBJECT : Int := 473
abbrev SG_POINTER_OBJECT_LIST : Int := 474
abbrev SG_POINTER_STMT : Int := 475
abbrev SG_PREFIX : Int := 476
abbrev SG_PREFIX_SPEC : Int := 477
abbrev SG_PRINT_STMT : Int := 478
abbrev SG_PRIVATE_COMPONENTS_STMT : Int := 479
abbrev SG_PRIVATE_OR_SEQUENCE : Int := 480
abbrev SG_PROCEDURE_DECLARATION_STMT : Int := 481
abbrev SG_PROCEDURE_DESIGNATOR : Int := 482
abbrev SG_PROCEDURE_STMT : Int := 483
abbrev SG_PROC_ATTR_SPEC : Int := 484
abbrev SG_PROC_COMPONENT_ATTR_SPEC : Int := 485
abbrev SG_PROC_COMPONENT_ATTR_SPEC_LIST : Int := 486
abbrev SG_PROC_COMPONENT_DEF_STMT : Int := 487
abbrev SG_PROC_COMPONENT_REF : Int := 488
abbrev SG_PROC_DECL : Int := 489
abbrev SG_PROC_DECL_LIST : Int := 490
abbrev SG_PROC_INTERFACE : Int := 491
abbrev SG_PROC_LANGUAGE_BINDING_SPEC : Int := 492
abbrev SG_PROC_POINTER_INIT : Int := 493
abbrev SG_PROC_POINTER_NAME : Int := 494
abbrev SG_PROC_POINTER_OBJECT : Int := 495
abbrev SG_PROC_TARGET : Int := 496
abbrev SG_PROGRAM_STMT : Int := 497
abbrev SG_PROTECTED_STMT : Int := 498
abbrev SG_READ_STMT : Int := 499
abbrev SG_REAL_LITERAL_CONSTANT : Int := 500
abbrev SG_REL_OP : Int := 501
abbrev SG_RENAME : Int := 502
abbrev SG_RENAME_LIST : Int := 503
abbrev SG_RETURN_STMT : Int := 504
abbrev SG_REWIND_STMT : Int := 505
abbrev SG_SAVED_ENTITY : Int := 506
abbrev SG_SAVED_ENTITY_LIST : Int := 507
abbrev SG_SAVE_STMT : Int := 508
abbrev SG_SECTION_SUBSCRIPT : Int := 509
abbrev SG_SECTION_SUBSCRIPT_LIST : Int := 510
abbrev SG_SELECTOR : Int := 511
abbrev SG_SELECT_CASE_STMT : Int := 512
abbrev SG_SELECT_RANK_CASE_STMT : Int := 513
abbrev SG_SELECT_RANK_STMT : Int := 514
abbrev SG_SELECT_TYPE_STMT : Int := 515
abbrev SG_SEQUENCE_STMT : Int := 516
abbrev SG_SIGN : Int := 517
abbrev SG_SIGNED_REAL_LITERAL_CONSTANT : Int := 518
abbrev SG_SIGNIFICAND : Int := 519
abbrev SG_SPECIFIC_PROCEDURE : Int := 520
abbrev SG_SPECIFIC_PROCEDURE_LIST : Int := 521
abbrev SG_STOP_STMT : Int := 522
abbrev SG_STRUCTURE_COMPONENT : Int := 523
abbrev SG_STRUCTURE_CONSTRUCTOR : Int := 524
abbrev SG_SUBMODULE_STMT : Int := 525
abbrev SG_SUBROUTINE_STMT : Int := 526
abbrev SG_SUBSTRING : Int := 527
abbrev SG_SUBSTRING_RANGE : Int := 528
abbrev SG_SUFFIX : Int := 529
abbrev SG_SYNC_ALL_STMT : Int := 530
abbrev SG_SYNC_IMAGES_STMT : Int := 531
abbrev SG_SYNC_MEMORY_STMT : Int := 532
abbrev SG_SYNC_STAT : Int := 533
abbrev SG_SYNC_TEAM_STMT : Int := 534
abbrev SG_TARGET_DECL : Int := 535
abbrev SG_TARGET_DECL_LIST : Int := 536
abbrev SG_TARGET_STMT : Int := 537
abbrev SG_TYPE_ATTR_SPEC : Int := 538
abbrev SG_TYPE_ATTR_SPEC_LIST : Int := 539
abbrev SG_TYPE_BOUND_GENERIC_STMT : Int := 540
abbrev SG_TYPE_BOUND_PROCEDURE_STMT : Int := 541
abbrev SG_TYPE_BOUND_PROC_BINDING : Int := 542
abbrev SG_TYPE_BOUND_PROC_DECL : Int := 543
abbrev SG_TYPE_BOUND_PROC_DECL_LIST : Int := 544
abbrev SG_TYPE_DECL_ATTR_SEQ : Int := 545
abbrev SG_TYPE_DECLARATION_STMT : Int := 546
abbrev SG_TYPE_GUARD_STMT : Int := 547
abbrev SG_TYPE_PARAM_ATTR_SPEC : Int := 548
abbrev SG_TYPE_PARAM_DECL : Int := 549
abbrev SG_TYPE_PARAM_DECL_LIST : Int := 550
abbrev SG_TYPE_PARAM_DEF_STMT : Int := 551
abbrev SG_TYPE_PARAM_NAME : Int := 552
abbrev SG_TYPE_PARAM_NAME_LIST : Int := 553
abbrev SG_TYPE_PARAM_SPEC : Int := 554
abbrev SG_TYPE_PARAM_SPEC_LIST : Int := 555
abbrev SG_TYPE_PARAM_VALUE : Int := 556
abbrev SG_TYPE_SPEC : Int := 557
abbrev SG_UNLOCK_STMT : Int := 558
abbrev SG_UPPER_BOUND_EXPR : Int := 559
abbrev SG_USE_STMT : Int := 560
abbrev SG_VALUE_STMT : Int := 561
abbrev SG_VARIABLE : Int := 562
abbrev SG_VARIABLE_NAME : Int := 563
abbrev SG_VARIABLE_NAME_LIST : Int := 564
abbrev SG_VOLATILE_STMT : Int := 565
abbrev SG_WAIT_SPEC : Int := 566
abbrev SG_WAIT_STMT : Int := 567
abbrev SG_WHERE_CONSTRUCT_STMT : Int := 568
abbrev SG_WHERE_STMT : Int := 569
abbrev SG_WRITE_STMT : Int := 570
abbrev SG_ZZZ_UB : Int := 571
abbrev TK_000_LB : Int := 572
abbrev TK_AND_OP : Int := 573
abbrev TK_ARROW : Int := 574
abbrev TK_ASTERISK : Int := 575
abbrev TK_BRACKETL : Int := 576
abbrev TK_BRACKETR : Int := 577
abbrev TK_COLON : Int := 578
abbrev TK_COMMA : Int := 579
abbrev TK_CONCAT : Int := 580
abbrev TK_DBL_COLON : Int := 581
abbrev TK_DBL_DOT : Int := 582
abbrev TK_DEF_OP : Int := 583
abbrev TK_EQUAL : Int := 584
abbrev TK_EQV_OP : Int := 585
abbrev TK_FALSE_CONSTANT : Int := 586
abbrev TK_MINUS : Int := 587
abbrev TK_NAME : Int := 588
abbrev TK_NEQV_OP : Int := 589
abbrev TK_NOT_OP : Int := 590
abbrev TK_OR_OP : Int := 591
abbrev TK_PARENL : Int := 592
abbrev TK_PARENR : Int := 593
abbrev TK_PERCENT : Int := 594
abbrev TK_PLUS : Int := 595
abbrev TK_POWER_OP : Int := 596
abbrev TK_REL_EQ : Int := 597
abbrev TK_REL_GE : Int := 598
abbrev TK_REL_GT : Int := 599
abbrev TK_REL_LE : Int := 600
abbrev TK_REL_LT : Int := 601
abbrev TK_REL_NE : Int := 602
abbrev TK_SEMICOLON : Int := 603
abbrev TK_SLASHF : Int := 604
abbrev TK_TRUE_CONSTANT : Int := 605
abbrev TK_UNDERSCORE : Int := 606
abbrev TK_VBAR : Int := 607
abbrev TK_ZZZ_UB : Int := 608
abbrev CLIENT_EXTENSION : Int := 609

/-- `MAP(STRINGIZE)` and `MAP(TYPIZE)`. -/
def table : List (String × Int) := [
  ("<EOL>", 0),
  ("<UNKNOWN>", 0),
  ("<BAD>", 0),
  ("<HOIST>", 0),
  ("<keyword grammar enum lower bound>", 0),
  ("ABSTRACT", 4),
  ("ACQUIRED_LOCK", 4),
  ("ALL", 4),
  ("ALLOCATABLE", 4),
  ("ALLOCATE", 4),
  ("ASSIGNMENT", 4),
  ("ASSOCIATE", 4),
  ("ASYNCHRONOUS", 4),
  ("BACKSPACE", 4),
  ("BIND", 4),
  ("BLOCK", 4),
  ("CALL", 4),
  ("CASE", 4),
  ("CHARACTER", 4),
  ("CLASS", 4),
  ("CLOSE", 4),
  ("CODIMENSION", 4),
  ("COMMON", 4),
  ("COMPLEX", 4),
  ("CONCURRENT", 4),
  ("CONTAINS", 4),
  ("CONTIGUOUS", 4),
  ("CONTINUE", 4),
  ("CRITICAL", 4),
  ("CYCLE", 4),
  ("DATA", 4),
  ("DEALLOCATE", 4),
  ("DEFAULT", 4),
  ("DEFERRED", 4),
  ("DIMENSION", 4),
  ("DO", 4),
  ("DOUBLE", 4),
  ("DOUBLEPRECISION", 4),
  ("DOWHILE", 4),
  ("ELEMENTAL", 4),
  ("ELSE", 4),
  ("END", 4),
  ("ENTRY", 4),
  ("ENUM", 4),
  ("ENUMERATOR", 4),
  ("EOR", 4),
  ("EQUIVALENCE", 4),
  ("ERR", 4),
  ("ERRMSG", 4),
  ("ERROR", 4),
  ("EVENT", 4),
  ("EXIT", 4),
  ("EXTENDS", 4),
  ("EXTERNAL", 4),
  ("FAIL", 4),
  ("FILE", 4),
  ("FINAL", 4),
  ("FLUSH", 4),
  ("FORALL", 4),
  ("FORM", 4),
  ("FORMAT", 4),
  ("FORMATTED", 4),
  ("FUNCTION", 4),
  ("GENERIC", 4),
  ("GO", 4),
  ("ID", 4),
  ("IF", 4),
  ("IMAGE", 4),
  ("IMAGES", 4),
  ("IMPLICIT", 4),
  ("IMPORT", 4),
  ("IMPURE", 4),
  ("IN", 4),
  ("INCLUDE", 4),
  ("INOUT", 4),
  ("INQUIRE", 4),
  ("INTEGER", 4),
  ("INTENT", 4),
  ("INTERFACE", 4),
  ("INTRINSIC", 4),
  ("IOMSG", 4),
  ("IOSTAT", 4),
  ("IS", 4),
  ("KIND", 4),
  ("LEN", 4),
  ("LOCAL", 4),
  ("LOCAL_INIT", 4),
  ("LOCK", 4),
  ("LOGICAL", 4),
  ("MEMORY", 4),
  ("MODULE", 4),
  ("MOLD", 4),
  ("NAME", 4),
  ("NAMELIST", 4),
  ("NEW_INDEX", 4),
  ("NONE", 4),
  ("NON_INTRINSIC", 4),
  ("NON_OVERRIDABLE", 4),
  ("NON_RECURSIVE", 4),
  ("NOPASS", 4),
  ("NULLIFY", 4),
  ("ONLY", 4),
  ("OPEN", 4),
  ("OPERATOR", 4),
  ("OPTIONAL", 4),
  ("OUT", 4),
  ("PARAMETER", 4),
  ("PASS", 4),
  ("POINTER", 4),
  ("POST", 4),
  ("PRECISION", 4),
  ("PRINT", 4),
  ("PRIVATE", 4),
  ("PROCEDURE", 4),
  ("PROGRAM", 4),
  ("PROTECTED", 4),
  ("PUBLIC", 4),
  ("PURE", 4),
  ("QUIET", 4),
  ("RANK", 4),
  ("READ", 4),
  ("REAL", 4),
  ("RECURSIVE", 4),
  ("RESULT", 4),
  ("RETURN", 4),
  ("REWIND", 4),
  ("SAVE", 4),
  ("SELECT", 4),
  ("SEQUENCE", 4),
  ("SHARED", 4),
  ("SOURCE", 4),
  ("STAT", 4),
  ("STOP", 4),
  ("SUBMODULE", 4),
  ("SUBROUTINE", 4),
  ("SYNC", 4),
  ("TARGET", 4),
  ("TEAM", 4),
  ("TEAM_NUMBER", 4),
  ("THEN", 4),
  ("TO", 4),
  ("TYPE", 4),
  ("UNFORMATTED", 4),
  ("UNIT", 4),
  ("UNLOCK", 4),
  ("UNTIL_COUNT", 4),
  ("USE", 4),
  ("VALUE", 4),
  ("VOLATILE", 4),
  ("WAIT", 4),
  ("WHERE", 4),
  ("WHILE", 4),
  ("WRITE", 4),
  ("<keyword grammar enum upper bound>", 0),
  ("<prgm grammar enum lower bound>", 0),
  ("action-term-do-construct", 1),
  ("associate-construct", 1),
  ("block", 1),
  ("block-construct", 1),
  ("block-specification-part", 1),
  ("case-construct", 1),
  ("component-part", 1),
  ("declaration-construct", 1),
  ("derived-type-def", 1),
  ("do-block", 1),
  ("do-body", 1),
  ("do-construct", 1),
  ("do-term-action-stmt", 1),
  ("do-term-shared-stmt", 1),
  ("enum-def", 1),
  ("executable-construct", 1),
  ("execution-part", 1),
  ("execution-part-construct", 1),
  ("external-subprogram", 1),
  ("forall-body-construct", 1),
  ("forall-construct", 1),
  ("function-subprogram", 1),
  ("if-construct", 1),
  ("implicit-part", 1),
  ("implicit-part-stmt", 1),
  ("inner-shared-do-construct", 1),
  ("interface-block", 1),
  ("interface-body", 1),
  ("interface-specification", 1),
  ("internal-subprogram", 1),
  ("internal-subprogram-part", 1),
  ("main-program", 1),
  ("module", 1),
  ("module-subprogram", 1),
  ("module-subprogram-part", 1),
  ("nonblock-do-construct", 1),
  ("outer-shared-do-construct", 1),
  ("program", 1),
  ("program-unit", 1),
  ("select-rank-construct", 1),
  ("select-type-construct", 1),
  ("separate-module-subprogram", 1),
  ("specification-construct", 1),
  ("specification-part", 1),
  ("submodule", 1),
  ("subroutine-subprogram", 1),
  ("type-bound-procedure-part", 1),
  ("where-body-construct", 1),
  ("where-construct", 1),
  ("<prgm grammar enum upper bound>", 0),
  ("<statment grammar enum lower bound>", 0),
  ("access-id", 1),
  ("access-id-list", 1),
  ("access-spec", 1),
  ("access-stmt", 5),
  ("action-stmt", 5),
  ("actual-arg", 1),
  ("actual-arg-spec", 1),
  ("actual-arg-spec-list", 1),
  ("add-op", 1),
  ("allocatable-decl", 1),
  ("allocatable-decl-list", 1),
  ("allocatable-stmt", 5),
  ("allocate-coarray-spec", 1),
  ("allocate-coshape-spec", 1),
  ("allocate-coshape-spec-list", 1),
  ("allocate-object", 1),
  ("allocate-object-list", 1),
  ("allocate-shape-spec", 1),
  ("allocate-shape-spec-list", 1),
  ("allocate-stmt", 5),
  ("allocation", 1),
  ("allocation-list", 1),
  ("alloc-opt", 1),
  ("alloc-opt-list", 1),
  ("arithmetic-if-stmt", 5),
  ("array-element", 1),
  ("array-spec", 1),
  ("assignment-stmt", 5),
  ("associate-stmt", 5),
  ("association", 1),
  ("association-list", 1),
  ("assumed-implied-spec", 1),
  ("assumed-implied-spec-list", 1),
  ("assumed-rank-spec", 1),
  ("assumed-shape-spec", 1),
  ("assumed-shape-spec-list", 1),
  ("assumed-size-spec", 1),
  ("asynchronous-stmt", 5),
  ("attr-spec", 1),
  ("backspace-stmt", 5),
  ("binding-attr", 1),
  ("binding-attr-list", 1),
  ("binding-name-list", 1),
  ("binding-private-stmt", 5),
  ("bind-entity", 1),
  ("bind-stmt", 5),
  ("block-stmt", 5),
  ("bounds-remapping", 1),
  ("bounds-remapping-list", 1),
  ("bounds-spec", 1),
  ("bounds-spec-list", 1),
  ("call-stmt", 5),
  ("case-expr", 1),
  ("case-selector", 1),
  ("case-stmt", 5),
  ("case-value-range", 1),
  ("case-value-range-list", 1),
  ("char-length", 1),
  ("char-literal-constant", 2),
  ("char-selector", 2),
  ("close-stmt", 5),
  ("coarray-spec", 1),
  ("codimension-decl", 1),
  ("codimension-stmt", 5),
  ("coindexed-named-object", 1),
  ("common-block-object", 1),
  ("common-block-object-list", 1),
  ("common-stmt", 5),
  ("component-array-spec", 1),
  ("component-attr-spec", 1),
  ("component-attr-spec-list", 1),
  ("component-data-source", 1),
  ("component-decl", 1),
  ("component-decl-list", 1),
  ("component-def-stmt", 5),
  ("component-initialization", 2),
  ("component-spec", 1),
  ("component-spec-list", 1),
  ("computed-goto-stmt", 5),
  ("concurrent-control", 1),
  ("concurrent-control-list", 1),
  ("concurrent-header", 1),
  ("concurrent-limit", 1),
  ("concurrent-locality", 1),
  ("concurrent-step", 1),
  ("contains-stmt", 5),
  ("continue-stmt", 5),
  ("cosubscript", 1),
  ("cosubscript-list", 1),
  ("cycle-stmt", 5),
  ("data-component-def-stmt", 5),
  ("data-implied-do", 2),
  ("data-pointer-component-name", 1),
  ("data-pointer-object", 1),
  ("data-ref", 1),
  ("data-stmt", 5),
  ("data-stmt-constant", 1),
  ("data-stmt-object", 1),
  ("data-stmt-object-list", 1),
  ("data-stmt-repeat", 1),
  ("data-stmt-set", 1),
  ("data-stmt-set-list", 1),
  ("data-stmt-value", 2),
  ("data-stmt-value-list", 1),
  ("data-target", 1),
  ("deallocate-stmt", 5),
  ("dealloc-opt", 1),
  ("dealloc-opt-list", 1),
  ("declaration-type-spec", 1),
  ("default-char-expr", 2),
  ("deferred-coshape-spec", 1),
  ("deferred-coshape-spec-list", 1),
  ("deferred-shape-spec", 1),
  ("deferred-shape-spec-list", 1),
  ("defined-io-generic-spec", 1),
  ("defined-operator", 1),
  ("derived-type-spec", 1),
  ("derived-type-stmt", 5),
  ("designator", 1),
  ("digit-string", 1),
  ("dimension-stmt", 5),
  ("do-stmt", 5),
  ("dummy-arg", 1),
  ("dummy-arg-list", 1),
  ("dummy-arg-name-list", 1),
  ("elsewhere-stmt", 5),
  ("else-if-stmt", 5),
  ("else-stmt", 5),
  ("endfile-stmt", 5),
  ("end-associate-stmt", 5),
  ("end-block-stmt", 5),
  ("end-do", 1),
  ("end-do-stmt", 5),
  ("end-enum-stmt", 5),
  ("end-forall-stmt", 5),
  ("end-function-stmt", 5),
  ("end-if-stmt", 5),
  ("end-interface-stmt", 5),
  ("end-module-stmt", 5),
  ("end-mp-subprogram-stmt", 5),
  ("end-program-stmt", 5),
  ("end-select-rank-stmt", 5),
  ("end-select-stmt", 5),
  ("end-select-type-stmt", 5),
  ("end-submodule-stmt", 5),
  ("end-subroutine-stmt", 5),
  ("end-type-stmt", 5),
  ("end-where-stmt", 5),
  ("entity-decl", 1),
  ("entity-decl-list", 1),
  ("entry-stmt", 5),
  ("enumerator", 1),
  ("enumerator-def-stmt", 5),
  ("enumerator-list", 1),
  ("enum-def-stmt", 5),
  ("equivalence-object", 1),
  ("equivalence-object-list", 1),
  ("equivalence-set", 1),
  ("equivalence-set-list", 1),
  ("equivalence-stmt", 5),
  ("equiv-op", 1),
  ("error-stop-stmt", 5),
  ("event-post-stmt", 5),
  ("event-wait-stmt", 5),
  ("exit-stmt", 5),
  ("explicit-coshape-spec", 1),
  ("explicit-shape-spec", 1),
  ("explicit-shape-spec-list", 1),
  ("exponent", 1),
  ("exponent-letter", 1),
  ("expr", 2),
  ("extended-intrinsic-op", 1),
  ("external-name-list", 1),
  ("external-stmt", 5),
  ("fail-image-stmt", 5),
  ("final-procedure-stmt", 5),
  ("final-subroutine-name-list", 1),
  ("flush-stmt", 5),
  ("forall-assignment-stmt", 5),
  ("forall-construct-stmt", 5),
  ("forall-stmt", 5),
  ("format", 1),
  ("format-specification", 2),
  ("format-stmt", 5),
  ("form-team-stmt", 5),
  ("function-reference", 1),
  ("function-stmt", 5),
  ("generic-spec", 1),
  ("generic-stmt", 5),
  ("goto-stmt", 5),
  ("if-stmt", 5),
  ("if-then-stmt", 5),
  ("image-selector", 1),
  ("image-selector-spec", 1),
  ("image-selector-spec-list", 1),
  ("implicit-none-spec", 1),
  ("implicit-none-spec-list", 1),
  ("implicit-spec", 1),
  ("implicit-spec-list", 1),
  ("implicit-stmt", 5),
  ("implied-shape-or-assumed-size-spec", 1),
  ("implied-shape-spec", 1),
  ("import-name-list", 1),
  ("import-stmt", 5),
  ("initialization", 2),
  ("initial-data-target", 1),
  ("input-item", 1),
  ("input-item-list", 1),
  ("inquire-stmt", 5),
  ("integer-type-spec", 1),
  ("intent-spec", 1),
  ("intent-stmt", 5),
  ("interface-stmt", 5),
  ("intrinsic-operator", 1),
  ("intrinsic-procedure-name-list", 1),
  ("intrinsic-stmt", 5),
  ("intrinsic-type-spec", 1),
  ("int-constant-expr", 1),
  ("int-expr", 1),
  ("int-literal-constant", 2),
  ("io-control-spec-list", 1),
  ("io-implied-do", 1),
  ("io-implied-do-control", 1),
  ("io-implied-do-object", 1),
  ("io_implied-do-object-list", 1),
  ("kind-param", 1),
  ("kind-selector", 1),
  ("label", 1),
  ("label-do-stmt", 5),
  ("label-list", 1),
  ("language-binding-spec", 1),
  ("length-selector", 1),
  ("letter-spec", 1),
  ("letter-spec-list", 1),
  ("locality-spec", 1),
  ("lock-stmt", 5),
  ("logical-expr", 1),
  ("logical-literal-constant", 1),
  ("loop-control", 1),
  ("lower-bound-expr", 1),
  ("macro-stmt", 5),
  ("masked-elsewhere-stmt", 5),
  ("module-nature", 1),
  ("module-stmt", 5),
  ("mp-subprogram-stmt", 5),
  ("mult-op", 1),
  ("named-constant-def", 1),
  ("named-constant-def-list", 1),
  ("namelist-group-object-list", 1),
  ("namelist-stmt", 5),
  ("nonlabel-do-stmt", 5),
  ("nullify-stmt", 5),
  ("null-init", 1),
  ("object-name-list", 1),
  ("only", 1),
  ("only-list", 1),
  ("open-stmt", 5),
  ("optional-stmt", 5),
  ("other-specification-stmt", 5),
  ("output-item", 1),
  ("output-item-list", 1),
  ("parameter-stmt", 5),
  ("parent-string", 1),
  ("part-ref", 1),
  ("pointer-assignment-stmt", 5),
  ("pointer-decl", 1),
  ("pointer-decl-list", 1),
  ("pointer-object", 1),
  ("pointer-object-list", 1),
  ("pointer-stmt", 5),
  ("prefix", 1),
  ("prefix-spec", 1),
  ("print-stmt", 5),
  ("private-components-stmt", 5),
  ("private-or-sequence", 1),
  ("procedure-declaration-stmt", 5),
  ("procedure-designator", 1),
  ("procedure-stmt", 5),
  ("proc-attr-spec", 1),
  ("proc-component-attr-spec", 1),
  ("proc-component-attr-spec-list", 1),
  ("proc-component-def-stmt", 5),
  ("proc-component-ref", 1),
  ("proc-decl", 1),
  ("proc-decl-list", 1),
  ("proc-interface", 1),
  ("proc-language-binding-spec", 1),
  ("proc-pointer-init", 1),
  ("proc-pointer-name", 1),
  ("proc-pointer-object", 1),
  ("proc-target", 1),
  ("program-stmt", 5),
  ("protected-stmt", 5),
  ("read-stmt", 5),
  ("real-literal-constant", 2),
  ("rel-op", 1),
  ("rename", 1),
  ("rename-list", 1),
  ("return-stmt", 5),
  ("rewind-stmt", 5),
  ("saved-entity", 1),
  ("saved-entity-list", 1),
  ("save-stmt", 5),
  ("section-subscript", 1),
  ("section-subscript-list", 1),
  ("selector", 1),
  ("select-case-stmt", 5),
  ("select-rank-case-stmt", 5),
  ("select-rank-stmt", 5),
  ("select-type-stmt", 5),
  ("sequence-stmt", 5),
  ("sign", 1),
  ("signed-real-literal-constant", 1),
  ("significand", 1),
  ("specific-procedure", 1),
  ("specific-procedure-list", 1),
  ("stop-stmt", 5),
  ("structure-component", 1),
  ("structure-constructor", 1),
  ("submodule-stmt", 5),
  ("subroutine-stmt", 5),
  ("substring", 1),
  ("substring-range", 1),
  ("suffix", 1),
  ("sync-all-stmt", 5),
  ("sync-images-stmt", 5),
  ("sync-memory-stmt", 5),
  ("sync-stat", 1),
  ("sync-team-stmt", 5),
  ("target-decl", 1),
  ("target-decl-list", 1),
  ("target-stmt", 5),
  ("type-attr-spec", 1),
  ("type-attr-spec-list", 1),
  ("type-bound-generic-stmt", 5),
  ("type-bound-procedure-stmt", 5),
  ("type-bound-proc-binding", 1),
  ("type-bound-proc-decl", 1),
  ("type-bound-proc-decl-list", 1),
  ("type-decl-attr-seq", 1),
  ("type-declaration-stmt", 5),
  ("type-guard-stmt", 5),
  ("type-param-attr-spec", 1),
  ("type-param-decl", 1),
  ("type-param-decl-list", 1),
  ("type-param-def-stmt", 5),
  ("type-param-name", 1),
  ("type-param-name-list", 1),
  ("type-param-spec", 1),
  ("type-param-spec-list", 1),
  ("type-param-value", 1),
  ("type-spec", 1),
  ("unlock-stmt", 5),
  ("upper-bound-expr", 1),
  ("use-stmt", 5),
  ("value-stmt", 5),
  ("variable", 1),
  ("variable-name", 1),
  ("variable-name-list", 1),
  ("volatile-stmt", 5),
  ("wait-spec", 1),
  ("wait-stmt", 5),
  ("where-construct-stmt", 5),
  ("where-stmt", 5),
  ("write-stmt", 5),
  ("<statment grammar enum upper bound>", 0),
  ("<token grammar enum lower bound>", 0),
  (".AND.", 3),
  ("=>", 3),
  ("*", 3),
  ("[", 3),
  ("]", 3),
  (":", 3),
  (",", 3),
  ("//", 3),
  ("::", 3),
  ("..", 3),
  ("defined-operator", 3),
  ("=", 3),
  (".EQV.", 3),
  (".FALSE.", 3),
  ("-", 3),
  ("name", 3),
  (".NEQV.", 3),
  (".NOT.", 3),
  (".OR.", 3),
  ("(", 3),
  (")", 3),
  ("%", 3),
  ("+", 3),
  ("**", 3),
  ("==", 3),
  (">=", 3),
  (">", 3),
  ("<=", 3),
  ("<", 3),
  ("/=", 3),
  (";", 3),
  ("/", 3),
  (".TRUE.", 3),
  ("_", 3),
  ("|", 3),
  ("<token grammar enum upper bound>", 0),
  ("<CLIENT EXTENSION>", 0)]

end Tag
end FLPR
