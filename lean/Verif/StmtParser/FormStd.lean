import Verif.StmtParser.FormSpec
/-!
# The statement forms of the Fortran standard

The rules of ISO/IEC 1539-1:2018 for the statements below, with expressions left opaque
(`Form.expr`), item lists in parentheses that the parsers do not look into left opaque
(`Form.group`), and a few well known extensions (`integer*8`, `function f` without parentheses).
Rule numbers are those of the standard.  Where FLPR's grammar differs from the standard the form here
is the part both agree on, and the difference is stated as a theorem of its own (`C63_violation_...`).
-/

namespace FLPR
namespace Spec
namespace Std
open Form

def comma : Form := word Tag.TK_COMMA
def colon : Form := word Tag.TK_COLON
def dcolon : Form := word Tag.TK_DBL_COLON
def equals : Form := word Tag.TK_EQUAL
def arrow : Form := word Tag.TK_ARROW
def star_ : Form := word Tag.TK_ASTERISK
def slash : Form := word Tag.TK_SLASHF
/-- An unsigned integer: labels (R611) and old style sizes. -/
def int : Form := word Tag.SG_INT_LITERAL_CONSTANT
def names : Form := list name
/-- `construct-name :` -/
def label : Form := opt (seqs [name, colon])

/-! ### Types (clause 7) -/

/-- R701 type-param-value -/
def typeParamValue : Form := oneOf [star_, colon, expr]
/-- R706 kind-selector, or the old `*8` -/
def kindSelector : Form :=
  oneOf [paren (seqs [opt (seqs [word Tag.KW_KIND, equals]), expr]), seqs [star_, int]]
/-- R705 integer-type-spec -/
def integerTypeSpec : Form := seqs [word Tag.KW_INTEGER, opt kindSelector]
/-- R723 char-length; the old forms with a name are allowed by the parsers -/
def charLength : Form := oneOf [paren typeParamValue, int, name]
/-- R722 length-selector -/
def lengthSelector : Form :=
  oneOf [paren (seqs [opt (seqs [word Tag.KW_LEN, equals]), typeParamValue]), seqs [star_, charLength]]
/-- R721 char-selector -/
def charSelector : Form :=
  oneOf [lengthSelector,
    paren (seqs [word Tag.KW_LEN, equals, typeParamValue, comma, word Tag.KW_KIND, equals, expr]),
    paren (seqs [typeParamValue, comma, opt (seqs [word Tag.KW_KIND, equals]), expr]),
    paren (seqs [word Tag.KW_KIND, equals, expr, opt (seqs [comma, word Tag.KW_LEN, equals, typeParamValue])])]
/-- R704 intrinsic-type-spec -/
def intrinsicTypeSpec : Form :=
  oneOf [integerTypeSpec,
    seqs [word Tag.KW_REAL, opt kindSelector],
    seqs [word Tag.KW_COMPLEX, opt kindSelector],
    seqs [word Tag.KW_LOGICAL, opt kindSelector],
    seqs [word Tag.KW_DOUBLE, word Tag.KW_PRECISION],
    word Tag.KW_DOUBLEPRECISION,
    seqs [word Tag.KW_CHARACTER, opt charSelector]]
/-- R755 type-param-spec -/
def typeParamSpec : Form := seqs [opt (seqs [name, equals]), typeParamValue]
/-- R754 derived-type-spec -/
def derivedTypeSpec : Form := seqs [name, opt (paren (list typeParamSpec))]
/-- R702 type-spec -/
def typeSpec : Form := oneOf [intrinsicTypeSpec, derivedTypeSpec]
/-- R703 declaration-type-spec -/
def declarationTypeSpec : Form :=
  oneOf [intrinsicTypeSpec,
    seqs [word Tag.KW_TYPE, paren intrinsicTypeSpec],
    seqs [word Tag.KW_TYPE, paren derivedTypeSpec],
    seqs [word Tag.KW_CLASS, paren derivedTypeSpec],
    seqs [word Tag.KW_CLASS, paren star_],
    seqs [word Tag.KW_TYPE, paren star_]]
/-- R807 access-spec -/
def accessSpec : Form := oneOf [word Tag.KW_PUBLIC, word Tag.KW_PRIVATE]
/-- R808 language-binding-spec -/
def languageBinding : Form :=
  seqs [word Tag.KW_BIND, paren (seqs [spelled ['c'], opt (seqs [comma, word Tag.KW_NAME, equals, expr])])]

/-- R727 derived-type-stmt, R728 type-attr-spec -/
def derivedTypeStmt : Form :=
  seqs [word Tag.KW_TYPE,
    opt (seqs [opt (seqs [comma, list (oneOf [word Tag.KW_ABSTRACT, accessSpec,
      seqs [word Tag.KW_BIND, paren (spelled ['c'])], seqs [word Tag.KW_EXTENDS, paren name]])]), dcolon]),
    name, opt (paren names)]
/-- R732 type-param-def-stmt, R733 type-param-decl -/
def typeParamDefStmt : Form :=
  seqs [integerTypeSpec, comma, oneOf [word Tag.KW_KIND, word Tag.KW_LEN], dcolon,
    list (seqs [name, opt (seqs [equals, expr])])]
/-- R749 type-bound-procedure-stmt, R750 type-bound-proc-decl, R752 bind-attr -/
def typeBoundProcedureStmt : Form :=
  let bindAttr := oneOf [accessSpec, word Tag.KW_DEFERRED, word Tag.KW_NON_OVERRIDABLE, word Tag.KW_NOPASS,
    seqs [word Tag.KW_PASS, opt (paren name)]]
  oneOf [
    seqs [word Tag.KW_PROCEDURE, opt (seqs [opt (seqs [comma, list bindAttr]), dcolon]),
      list (seqs [name, opt (seqs [arrow, name])])],
    seqs [word Tag.KW_PROCEDURE, paren name, comma, list bindAttr, dcolon, names]]
/-- R753 final-procedure-stmt -/
def finalProcedureStmt : Form := seqs [word Tag.KW_FINAL, opt dcolon, names]
/-- R760 enum-def-stmt -/
def enumDefStmt : Form := seqs [word Tag.KW_ENUM, comma, word Tag.KW_BIND, paren (spelled ['c'])]
/-- R761 enumerator-def-stmt -/
def enumeratorDefStmt : Form :=
  seqs [word Tag.KW_ENUMERATOR, opt dcolon, list (seqs [name, opt (seqs [equals, expr])])]

/-! ### Attributes (clause 8) -/

/-- R816 explicit-shape-spec -/
def explicitShape : Form := seqs [opt (seqs [expr, colon]), expr]
/-- R821 assumed-implied-spec -/
def assumedImplied : Form := seqs [opt (seqs [expr, colon]), star_]
/-- R815 array-spec: assumed-size-spec, explicit-shape-spec-list, assumed-shape-spec-list (which includes
deferred-shape-spec-list), implied-shape-spec, implied-shape-or-assumed-size-spec, assumed-rank-spec -/
def arraySpec : Form :=
  oneOf [seqs [list explicitShape, comma, assumedImplied],
    list explicitShape,
    list (seqs [opt expr, colon]),
    seqs [assumedImplied, comma, list assumedImplied],
    assumedImplied,
    word Tag.TK_DBL_DOT]
/-- R809 coarray-spec -/
def coarraySpec : Form :=
  oneOf [seqs [opt (seqs [list explicitShape, comma]), opt (seqs [expr, colon]), star_], list colon]
/-- R826 intent-spec -/
def intentSpec : Form :=
  oneOf [seqs [word Tag.KW_IN, word Tag.KW_OUT], word Tag.KW_IN, word Tag.KW_OUT, word Tag.KW_INOUT]
/-- R802 attr-spec -/
def attrSpec : Form :=
  oneOf [accessSpec, word Tag.KW_ALLOCATABLE, word Tag.KW_ASYNCHRONOUS,
    seqs [word Tag.KW_CODIMENSION, bracket coarraySpec], word Tag.KW_CONTIGUOUS,
    seqs [word Tag.KW_DIMENSION, paren arraySpec], word Tag.KW_EXTERNAL,
    seqs [word Tag.KW_INTENT, paren intentSpec], word Tag.KW_INTRINSIC, languageBinding, word Tag.KW_OPTIONAL,
    word Tag.KW_PARAMETER, word Tag.KW_POINTER, word Tag.KW_PROTECTED, word Tag.KW_SAVE, word Tag.KW_TARGET,
    word Tag.KW_VALUE, word Tag.KW_VOLATILE]
/-- R803 entity-decl, R805 initialization -/
def entityDecl : Form :=
  seqs [name, opt (paren arraySpec), opt (bracket coarraySpec), opt (seqs [star_, charLength]),
    opt (oneOf [seqs [equals, expr], seqs [arrow, expr]])]
/-- R801 type-declaration-stmt -/
def typeDeclarationStmt : Form :=
  seqs [declarationTypeSpec, opt (seqs [star (seqs [comma, attrSpec]), dcolon]), list entityDecl]
/-- The obsolescent form with a comma after `character*n` (R722, C725, C726). -/
def oldCharacterStmt : Form :=
  seqs [word Tag.KW_CHARACTER, star_, charLength, comma, list entityDecl]

/-- R1023 extended-intrinsic-op and R1003/R1023 defined-operator, without `.eqv.` and `.neqv.` which FLPR
leaves out. -/
def definedOperator : Form :=
  oneOf [word Tag.TK_DEF_OP,
    oneOf [word Tag.TK_POWER_OP, word Tag.TK_ASTERISK, word Tag.TK_SLASHF, word Tag.TK_PLUS, word Tag.TK_MINUS,
      word Tag.TK_CONCAT, word Tag.TK_REL_LT, word Tag.TK_REL_LE, word Tag.TK_REL_GT, word Tag.TK_REL_GE,
      word Tag.TK_NOT_OP, word Tag.TK_AND_OP, word Tag.TK_OR_OP, word Tag.TK_REL_EQ, word Tag.TK_REL_NE]]
/-- R1508 generic-spec, R1509 defined-io-generic-spec -/
def genericSpec : Form :=
  oneOf [name,
    seqs [word Tag.KW_OPERATOR, paren definedOperator],
    seqs [word Tag.KW_ASSIGNMENT, paren equals],
    seqs [word Tag.KW_READ, paren (word Tag.KW_FORMATTED)],
    seqs [word Tag.KW_READ, paren (word Tag.KW_UNFORMATTED)],
    seqs [word Tag.KW_WRITE, paren (word Tag.KW_FORMATTED)],
    seqs [word Tag.KW_WRITE, paren (word Tag.KW_UNFORMATTED)]]
/-- R827 access-stmt, R828 access-id -/
def accessStmt : Form := seqs [accessSpec, opt (seqs [opt dcolon, list (oneOf [genericSpec, name])])]
/-- R829 allocatable-stmt, R830 allocatable-decl -/
def allocatableStmt : Form :=
  seqs [word Tag.KW_ALLOCATABLE, opt dcolon, list (seqs [name, opt (paren arraySpec), opt (bracket coarraySpec)])]
/-- R831, R852, R856, R861, R862, R1511, R1519 and the like: a keyword and names -/
def namesStmt (kw : Int) : Form := seqs [word kw, opt dcolon, names]
/-- R833 bind-entity, R857 saved-entity, either way round -/
def common_ : Form := seqs [slash, name, slash]
/-- R832 bind-stmt -/
def bindStmt : Form := seqs [languageBinding, opt dcolon, list (oneOf [common_, name])]
/-- R834 codimension-stmt, R835 codimension-decl -/
def codimensionStmt : Form :=
  seqs [word Tag.KW_CODIMENSION, opt dcolon, list (seqs [name, bracket coarraySpec])]
/-- R848 dimension-stmt -/
def dimensionStmt : Form := seqs [word Tag.KW_DIMENSION, opt dcolon, list (seqs [name, paren arraySpec])]
/-- R849 intent-stmt -/
def intentStmt : Form := seqs [word Tag.KW_INTENT, paren intentSpec, opt dcolon, names]
/-- R851 parameter-stmt -/
def parameterStmt : Form := seqs [word Tag.KW_PARAMETER, paren (list (seqs [name, equals, expr]))]
/-- R853 pointer-stmt, R854 pointer-decl -/
def pointerStmt : Form := seqs [word Tag.KW_POINTER, opt dcolon, list (seqs [name, opt (paren (list colon))])]
/-- R856 save-stmt -/
def saveStmt : Form := seqs [word Tag.KW_SAVE, opt (seqs [opt dcolon, list (oneOf [name, common_])])]
/-- R859 target-stmt, R860 target-decl -/
def targetStmt : Form :=
  seqs [word Tag.KW_TARGET, opt dcolon, list (seqs [name, opt (paren arraySpec), opt (bracket coarraySpec)])]
/-- R868 namelist-stmt -/
def namelistStmt : Form :=
  seqs [word Tag.KW_NAMELIST, slash, name, slash, names, star (seqs [opt comma, slash, name, slash, names])]
/-- R873 common-stmt, R874 common-block-object; blank common is `//` or `/ /` -/
def commonStmt : Form :=
  let block := oneOf [seqs [slash, opt name, slash], word Tag.TK_CONCAT]
  let objects := list (seqs [name, opt (paren arraySpec)])
  seqs [word Tag.KW_COMMON, opt block, objects, star (seqs [opt comma, block, objects])]
/-- R863 implicit-stmt, R864 implicit-spec, R865 letter-spec.  A specification without kind selector is
written out a second time (FLPR has a rule of its own for it). -/
def letters : Form := paren (list (seqs [letter, opt (seqs [word Tag.TK_MINUS, letter])]))
def implicitStmt : Form :=
  let noKind := oneOf [word Tag.KW_INTEGER, word Tag.KW_REAL, word Tag.KW_COMPLEX, word Tag.KW_LOGICAL,
    seqs [word Tag.KW_DOUBLE, word Tag.KW_PRECISION], word Tag.KW_DOUBLEPRECISION, word Tag.KW_CHARACTER,
    seqs [word Tag.KW_TYPE, paren intrinsicTypeSpec], seqs [word Tag.KW_TYPE, paren derivedTypeSpec],
    seqs [word Tag.KW_CLASS, paren derivedTypeSpec], seqs [word Tag.KW_CLASS, paren star_],
    seqs [word Tag.KW_TYPE, paren star_]]
  oneOf [
    seqs [word Tag.KW_IMPLICIT, word Tag.KW_NONE,
      opt (paren (opt (list (oneOf [word Tag.KW_EXTERNAL, word Tag.KW_TYPE]))))],
    seqs [word Tag.KW_IMPLICIT,
      list (oneOf [seqs [declarationTypeSpec, letters], seqs [noKind, letters]])]]
/-- R867 import-stmt -/
def importStmt : Form :=
  oneOf [seqs [word Tag.KW_IMPORT, opt (seqs [opt dcolon, names])],
    seqs [word Tag.KW_IMPORT, comma, word Tag.KW_ONLY, colon, names],
    seqs [word Tag.KW_IMPORT, comma, oneOf [word Tag.KW_NONE, word Tag.KW_ALL]]]

/-! ### Control (clause 11) -/

/-- R1108 block-stmt -/
def blockStmt : Form := seqs [label, word Tag.KW_BLOCK]
/-- `end` and the kind of the construct, with its name or without (R1106, R1110, R1131, R1137, R1145, R1151,
R1155, R1048, R1056) -/
def endNamed (kw : Int) : Form := seqs [word Tag.KW_END, word kw, opt name]
/-- `end`, or `end` and the kind of the program unit, with its name or without (R1403, R1406, R1419, R1533,
R1537, R1540) -/
def endUnit (kw : Int) : Form := seqs [word Tag.KW_END, opt (seqs [word kw, opt name])]
/-- R1126 concurrent-control -/
def concurrentControl : Form := seqs [name, equals, expr, colon, expr, opt (seqs [colon, expr])]
/-- R1125 concurrent-header -/
def concurrentHeader : Form :=
  paren (seqs [opt (seqs [integerTypeSpec, dcolon]), list concurrentControl, opt (seqs [comma, expr])])
/-- R1123 loop-control, R1130 locality-spec -/
def loopControl : Form :=
  seqs [opt comma, oneOf [
    seqs [name, equals, expr, comma, expr, opt (seqs [comma, expr])],
    seqs [word Tag.KW_WHILE, paren expr],
    seqs [word Tag.KW_CONCURRENT, concurrentHeader, opt (star (oneOf [
      seqs [word Tag.KW_LOCAL, paren names], seqs [word Tag.KW_LOCAL_INIT, paren names],
      seqs [word Tag.KW_SHARED, paren names], seqs [word Tag.KW_DEFAULT, paren (word Tag.KW_NONE)]]))]]]
/-- R1121 label-do-stmt -/
def labelDoStmt : Form := seqs [label, word Tag.KW_DO, int, opt loopControl]
/-- R1122 nonlabel-do-stmt -/
def nonlabelDoStmt : Form := seqs [label, word Tag.KW_DO, opt loopControl]
/-- R1120 do-stmt -/
def doStmt : Form := oneOf [labelDoStmt, nonlabelDoStmt]
/-- R1133 cycle-stmt, R1156 exit-stmt -/
def named (kw : Int) : Form := seqs [word kw, opt name]
/-- R1135 if-then-stmt -/
def ifThenStmt : Form := seqs [label, word Tag.KW_IF, paren expr, word Tag.KW_THEN]
/-- R1136 else-if-stmt -/
def elseIfStmt : Form := seqs [word Tag.KW_ELSE, word Tag.KW_IF, paren expr, word Tag.KW_THEN, opt name]
/-- R1137 else-stmt -/
def elseStmt : Form := seqs [word Tag.KW_ELSE, opt name]
/-- R1141 select-case-stmt -/
def selectCaseStmt : Form := seqs [label, word Tag.KW_SELECT, word Tag.KW_CASE, paren expr]
/-- R1142 case-stmt, R1145 case-selector, R1146 case-value-range -/
def caseStmt : Form :=
  seqs [word Tag.KW_CASE, oneOf [
    paren (list (oneOf [seqs [expr, colon, expr], seqs [expr, colon], seqs [colon, expr], expr])),
    word Tag.KW_DEFAULT], opt name]
/-- R1150 select-rank-case-stmt, without the name at the end (`C63_violation_rank_name`) -/
def selectRankCaseStmt : Form :=
  seqs [word Tag.KW_RANK, oneOf [word Tag.KW_DEFAULT, paren star_, paren expr]]
/-- R1154 type-guard-stmt -/
def typeGuardStmt : Form :=
  oneOf [seqs [word Tag.KW_TYPE, word Tag.KW_IS, paren typeSpec, opt name],
    seqs [word Tag.KW_CLASS, word Tag.KW_IS, paren derivedTypeSpec, opt name],
    seqs [word Tag.KW_CLASS, word Tag.KW_DEFAULT, opt name]]
/-- R1157 goto-stmt -/
def gotoStmt : Form := seqs [word Tag.KW_GO, word Tag.KW_TO, int]
/-- R1158 computed-goto-stmt -/
def computedGotoStmt : Form := seqs [word Tag.KW_GO, word Tag.KW_TO, paren (list int), opt comma, expr]
/-- Arithmetic if, a deleted feature (B.2) -/
def arithmeticIfStmt : Form := seqs [word Tag.KW_IF, paren expr, int, comma, int, comma, int]
/-- R1160 stop-stmt, R1161 error-stop-stmt -/
def stopCode : List Form := [opt expr, opt (seqs [comma, word Tag.KW_QUIET, equals, expr])]
/-- R1043 where-construct-stmt -/
def whereConstructStmt : Form := seqs [label, word Tag.KW_WHERE, paren expr]
/-- R1047 masked-elsewhere-stmt -/
def maskedElsewhereStmt : Form := seqs [word Tag.KW_ELSE, word Tag.KW_WHERE, paren expr, opt name]
/-- R1051 forall-construct-stmt -/
def forallConstructStmt : Form := seqs [label, word Tag.KW_FORALL, concurrentHeader]

/-! ### Input and output (clauses 12 and 13) -/

/-- R1224, R1225, R1226, R1228: a unit, or specifications in parentheses -/
def positionStmt (kws : List Int) : Form := seqs [seqs (kws.map word), oneOf [expr, group]]

/-! ### Program units and procedures (clauses 14 and 15) -/

/-- R1409 use-stmt, R1411 rename, R1412 only -/
def useStmt : Form :=
  let rename := oneOf [seqs [name, arrow, name],
    seqs [word Tag.KW_OPERATOR, paren (word Tag.TK_DEF_OP), arrow, word Tag.KW_OPERATOR, paren (word Tag.TK_DEF_OP)]]
  let start := seqs [word Tag.KW_USE,
    opt (seqs [opt (seqs [comma, oneOf [word Tag.KW_INTRINSIC, word Tag.KW_NON_INTRINSIC]]), dcolon]), name]
  oneOf [seqs [start, opt (seqs [comma, list rename])],
    seqs [start, comma, word Tag.KW_ONLY, colon, opt (list (oneOf [rename, genericSpec, name]))]]
/-- R1503 interface-stmt -/
def interfaceStmt : Form :=
  oneOf [seqs [word Tag.KW_INTERFACE, opt genericSpec], seqs [word Tag.KW_ABSTRACT, word Tag.KW_INTERFACE]]
/-- R1504 end-interface-stmt -/
def endInterfaceStmt : Form := seqs [word Tag.KW_END, word Tag.KW_INTERFACE, opt genericSpec]
/-- R1506 procedure-stmt -/
def procedureStmt : Form := seqs [opt (word Tag.KW_MODULE), word Tag.KW_PROCEDURE, opt dcolon, names]
/-- R1510 generic-stmt, R751 type-bound-generic-stmt -/
def genericStmt : Form :=
  seqs [word Tag.KW_GENERIC, opt (seqs [comma, accessSpec]), dcolon, genericSpec, arrow, names]
/-- R1526 prefix, R1527 prefix-spec -/
def prefix_ : Form :=
  opt (star (oneOf [word Tag.KW_ELEMENTAL, word Tag.KW_IMPURE, word Tag.KW_MODULE, word Tag.KW_NON_RECURSIVE,
    word Tag.KW_PURE, word Tag.KW_RECURSIVE, declarationTypeSpec]))
/-- R1532 suffix -/
def suffix : Form :=
  oneOf [seqs [languageBinding, opt (seqs [word Tag.KW_RESULT, paren name])],
    seqs [word Tag.KW_RESULT, paren name, opt languageBinding]]
/-- R1530 function-stmt; the parentheses may be left out -/
def functionStmt : Form := seqs [prefix_, word Tag.KW_FUNCTION, name, opt (paren (opt names)), opt suffix]
/-- R1536 dummy-arg -/
def dummyArgs : Form := opt (list (oneOf [name, star_]))
/-- R1535 subroutine-stmt -/
def subroutineStmt : Form :=
  seqs [prefix_, word Tag.KW_SUBROUTINE, name, opt (paren dummyArgs), opt languageBinding]
/-- R1541 entry-stmt -/
def entryStmt : Form := seqs [word Tag.KW_ENTRY, name, opt (seqs [paren dummyArgs, opt suffix])]

/-! ### Tables -/

/-- The forms of statements, by the tag given to `parse_stmt_dispatch`. -/
def simpleForms : List (Int × Form) :=
  [(Tag.SG_ACCESS_STMT, accessStmt),
   (Tag.SG_ASYNCHRONOUS_STMT, namesStmt Tag.KW_ASYNCHRONOUS),
   (Tag.SG_ARITHMETIC_IF_STMT, arithmeticIfStmt),
   (Tag.SG_BACKSPACE_STMT, positionStmt [Tag.KW_BACKSPACE]),
   (Tag.SG_BIND_STMT, bindStmt),
   (Tag.SG_BINDING_PRIVATE_STMT, word Tag.KW_PRIVATE),
   (Tag.SG_BLOCK_STMT, blockStmt),
   (Tag.SG_CASE_STMT, caseStmt),
   (Tag.SG_CLOSE_STMT, seqs [word Tag.KW_CLOSE, group]),
   (Tag.SG_CODIMENSION_STMT, codimensionStmt),
   (Tag.SG_COMPUTED_GOTO_STMT, computedGotoStmt),
   (Tag.SG_CONTAINS_STMT, word Tag.KW_CONTAINS),
   (Tag.SG_CONTINUE_STMT, word Tag.KW_CONTINUE),
   (Tag.SG_CYCLE_STMT, named Tag.KW_CYCLE),
   (Tag.SG_DERIVED_TYPE_STMT, derivedTypeStmt),
   (Tag.SG_DO_STMT, doStmt),
   (Tag.SG_ELSE_IF_STMT, elseIfStmt),
   (Tag.SG_ELSE_STMT, elseStmt),
   (Tag.SG_ELSEWHERE_STMT, seqs [word Tag.KW_ELSE, word Tag.KW_WHERE, opt name]),
   (Tag.SG_END_ASSOCIATE_STMT, endNamed Tag.KW_ASSOCIATE),
   (Tag.SG_END_BLOCK_STMT, endNamed Tag.KW_BLOCK),
   (Tag.SG_END_DO_STMT, endNamed Tag.KW_DO),
   (Tag.SG_END_ENUM_STMT, seqs [word Tag.KW_END, word Tag.KW_ENUM]),
   (Tag.SG_END_FORALL_STMT, endNamed Tag.KW_FORALL),
   (Tag.SG_END_FUNCTION_STMT, endUnit Tag.KW_FUNCTION),
   (Tag.SG_END_IF_STMT, endNamed Tag.KW_IF),
   (Tag.SG_END_INTERFACE_STMT, endInterfaceStmt),
   (Tag.SG_END_MODULE_STMT, endUnit Tag.KW_MODULE),
   (Tag.SG_END_MP_SUBPROGRAM_STMT, endUnit Tag.KW_PROCEDURE),
   (Tag.SG_END_PROGRAM_STMT, endUnit Tag.KW_PROGRAM),
   (Tag.SG_END_SELECT_STMT, endNamed Tag.KW_SELECT),
   (Tag.SG_END_SELECT_RANK_STMT, endNamed Tag.KW_SELECT),
   (Tag.SG_END_SELECT_TYPE_STMT, endNamed Tag.KW_SELECT),
   (Tag.SG_END_SUBMODULE_STMT, endUnit Tag.KW_SUBMODULE),
   (Tag.SG_END_SUBROUTINE_STMT, endUnit Tag.KW_SUBROUTINE),
   (Tag.SG_END_TYPE_STMT, endNamed Tag.KW_TYPE),
   (Tag.SG_END_WHERE_STMT, endNamed Tag.KW_WHERE),
   (Tag.SG_ENDFILE_STMT, positionStmt [Tag.KW_END, Tag.KW_FILE]),
   (Tag.SG_ENUM_DEF_STMT, enumDefStmt),
   (Tag.SG_ENUMERATOR_DEF_STMT, enumeratorDefStmt),
   (Tag.SG_ENTRY_STMT, entryStmt),
   (Tag.SG_ERROR_STOP_STMT, seqs ([word Tag.KW_ERROR, word Tag.KW_STOP] ++ stopCode)),
   (Tag.SG_EXIT_STMT, named Tag.KW_EXIT),
   (Tag.SG_EXTERNAL_STMT, namesStmt Tag.KW_EXTERNAL),
   (Tag.SG_FAIL_IMAGE_STMT, seqs [word Tag.KW_FAIL, word Tag.KW_IMAGE]),
   (Tag.SG_FLUSH_STMT, positionStmt [Tag.KW_FLUSH]),
   (Tag.SG_FORALL_CONSTRUCT_STMT, forallConstructStmt),
   (Tag.SG_FORMAT_STMT, seqs [word Tag.KW_FORMAT, group]),
   (Tag.SG_FINAL_PROCEDURE_STMT, finalProcedureStmt),
   (Tag.SG_GENERIC_STMT, genericStmt),
   (Tag.SG_GOTO_STMT, gotoStmt),
   (Tag.SG_IF_THEN_STMT, ifThenStmt),
   (Tag.SG_INTENT_STMT, intentStmt),
   (Tag.SG_INTRINSIC_STMT, namesStmt Tag.KW_INTRINSIC),
   (Tag.SG_LABEL_DO_STMT, labelDoStmt),
   (Tag.SG_MASKED_ELSEWHERE_STMT, maskedElsewhereStmt),
   (Tag.SG_MODULE_STMT, seqs [word Tag.KW_MODULE, name]),
   (Tag.SG_MP_SUBPROGRAM_STMT, seqs [word Tag.KW_MODULE, word Tag.KW_PROCEDURE, name]),
   (Tag.SG_NAMELIST_STMT, namelistStmt),
   (Tag.SG_NONLABEL_DO_STMT, nonlabelDoStmt),
   (Tag.SG_OPEN_STMT, seqs [word Tag.KW_OPEN, group]),
   (Tag.SG_OPTIONAL_STMT, namesStmt Tag.KW_OPTIONAL),
   (Tag.SG_PARAMETER_STMT, parameterStmt),
   (Tag.SG_POINTER_STMT, pointerStmt),
   (Tag.SG_PRIVATE_COMPONENTS_STMT, word Tag.KW_PRIVATE),
   (Tag.SG_PROCEDURE_STMT, procedureStmt),
   (Tag.SG_PROGRAM_STMT, seqs [word Tag.KW_PROGRAM, name]),
   (Tag.SG_PROTECTED_STMT, namesStmt Tag.KW_PROTECTED),
   (Tag.SG_RETURN_STMT, seqs [word Tag.KW_RETURN, opt expr]),
   (Tag.SG_REWIND_STMT, positionStmt [Tag.KW_REWIND]),
   (Tag.SG_SAVE_STMT, saveStmt),
   (Tag.SG_SELECT_CASE_STMT, selectCaseStmt),
   (Tag.SG_SELECT_RANK_CASE_STMT, selectRankCaseStmt),
   (Tag.SG_SEQUENCE_STMT, word Tag.KW_SEQUENCE),
   (Tag.SG_STOP_STMT, seqs (word Tag.KW_STOP :: stopCode)),
   (Tag.SG_TYPE_BOUND_GENERIC_STMT, genericStmt),
   (Tag.SG_TYPE_BOUND_PROCEDURE_STMT, typeBoundProcedureStmt),
   (Tag.SG_TYPE_PARAM_DEF_STMT, typeParamDefStmt),
   (Tag.SG_VALUE_STMT, namesStmt Tag.KW_VALUE),
   (Tag.SG_VOLATILE_STMT, namesStmt Tag.KW_VOLATILE),
   (Tag.SG_WHERE_CONSTRUCT_STMT, whereConstructStmt)]

/-- The same, for statements with array specifications and the `use` statement. -/
def arrayForms : List (Int × Form) :=
  [(Tag.SG_ALLOCATABLE_STMT, allocatableStmt),
   (Tag.SG_COMMON_STMT, commonStmt),
   (Tag.SG_DIMENSION_STMT, dimensionStmt),
   (Tag.SG_TARGET_STMT, targetStmt),
   (Tag.SG_USE_STMT, useStmt)]

/-- The names of the intrinsic types; the standard forbids derived types with these names (7.5.2.1, C729). -/
def intrinsicTypeNames : List Int :=
  [Tag.KW_INTEGER, Tag.KW_REAL, Tag.KW_COMPLEX, Tag.KW_LOGICAL, Tag.KW_DOUBLE, Tag.KW_DOUBLEPRECISION, Tag.KW_CHARACTER]

/-- Forms with type specifications. -/
def typedForms : List (Int × Form) :=
  [(Tag.SG_FUNCTION_STMT, functionStmt),
   (Tag.SG_SUBROUTINE_STMT, subroutineStmt),
   (Tag.SG_TYPE_GUARD_STMT, typeGuardStmt)]

end Std

/-- The form with no name spelled like one of these keywords. -/
def Form.but (ex : List Int) : Form → Form
  | .name => .nameBut ex
  | .seq a b => .seq (a.but ex) (b.but ex)
  | .alt a b => .alt (a.but ex) (b.but ex)
  | .star a => .star (a.but ex)
  | f => f

end Spec
end FLPR
