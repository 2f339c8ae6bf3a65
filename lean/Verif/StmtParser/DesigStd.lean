import Verif.StmtParser.FormStd
import Verif.StmtParser.ImageSpec
/-!
# Forms with designators

The forms of the standard for statements that begin with a variable or a procedure designator, with
expressions opaque as in `FormStd`, and without image selectors (see `NoImages`).
-/

namespace FLPR
namespace Spec
open SP

namespace Std
open Form

def percent : Form := word Tag.TK_PERCENT

/-- R920 section-subscript, R921 subscript-triplet -/
def sectionSubscript : Form := oneOf [seqs [opt expr, colon, opt expr, opt (seqs [colon, expr])], expr]
def sections : Form := paren (list sectionSubscript)
/-- R912 part-ref -/
def partRef : Form := seqs [name, opt sections]
/-- R911 data-ref -/
def dataRef : Form := seqs [partRef, star (seqs [percent, partRef])]
/-- R910 substring-range -/
def substringRange : Form := seqs [opt expr, colon, opt expr]
/-- R901 designator: R911 data-ref, and R908 substring -/
def designator : Form := seqs [dataRef, opt (paren substringRange)]
/-- R1522 procedure-designator: a name, or the name of a component or binding of a data-ref -/
def procedureDesignator : Form := seqs [star (seqs [partRef, percent]), name]
/-- R1523 actual-arg-spec, without alternate returns -/
def actualArgSpec : Form := seqs [opt (seqs [name, equals]), expr]
def arguments : Form := paren (opt (list actualArgSpec))

/-- R1032 assignment-stmt, the variable given by a designator -/
def assignmentStmt : Form := seqs [designator, equals, expr]
/-- R1521 call-stmt -/
def callStmt : Form := seqs [word Tag.KW_CALL, procedureDesignator, opt arguments]
/-- `where ( mask )`, the first statement of a where construct without a name -/
def whereMask : Form := seqs [word Tag.KW_WHERE, paren expr]
/-- R1045 where-stmt -/
def whereStmt : Form := seqs [word Tag.KW_WHERE, paren expr, assignmentStmt]
/-- R913 structure-component, the last part without subscripts -/
def structureComponent : Form := seqs [partRef, percent, star (seqs [partRef, percent]), name]
/-- R938 nullify-stmt, R939 pointer-object -/
def nullifyStmt : Form := seqs [word Tag.KW_NULLIFY, paren (list (oneOf [structureComponent, name]))]

end Std

/-- A whole statement: the stream is at its first token, and its parentheses and brackets are properly
nested. -/
structure WholeStmt (s : Strm) : Prop where
  start : s.pos = s.lo
  pos_hi : s.pos ≤ s.hi
  hi_len : s.hi ≤ s.all.length
  tags : ∀ t ∈ tagsOf s, LexerTag t
  nested : WellNested ((restOf s).map (·.token))

end Spec
end FLPR
