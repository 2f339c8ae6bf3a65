import Verif.StmtParser.FormFlat
/-!
# The grammar and the standard forms

Each line of the tables is compared with the grammar, in full: the rule for the tag has the form given,
ends at the end of the statement, and never commits itself to a choice that loses a word of the form.
-/

namespace FLPR
namespace SP
open Spec

theorem simple_form : Std.simpleForms.all (fun q => rowForm q.1 q.2) = true := by decide +kernel
theorem simple_takes : Std.simpleForms.all (fun q => rowTakes [] q.1) = true := by decide +kernel
theorem array_form : Std.arrayForms.all (fun q => rowForm q.1 q.2) = true := by decide +kernel
theorem array_takes : Std.arrayForms.all (fun q => rowTakes [] q.1) = true := by decide +kernel
theorem typed_form : Std.typedForms.all (fun q => rowForm q.1 q.2) = true := by decide +kernel
theorem typed_takes : Std.typedForms.all (fun q => rowTakes Std.intrinsicTypeNames q.1) = true := by decide +kernel

theorem implicit_form : rowForm Tag.SG_IMPLICIT_STMT Std.implicitStmt = true := by decide +kernel
theorem declaration_form : rowForm Tag.SG_TYPE_DECLARATION_STMT
    (.oneOf [Std.typeDeclarationStmt, Std.oldCharacterStmt]) = true := by decide +kernel

/-- The first choice of a form. -/
def firstF : PForm → PForm
  | .alt a _ => a
  | F => F

/-- The first choice of the declaration rule has this form and takes all its words. -/
def declarationTakes : Bool :=
  match formFor Tag.SG_TYPE_DECLARATION_STMT with
  | none => false
  | some F => sameForm (firstF F).erase Std.typeDeclarationStmt &&
      chk Std.intrinsicTypeNames ⟨4, true⟩ 60 (firstF F) [.stop]

theorem declaration_takes : declarationTakes = true := by decide +kernel

end SP
end FLPR
