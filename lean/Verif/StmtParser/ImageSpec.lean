import Verif.StmtParser.FormSpec
/-! # Specification: lines without image selectors -/

namespace FLPR
namespace Spec
open SP

/-- A name or a closing parenthesis: what an image selector may stand behind. -/
def BeforeImage (t : Int) : Prop := NameTag t ∨ t = Tag.TK_PARENR

instance (t : Int) : Decidable (BeforeImage t) := by unfold BeforeImage; infer_instance

/-- The line has no coindexed object, as in `a[2]` or `b(i)[2]`: no bracket opens right behind a name or a
closing parenthesis.  Array constructors as in `[1, 2]` are not concerned. -/
def NoImages (l : List Tok) : Prop :=
  ∀ i a b, l[i]? = some a → l[i + 1]? = some b → BeforeImage a.token → b.token ≠ Tag.TK_BRACKETL

end Spec
end FLPR
