import Verif.StmtParser.ParserSpec
/-!
# Specification: tokens and streams that parsers should not tell apart (C75)
-/

namespace FLPR
namespace Spec
open SP

/-- The same tag, and the same text but for the case of letters.  The line, the column, the place in the layout and the
spacing are not mentioned. -/
structure EquivTok (t t' : Tok) : Prop where
  tag : t'.token = t.token
  text : t'.text.map lowChar = t.text.map lowChar
  /-- the cached lower case text is up to date, or both are not -/
  lower : t'.lowerText.1 = t.lowerText.1

/-- Streams at the same place of lines with such tokens. -/
structure EquivStrm (s s' : Strm) : Prop where
  all : List.Forall₂ EquivTok s.all s'.all
  lo : s'.lo = s.lo
  hi : s'.hi = s.hi
  pos : s'.pos = s.pos

/-- The registered extension parsers do not tell such streams apart either. -/
def Indifferent (x : Exts) : Prop :=
  ∀ e ∈ x.action ++ x.other, ∀ s s', EquivStrm s s' → e s' = e s

/-- Both fail in the same way, or both succeed with results in the relation. -/
def BothWays {ε α β : Type} (Q : α → β → Prop) : Except ε α → Except ε β → Prop
  | .ok a, .ok b => Q a b
  | .error e, .error e' => e' = e
  | _, _ => False

/-- The same tree, and streams left at the same place. -/
def SameFind (o o' : Option SNode × Strm) : Prop := o'.1 = o.1 ∧ EquivStrm o.2 o'.2

end Spec
end FLPR
