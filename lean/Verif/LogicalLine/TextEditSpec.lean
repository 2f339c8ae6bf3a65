import Verif.LogicalLine.SplitText
import Verif.LogicalLine.ReformatLemmas
/-!
# Specification of text edits (C61)
-/

namespace FLPR.Spec

/-- The layouts differ in the statement text of one physical line only: `new` is inserted at a column. -/
def Inserted (lay lay' : List FileLine) (k c : Nat) (new : Str) : Prop :=
  ∃ f, lay[k]? = some f ∧ c ≤ f.main_txt.length ∧
    lay' = lay.set k { f with main_txt := f.main_txt.take c ++ new ++ f.main_txt.drop c }

/-- The statement text with everything from offset `a` to offset `b` replaced. -/
def Spliced (text : Str) (a b : Nat) (new : Str) : Str := text.take a ++ new ++ text.drop b

/-- Every Fortran line but the last one says that the statement goes on, and the last one does not. -/
def Chained (lay : List FileLine) : Prop :=
  (∀ f ∈ (lay.filter (·.isFortran)).dropLast, f.bits.continued = true) ∧
  (∀ f ∈ (lay.filter (·.isFortran)).getLast?, f.bits.continued = false)

/-- The line has no comment at its end; if it is continued, the text at the right is a continuation mark. -/
def NoComment (f : FileLine) : Prop :=
  if f.bits.continued then ∃ r, f.right_txt = '&' :: r ∧ '!' ∉ r else '!' ∉ f.right_txt

/-- Nothing but the statement text and the continuation of the line differs. -/
def SameAround (f g : FileLine) : Prop :=
  g.left_txt = f.left_txt ∧ g.left_space = f.left_space ∧ trailing g = trailing f ∧
  { g.bits with continued := f.bits.continued } = f.bits

/-- The recorded end column is that behind the text of the token. -/
def RightEnd (t : Tok) : Prop := EndRight t ∧ ∀ s, t.span = some s → 0 ≤ s.ec

/-- The line where the range of tokens starts and the line where it ends are Fortran lines; the Fortran lines
in between have no comment; the other lines in between have no statement text. -/
def RangeLines (lay : List FileLine) (s e : Span) : Prop :=
  (∀ f, lay[s.bl.toNat]? = some f → f.isFortran = true) ∧
  (∀ f, lay[e.el.toNat]? = some f → f.isFortran = true) ∧
  (∀ k f, s.bl.toNat < k → k < e.el.toNat → lay[k]? = some f →
    (f.isFortran = true → NoComment f) ∧ (f.isFortran = false → f.main_txt = []))

/-- What stays on the last line of a range: nothing but blanks, in which case that line has no comment, or some
text. -/
def LastLine (lay : List FileLine) (e : Span) : Prop :=
  ∀ f, lay[e.el.toNat]? = some f → squeeze (f.main_txt.drop e.ec.toNat) = [] → NoComment f

/-- On its line, the range is at the start or not all that there is. -/
def NotAlone (lay : List FileLine) (s e : Span) : Prop :=
  s.bc = 0 ∨ ∀ f, lay[s.bl.toNat]? = some f →
    squeeze (f.main_txt.take s.bc.toNat ++ f.main_txt.drop e.ec.toNat) ≠ []

end FLPR.Spec
