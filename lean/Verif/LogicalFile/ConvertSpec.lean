import Verif.LogicalFile.Convert
import Verif.FileLine.Spec
/-!
# Specification vocabulary for `convert_fixed_to_free`
-/

namespace FLPR.Spec

/-- The statement label shown on a line; 0 when there is none. -/
def lineLabel (f : FileLine) : Nat :=
  if f.bits.label then digitsVal (f.left_txt.filter isDigit) else 0

/-- The two lines hold the same thing: statement text, label and kind. -/
def SameContent (f g : FileLine) : Prop :=
  g.main_txt = f.main_txt ∧ lineLabel g = lineLabel f ∧ g.isFortran = f.isFortran ∧
  g.bits.comment = f.bits.comment ∧ g.bits.blank = f.bits.blank ∧
  g.bits.preprocessor = f.bits.preprocessor ∧ g.bits.incl = f.bits.incl ∧
  g.bits.flpr_pp = f.bits.flpr_pp

/-- Some token of the line begins before line `i` of the layout and ends on it or after it. -/
def SplitBefore (l : LLine) (i : Nat) : Prop :=
  ∃ t ∈ l.frags, ∃ s, t.span = some s ∧ s.bl < (i : Int) ∧ (i : Int) ≤ s.el

/-- All tokens have positions, and these go forward through the lines. -/
def TokensInOrder (ts : List Tok) : Prop :=
  (∀ t ∈ ts, ∃ s, t.span = some s ∧ 0 ≤ s.bl ∧ s.bl ≤ s.el) ∧
  ts.Pairwise (fun t u => ∀ a b, t.span = some a → u.span = some b → a.el ≤ b.bl)

/-- The quote that is open at the end of the line before line `i`. -/
def openBefore (layout : List FileLine) : Nat → Char
  | 0 => NUL
  | i + 1 => ((layout[i]?).map (·.open_delim)).getD NUL

/-- What a fixed-format statement has to avoid to survive the conversion. -/
structure ConvertibleStmt (l : LLine) : Prop where
  /-- no comment or blank line between the lines of the statement -/
  fortran : ∀ f ∈ l.layout, f.isFortran = true
  /-- the statement does not begin with a continuation line -/
  first : ∀ f ∈ l.layout.head?, f.bits.continuation = false
  /-- every token has a position: no fused keyword -/
  tokens : TokensInOrder l.frags
  /-- no ampersand outside character strings -/
  noAmp : ∀ i f, l.layout[i]? = some f → ∀ k,
    quoteState (ctxOf (openBefore l.layout i)) (f.main_txt.take k) = none →
    f.main_txt[k]? ≠ some '&'
  /-- the statement does not begin with a digit -/
  noDigit : ∀ f ∈ l.layout.head?, ∀ c ∈ f.main_txt.head?, isDigit c = false
  /-- no continuation line that reads like an include line -/
  noIncl : ∀ i f, 0 < i → l.layout[i]? = some f → ¬ SplitBefore l i → ¬ startsInclude f.main_txt
  /-- a token is only split where no blanks stand between its parts -/
  noSpace : ∀ i f, l.layout[i]? = some f → SplitBefore l i → f.left_space = []
  /-- a string that is continued is one token -/
  strings : ∀ i, 0 < i → i < l.layout.length → openBefore l.layout i ≠ NUL → SplitBefore l i
  /-- no text past the last column behind an open string -/
  noTail : ∀ f ∈ l.layout, f.open_delim ≠ NUL → f.right_txt = []
  /-- the statement does not end inside a string, nor with an ampersand past the last column -/
  closed : ∀ f ∈ l.layout.getLast?, f.open_delim = NUL ∧ (body f.right_txt).head? ≠ some '&'

/-- What a fixed-format logical line has to avoid to survive the conversion. -/
def Convertible (l : LLine) : Prop :=
  (∀ f ∈ l.layout, f.isTrivial = true ∧ (f.bits.blank = true → body f.left_txt = [])) ∨
  (∃ f, l.layout = [f] ∧ f.isFortran = false ∧ f.isTrivial = false ∧
    (f.bits.flpr_pp = true → (body f.left_txt).head? = some '!')) ∨
  ConvertibleStmt l

/-- The text of a fixed-format line: ASCII, no white space but blanks and tabs; the text of a Fortran
line starts inside the used columns. -/
structure PlainFixed (lastCol : Int) (raw : Str) : Prop where
  ascii : AsciiStr raw
  white : ∀ c ∈ raw, isSpace c = true → c = ' ' ∨ c = '\t'
  text : ∀ o, fixedCat o (detab raw) = .fortran → HasText lastCol (detab raw)

/-- What the conversion of a line keeps and what it establishes. -/
structure ConvertedLine (f g : FileLine) : Prop where
  notFixed : g.bits.fixed_format = false
  main : g.main_txt = f.main_txt
  openDelim : g.open_delim = f.open_delim
  linenum : g.linenum = f.linenum
  label : g.bits.label = f.bits.label
  fortran : g.isFortran = f.isFortran
  comment : f.bits.comment = true → f.isFortran = false → g.bits.comment = true ∧
    ∃ t, g.left_txt = '!' :: t ∨ g.left_txt = ' ' :: t
  other : f.isFortran = false → f.bits.comment = false →
    g = { f with bits := { f.bits with fixed_format := false } }
  /-- the text to the right is kept, possibly behind an ampersand -/
  right : ∃ w, f.right_space ++ f.right_txt = w ++ g.right_space ++ f.right_txt ∧
    (g.right_txt = f.right_txt ∨ (f.right_txt = [] ∧ g.right_txt = ['&']) ∨
      g.right_txt = '&' :: ' ' :: f.right_txt)

end FLPR.Spec
