import Verif.LogicalFile.Scan
/-!
# What a scan should do (specification for C06, C07, C46)
-/

namespace FLPR.Spec
open FLPR

/-- The text ends in a backslash, up to blanks and tabs. -/
def EndsBackslash (s : Str) : Prop :=
  ∃ a w, s = a ++ '\\' :: w ∧ ∀ c ∈ w, c = ' ' ∨ c = '\t'

/-- `fl` is cut into consecutive non-empty chunks, the `i`-th of which gives the `i`-th group.
`P` relates a chunk, its group and the lines after the chunk. -/
inductive Cut (P : List FileLine → Group → List FileLine → Prop) :
    List FileLine → List Group → Prop
  | nil : Cut P [] []
  | cons {chunk : List FileLine} {g : Group} {rest : List FileLine} {gs : List Group} :
      chunk ≠ [] → P chunk g rest → Cut P rest gs → Cut P (chunk ++ rest) (g :: gs)

/-- A block of comment and blank lines, as long as possible. -/
def TrivialBlock (chunk : List FileLine) (g : Group) (rest : List FileLine) : Prop :=
  (∀ x ∈ chunk, x.isTrivial = true) ∧ (∀ x, rest.head? = some x → x.isTrivial = false) ∧
  g = { layout := chunk }

/-- A block of literal lines, as long as possible. -/
def LiteralBlock (chunk : List FileLine) (g : Group) (rest : List FileLine) : Prop :=
  (∀ x ∈ chunk, x.bits.flpr_lit = true ∧ (chunk.head? = some x → x.isTrivial = false)) ∧
  (∀ x, rest.head? = some x → x.bits.flpr_lit = false) ∧
  g = { layout := chunk, cat := .literal }

/-- A preprocessor, include or FLPR directive line and the lines that continue it: every line but
the last ends in a backslash, and the last one does not (or is the last of the file).  The lines
that continue it become preprocessor lines, whatever they looked like. -/
def DirectiveBlock (chunk : List FileLine) (g : Group) (rest : List FileLine) : Prop :=
  ∃ f cs, chunk = f :: cs ∧ f.isTrivial = false ∧ f.bits.flpr_lit = false ∧
    (f.bits.preprocessor = true ∨ f.bits.flpr_pp = true ∨ f.bits.incl = true) ∧
    (∀ x ∈ chunk.dropLast, EndsBackslash x.print) ∧
    (rest ≠ [] → ∀ x, chunk.getLast? = some x → ¬ EndsBackslash x.print) ∧
    g.layout = f :: cs.map (·.makePreprocessor) ∧ g.needs_reformat = false ∧
    (f.bits.flpr_pp = true → g.cat = .flpr_pp) ∧
    (f.bits.flpr_pp = false → f.bits.incl = true → g.cat = .incl) ∧
    (f.bits.flpr_pp = false → f.bits.incl = false → g.cat = .macro)

/-- A free-format statement starts at a Fortran line and ends at the first line that is neither
trivial nor continued.  If there is no such line in the rest of the file, it is one line long. -/
def FreeStatement (chunk : List FileLine) (g : Group) (rest : List FileLine) : Prop :=
  ∃ f cs, chunk = f :: cs ∧ f.isFortran = true ∧ g = { layout := chunk } ∧
    (((∀ x ∈ chunk.dropLast, x.isTrivial = true ∨ x.bits.continued = true) ∧
      (∀ x, chunk.getLast? = some x → x.isTrivial = false ∧ x.bits.continued = false)) ∨
     (cs = [] ∧ ∀ x ∈ f :: rest, x.isTrivial = true ∨ x.bits.continued = true))

/-- A fixed-format statement starts at a Fortran line, contains only continuation lines and trivial
lines after it, ends at its last continuation line, and the next line that is not trivial is no
continuation line. -/
def FixedStatement (chunk : List FileLine) (g : Group) (rest : List FileLine) : Prop :=
  ∃ f cs, chunk = f :: cs ∧ f.isFortran = true ∧
    g = { layout := chunk, needs_reformat := true } ∧
    (∀ x ∈ cs, x.bits.continuation = true ∨ x.isTrivial = true) ∧
    (∀ x, cs.getLast? = some x → x.bits.continuation = true) ∧
    (∀ x, (rest.dropWhile (fun y => y.isTrivial && !y.bits.continuation)).head? = some x →
      x.bits.continuation = false)

/-- The groups of a free-format file. -/
def FreeChunk (chunk : List FileLine) (g : Group) (rest : List FileLine) : Prop :=
  TrivialBlock chunk g rest ∨ LiteralBlock chunk g rest ∨ DirectiveBlock chunk g rest ∨
    FreeStatement chunk g rest

/-- The groups of a fixed-format file. -/
def FixedChunk (chunk : List FileLine) (g : Group) (rest : List FileLine) : Prop :=
  TrivialBlock chunk g rest ∨ DirectiveBlock chunk g rest ∨ FixedStatement chunk g rest

/-- The group is one kind of thing: comments, literal text, directives, or a statement (possibly
with comments between its lines). -/
def Homogeneous (g : Group) : Prop :=
  (∀ x ∈ g.layout, x.isTrivial = true) ∨
  (∀ x ∈ g.layout, x.bits.flpr_lit = true) ∨
  (∀ x ∈ g.layout, x.bits.preprocessor = true ∨ x.bits.flpr_pp = true ∨ x.bits.incl = true) ∨
  (∀ x ∈ g.layout, x.isFortran = true ∨ x.isTrivial = true)

end FLPR.Spec
