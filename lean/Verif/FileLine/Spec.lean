import Verif.Base
/-!
# Specification of physical-line analysis

Written from the Fortran standard's and the header's description, without using the model's
helpers: categories of lines, the quote automaton, break positions.
-/

namespace FLPR.Spec

/-- The seven categories of a line. -/
inductive Cat where
  | blank | comment | preprocessor | incl | directive | literal | fortran
  deriving DecidableEq, Repr

/-- Blank, tab or carriage return. -/
def isBlankChar (c : Char) : Bool := c == ' ' || c == '\t' || c == '\r'

/-- The line without its leading blanks. -/
def body (raw : Str) : Str := raw.dropWhile isBlankChar

/-- Number of leading blanks. -/
def indent (raw : Str) : Nat := (raw.takeWhile isBlankChar).length

/-- `INCLUDE`, in any case, followed by blanks and a quote (section 6.4 of the standard). -/
def startsInclude (s : Str) : Prop :=
  (s.take 7).map lowChar = "include".toList ∧
  ∃ q rest, (s.drop 7).dropWhile (· == ' ') = q :: rest ∧ (q = '\'' ∨ q = '"')

/-- `!#flpr` marker (the first character may be any comment character). -/
def isMarker (s : Str) : Prop := (s.drop 1).take 5 = "#flpr".toList

/-- `!#flpr??? literal` marker. -/
def isLiteralMarker (s : Str) : Prop :=
  isMarker s ∧ (s.drop 9).take 8 = " literal".toList

open Classical in
/-- The category of a free-format line. -/
noncomputable def lineCat (inLit : Bool) (raw : Str) : Cat :=
  if inLit then .literal
  else if body raw = [] then .blank
  else if raw.head? = some '#' then .preprocessor
  else if startsInclude (body raw) then .incl
  else if (body raw).head? = some '!' then
    if isLiteralMarker (body raw) then .literal
    else if isMarker (body raw) then .directive
    else .comment
  else .fortran

/-- Number of characters of a leading label of `s` that the free-format analysis accepts. -/
def labelLen (s : Str) : Nat := ((s.take 6).takeWhile isDigit).length

/-- The statement part of a free-format Fortran line: what follows a label and its blanks (labels
only occur when the previous line is not continued), or what follows a leading ampersand, or the
whole line from its first non-blank. -/
def stmtText (prevCont : Bool) (raw : Str) : Str :=
  match body raw with
  | [] => []
  | c :: rest =>
    if prevCont = false ∧ isDigit c = true then
      ((c :: rest).drop (labelLen (c :: rest))).dropWhile isSpace
    else if c = '&' then rest
    else c :: rest

/-- One step of the quote automaton: `none` is outside every character context. -/
def quoteStep (ctx : Option Char) (c : Char) : Option Char :=
  match ctx with
  | none => if c = '\'' ∨ c = '"' then some c else none
  | some q => if c = q then none else some q

/-- The character context after reading `s`. -/
def quoteState (ctx : Option Char) (s : Str) : Option Char := s.foldl quoteStep ctx

/-- The code's encoding of a context as a character. -/
def ctxOf (d : Char) : Option Char := if d = NUL then none else some d

/-- Position `k` of the statement text `s` starts a trailing comment or continuation:
outside a character context at `!` or `&`, or inside one at an `&` followed only by
whitespace. -/
def IsBreak (ctx : Option Char) (s : Str) (k : Nat) : Prop :=
  (quoteState ctx (s.take k) = none ∧ (s[k]? = some '!' ∨ s[k]? = some '&')) ∨
  (quoteState ctx (s.take k) ≠ none ∧ s[k]? = some '&' ∧ ∀ c ∈ s.drop (k + 1), isSpace c = true)

/-- In fixed form only a `!` outside a character context starts trailing text. -/
def IsFixedBreak (ctx : Option Char) (s : Str) (k : Nat) : Prop :=
  quoteState ctx (s.take k) = none ∧ s[k]? = some '!'

/-! ## Fixed form -/

/-- Tab expansion of a fixed-format line: when the first tab is in the control columns, every tab
of the run it starts becomes six blanks. -/
def detab (raw : Str) : Str :=
  let pre := raw.takeWhile (· != '\t')
  let rest := raw.dropWhile (· != '\t')
  if rest ≠ [] ∧ pre.length < 6 then
    pre ++ blanks (6 * (rest.takeWhile (· == '\t')).length) ++ rest.dropWhile (· == '\t')
  else raw

/-- Number of label characters of a fixed-format line whose first non-blank is at `indent e`: the
run of digits inside the control columns. -/
def fixedLabelLen (e : Str) : Nat := (((body e).take (6 - indent e)).takeWhile isDigit).length

/-- The first non-blank of the line is a digit in the label columns. -/
def HasFixedLabel (e : Str) : Prop :=
  indent e < 5 ∧ ∃ c, (body e).head? = some c ∧ isDigit c = true

open Classical in
/-- Where the statement text of a fixed-format line starts.  Blanks after a label or after column 6
are skipped unless a character context is open. -/
noncomputable def fixedStart (open' : Bool) (e : Str) : Nat :=
  let skip := fun r => if open' then r else r + ((e.drop r).takeWhile isSpace).length
  if indent e = 5 then skip 6
  else if HasFixedLabel e then skip (indent e + fixedLabelLen e)
  else indent e

/-- The category of a (tab-expanded) fixed-format line; `open'` says whether the previous line left
a character context open.  A line with a literal marker has no category: it is rejected. -/
noncomputable def fixedCat (open' : Bool) (e : Str) : Cat :=
  open Classical in
  if body e = [] then .blank
  else if indent e ≠ 5 ∧ e.head? = some '#' then .preprocessor
  else if indent e ≠ 5 ∧ startsInclude (body e) then .incl
  else if indent e ≠ 5 ∧ ((body e).head? = some '!' ∨
      (indent e = 0 ∧ (e.head? = some '*' ∨ e.head? = some 'C' ∨ e.head? = some 'c'))) then
    if isMarker (body e) then .directive else .comment
  else if open' = false ∧ (indent e = 5 ∨ HasFixedLabel e) ∧ fixedStart open' e = e.length then
    .blank
  else .fortran

/-- What may become of the text past the last column: dropped when blank, otherwise turned into a
comment unless it already starts one (or is an ampersand). -/
def overflowText (tail : Str) : Str :=
  match body tail with
  | [] => []
  | c :: _ => if c = '&' ∨ c = '!' then tail else '!' :: ' ' :: tail

/-- Number of columns of `e` that count: up to the last column when truncation is active. -/
def usedCols (lastColumn : Int) (e : Str) : Nat :=
  if lastColumn > 0 then min lastColumn.toNat e.length else e.length

/-- Some used column right of the control columns holds a non-space. -/
def HasText (lastColumn : Int) (e : Str) : Prop :=
  ∃ i c, 6 ≤ i ∧ i < usedCols lastColumn e ∧ e[i]? = some c ∧ isSpace c = false

/-- Control columns in standard form: blank, a label, or a continuation mark in column 6. -/
def StdControl (e : Str) : Prop :=
  (∃ a d b, e.take 6 = blanks a ++ d ++ blanks b ∧ ∀ c ∈ d, isDigit c = true) ∨
  (∃ c, e.take 6 = blanks 5 ++ [c] ∧ isSpace c = false)

end FLPR.Spec
