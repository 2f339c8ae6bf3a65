import Verif.LogicalLine.Accum
import Verif.LogicalFile.Scan
import Verif.Token.Model
import Verif.Tags.Smash
import Verif.Lexer.Model
/-!
# Model of `Logical_Line` (src/flpr/Logical_Line.{hh,cc}): construction and statements

The scanner is a process-wide object with state (its start condition and condition stack), so the
functions that tokenize take and return a `Flex.State`.
-/

namespace FLPR

/-- Logical_Line.hh:52-259.  A statement is a range of iterators into the token list; here it is a
pair of positions (first, one past the last).  `semis = -1` means "statements not initialised".
`file_info` is not modelled. -/
structure LLine where
  label : Int := 0
  cat : LineCat := .unknown
  suppress : Bool := false
  needsReformat : Bool := false
  semis : Int := -1
  layout : List FileLine := []
  frags : List Tok := []
  stmts : List (Nat × Nat) := []
  deriving DecidableEq, Repr

def Tok.isSemi (t : Tok) : Bool := t.token == Tag.TK_SEMICOLON

/-- Logical_Line.cc:692-720 `init_stmts`: the loop with `i` the position of the current token, `beg`
the position of `s_beg` if it is set.  Result: the statements and the number of semicolons. -/
def initStmtsGo : Nat → Option Nat → List Tok → List (Nat × Nat) × Int
  | i, beg, [] =>
    match beg with
    | some b => if b ≠ i then ([(b, i)], 0) else ([], 0)
    | none => ([], 0)
  | i, beg, t :: ts =>
    let b := beg.getD i
    if t.isSemi then
      let r := initStmtsGo (i + 1) none ts
      (if b ≠ i then (b, i) :: r.1 else r.1, r.2 + 1)
    else initStmtsGo (i + 1) (some b) ts

/-- Logical_Line.cc:692-720 `init_stmts`. -/
def LLine.initStmts (l : LLine) : LLine :=
  let r := initStmtsGo 0 none l.frags
  { l with stmts := r.1, semis := r.2 }

/-- Logical_Line.hh:190-194 `has_empty_statements`. -/
def LLine.hasEmptyStatements (l : LLine) : Res Bool :=
  if l.semis > -1 then .ok (decide (l.semis > 0) && decide (l.semis ≥ l.stmts.length))
  else .error .assertion

/-- Logical_Line.hh:196-199 `num_semicolons`. -/
def LLine.numSemicolons (l : LLine) : Res Int :=
  if l.semis > -1 then .ok l.semis else .error .assertion

/-- Logical_Line.hh:138 `is_compound`. -/
def LLine.isCompound (l : LLine) : Bool := decide (l.stmts.length > 1)

/-- Logical_Line.hh:180-186 `has_fortran`. -/
def LLine.hasFortran (l : LLine) : Bool := !l.suppress && l.layout.any (·.isFortran)

/-- Writing to the members of `fragments_.back()`. -/
def modifyLast (f : Tok → Tok) : List Tok → Res (List Tok)
  | [] => .error .ub
  | [t] => .ok [f t]
  | t :: u :: ts => do
    let r ← modifyLast f (u :: ts)
    .ok (t :: r)

/-- Logical_Line.cc:764-803: the loop of `tokenize` over the tokens returned by `yylex`; `start` is
`tok_start_col`, `pre` is `next_pre_sp`, `acc` is `fragments_`.  When `linecolno` fails its outputs
are left uninitialised and read. -/
def lineTokensGo (la : LineAccum) : List Flex.Lexeme → Nat → Int → List Tok → Res (List Tok)
  | [], _, _, acc => .ok acc
  | l :: ls, start, pre, acc => do
    match ← la.linecolno start with
    | none => .error .ub
    | some (li, ci, tli, tci) =>
      let acc1 := acc ++ [{ token := l.tag, line := li, pos := ci, text := l.text }]
      let acc2 ← (if l.tag = Tag.TK_NAME then Smash.unsmash acc1 else .ok acc1)
      match ← la.linecolno ((l.stop : Int) - 1) with
      | none => .error .ub
      | some (_, _, eli, eci) =>
        let next ← scanSpaces l.stop (la.accum.drop l.stop)
        let acc3 ← modifyLast (fun t => { t with
          span := some ⟨tli, tci, eli, eci + 1⟩
          pre := some pre
          post := some ((next : Int) - l.stop) }) acc2
        lineTokensGo la ls next ((next : Int) - l.stop) acc3

/-- Logical_Line.cc:749-806 `tokenize`. -/
def LLine.tokenize (st : Flex.State) (l : LLine) (la : LineAccum) : Res (LLine × Flex.State) := do
  let r ← Flex.scan st la.accum
  let fr ← lineTokensGo la r.1 0 0 []
  .ok (({ l with frags := fr } : LLine).initStmts, r.2)

/-- What `init_from_layout` hands to `add_line` for a line (Logical_Line.cc:126-134). -/
def pieceOf (f : FileLine) : Piece :=
  ⟨f.linenum, f.left_space.length, f.mainFirstCol, f.main_txt, f.right_space.length⟩

/-- The value of a string of decimal digits. -/
def digitsVal (s : Str) : Nat := s.foldl (fun n c => n * 10 + (c.toNat - '0'.toNat)) 0

/-- `std::stoi`: optional white space, optional sign, digits; throws `invalid_argument` without
digits and `out_of_range` when the value does not fit an `int`. -/
def stoi (s : Str) : Res Int :=
  let s1 := s.dropWhile isSpace
  let neg := s1.head? == some '-'
  let s2 := if s1.head? = some '-' ∨ s1.head? = some '+' then s1.tail else s1
  let ds := s2.takeWhile isDigit
  if ds = [] then .error .exc
  else
    let v : Int := if neg then -(digitsVal ds : Int) else digitsVal ds
    if -2147483648 ≤ v ∧ v ≤ 2147483647 then .ok v else .error .exc

/-- Logical_Line.cc:123-149 `init_from_layout`.  The function is `noexcept`: an exception ends the
program (`exc` here).  The warning on `cerr` is not modelled. -/
def LLine.initFromLayout (st : Flex.State) (l : LLine) : Res (LLine × Flex.State) :=
  let la := accumAll ((l.layout.filter (fun f => !f.isTrivial)).map pieceOf)
  match l.layout with
  | [] => .error .ub
  | f :: _ =>
    if f.bits.label then
      if f.left_txt = [] then .error .assertion
      else do
        let v ← stoi f.left_txt
        LLine.tokenize st { l with label := v } la
    else LLine.tokenize st { l with label := 0 } la

/-- Logical_Line.hh:77-83: construction from a range of lines. -/
def LLine.ofLines (st : Flex.State) (fs : List FileLine) : Res (LLine × Flex.State) :=
  LLine.initFromLayout st { layout := fs }

/-- Logical_Line.cc:67-71: construction from one free-format text (File_Line.hh:138-142: line number -1,
no open delimiter, not continued). -/
def LLine.ofFree (st : Flex.State) (raw : Str) : Res (LLine × Flex.State) := do
  let r ← analyzeFree (-1) raw NUL false false
  LLine.ofLines st [r.1]

end FLPR
