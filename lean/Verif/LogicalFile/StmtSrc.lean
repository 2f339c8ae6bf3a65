import Verif.LogicalLine.Model
/-!
# Model of `LL_Stmt_Src` (src/flpr/LL_Stmt_Src.{hh,cc}) and `Logical_File::make_stmts`
-/

namespace FLPR

/-- LL_Stmt.hh:25-163: a statement of a logical line.  Iterators into the list of lines are positions.
`line` and `range` are absent for a default-constructed statement.  The tree, the tag and the hook are
not modelled here. -/
structure LLStmt where
  line : Option Nat := none
  range : Option (Nat × Nat) := none
  label : Int := 0
  compound : Int := -1
  pre : List Nat := []
  deriving DecidableEq, Repr

/-- LL_Stmt_Src.hh:97-104: the source over the lines; `it` is the position of `it_` (the number of
lines is the end), `buf` and `curr` the buffer and the position in it. -/
structure StmtSrc where
  it : Nat := 0
  buf : List LLStmt := []
  curr : Nat := 0
  deriving DecidableEq, Repr

/-- LL_Stmt_Src.cc:23-31: the non-statement lines from position `i` on: the position of the first
line that has statements, and the lines to be put into the prefix. -/
def skipPrefix : Nat → List LLine → List Nat × Nat
  | i, [] => ([], i)
  | i, l :: ls =>
    if l.stmts = [] then
      let r := skipPrefix (i + 1) ls
      (if l.suppress then r.1 else i :: r.1, r.2)
    else ([], i)

/-- LL_Stmt_Src.cc:46-56: the loop over the statements of a line. -/
def lineStmts (i : Nat) (label compound : Int) (pre : List Nat) : List (Nat × Nat) → List LLStmt
  | [] => []
  | r :: rs =>
    { line := some i, range := some r, label := label, compound := compound, pre := pre } ::
      lineStmts i 0 (compound + 1) [] rs

/-- LL_Stmt_Src.cc:16-71 `refill_`. -/
def StmtSrc.refill (lines : List LLine) (s : StmtSrc) : Res StmtSrc :=
  let p := skipPrefix s.it (lines.drop s.it)
  match lines[p.2]? with
  | none => .ok ⟨p.2, [], 0⟩
  | some l =>
    if l.suppress then .error .assertion
    else if l.cat = .macro then .ok ⟨p.2 + 1, [{ pre := p.1 ++ [p.2] }], 0⟩
    else .ok ⟨p.2 + 1,
      lineStmts p.2 l.label (if l.stmts.length > 1 then 1 else 0) p.1 l.stmts, 0⟩

/-- LL_Stmt_Src.hh:90-94 `more_avail_`.  The first argument bounds the number of turns; the number of
lines left is enough, as every turn takes a line (`moreAvail_enough`). -/
def StmtSrc.moreAvailGo (lines : List LLine) : Nat → StmtSrc → Res StmtSrc
  | 0, s => .ok s
  | n + 1, s =>
    if s.buf = [] ∧ s.it < lines.length then do
      let s' ← s.refill lines
      StmtSrc.moreAvailGo lines n s'
    else .ok s

def StmtSrc.moreAvail (lines : List LLine) (s : StmtSrc) : Res (StmtSrc × Bool) := do
  let s' ← s.moreAvailGo lines (lines.length - s.it)
  .ok (s', !s'.buf.isEmpty)

/-- LL_Stmt_Src.hh:62-67 `operator bool`. -/
def StmtSrc.good (lines : List LLine) (s : StmtSrc) : Res (StmtSrc × Bool) :=
  if s.curr ≠ s.buf.length then .ok (s, true) else s.moreAvail lines

/-- LL_Stmt_Src.hh:70-80 `advance`. -/
def StmtSrc.advance (lines : List LLine) (s : StmtSrc) : Res (StmtSrc × Bool) :=
  let c := if s.curr ≠ s.buf.length then s.curr + 1 else s.curr
  if c = s.buf.length then StmtSrc.moreAvail lines ⟨s.it, [], 0⟩
  else .ok ({ s with curr := c }, true)

/-- LL_Stmt_Src.hh:82-86 `move`: the statement. -/
def StmtSrc.current (s : StmtSrc) : Res LLStmt :=
  match s.buf[s.curr]? with
  | some x => .ok x
  | none => .error .assertion

/-- The constructors, LL_Stmt_Src.hh:48-59. -/
def StmtSrc.new (lines : List LLine) (doAdvance : Bool) : Res StmtSrc :=
  if doAdvance then do
    let r ← StmtSrc.advance lines {}
    .ok r.1
  else .ok {}

/-- Logical_File.cc:287-293 `make_stmts`: the loop.  `none`: the fuel did not suffice. -/
def makeStmtsGo (lines : List LLine) : Nat → StmtSrc → Res (Option (List LLStmt))
  | 0, _ => .ok none
  | n + 1, s => do
    let r ← s.advance lines
    if r.2 then
      let x ← r.1.current
      let xs ← makeStmtsGo lines n r.1
      .ok (xs.map (x :: ·))
    else .ok (some [])

/-- A number of turns that always suffices (`C19_make_stmts`). -/
def stmtFuel (lines : List LLine) : Nat := (lines.map (fun l => l.stmts.length + 1)).sum + 1

/-- Logical_File.cc:287-293 `make_stmts`. -/
def makeStmts (lines : List LLine) : Res (Option (List LLStmt)) :=
  makeStmtsGo lines (stmtFuel lines) {}

/-- Logical_File.cc:115-144, 160-166, 216-230, 252-257, 276-280: the line that a scan makes of a group.
`file_info` is not modelled. -/
def buildLine (st : Flex.State) (g : Group) : Res (LLine × Flex.State) := do
  let r ← LLine.ofLines st g.layout
  .ok ({ r.1 with cat := g.cat, needsReformat := g.needs_reformat }, r.2)

/-- The `lines` of a `Logical_File` after the scan. -/
def buildLines (st : Flex.State) : List Group → Res (List LLine × Flex.State)
  | [] => .ok ([], st)
  | g :: gs => do
    let r ← buildLine st g
    let rs ← buildLines r.2 gs
    .ok (r.1 :: rs.1, rs.2)

/-- What a user of a statement source does with it. -/
inductive SrcOp where
  /-- `operator bool` -/
  | test
  /-- `advance` -/
  | next
  /-- `move()`; the reference is read, not moved from -/
  | get
  deriving DecidableEq, Repr

/-- What the user sees. -/
inductive SrcSeen where
  | flag (b : Bool)
  | stmt (s : LLStmt)
  /-- an assertion in `move()` failed -/
  | failed
  deriving DecidableEq, Repr

/-- A sequence of operations; a failed assertion ends it. -/
def StmtSrc.run (lines : List LLine) : StmtSrc → List SrcOp → Res (List SrcSeen)
  | _, [] => .ok []
  | s, .test :: ops => do
    let r ← s.good lines
    let o ← r.1.run lines ops
    .ok (.flag r.2 :: o)
  | s, .next :: ops => do
    let r ← s.advance lines
    let o ← r.1.run lines ops
    .ok (.flag r.2 :: o)
  | s, .get :: ops =>
    match s.current with
    | .error _ => .ok [.failed]
    | .ok x => do
      let o ← s.run lines ops
      .ok (.stmt x :: o)

end FLPR
