import Verif.LogicalFile.SplitStmt
import Verif.LogicalLine.TextEdit
/-!
# Model of the functions of `Logical_File` that insert, change and label statements

`emplace_ll_stmt`, `emplace_ll_stmt_after_prefix`, `replace_stmt_text`, `replace_stmt_substr`,
`insert_text_after`, `append_stmt_text` and `set_stmt_label` (src/flpr/Logical_File.cc:346-473).  A position in the
list of statements is a number, the end being the number of statements.  The trees and the hooks of the statements
are not modelled.
-/

namespace FLPR

/-- What an iterator into the statements refers to: at the end of the list there is a default-constructed
statement (Safe_List.hh:60-74, LL_Stmt.hh:30-32). -/
def LFile.stmtAt (fl : LFile) (pos : Nat) : Res FStmt :=
  match fl.stmts[pos]? with
  | some x => .ok x
  | none => if pos = fl.stmts.length then .ok { s := {} } else .error .ub

/-- `LL_TT_Range::ll()`, LL_TT_Range.hh:45-49: the line of a statement and its position. -/
def LFile.lineOf (fl : LFile) (x : FStmt) : Res (Nat × LLine) := do
  let p ← x.it
  match fl.lines[p]? with
  | none => .error .ub
  | some l => .ok (p, l)

/-- LL_Stmt.hh:110-115 `prefix_ll_begin`. -/
def FStmt.prefixBegin (x : FStmt) : Res Nat :=
  match x.s.pre with
  | [] => x.it
  | p :: _ => .ok p

/-- LL_Stmt.hh:116-123 `prefix_ll_end`. -/
def FStmt.prefixEnd (x : FStmt) : Res Nat :=
  match x.s.pre.getLast? with
  | none => x.it
  | some p => .ok (p + 1)

/-- Iterators into the list of lines stay with their line when a line is inserted in front of line `i`. -/
def pushPos (i q : Nat) : Nat := if i ≤ q then q + 1 else q

def FStmt.push (i : Nat) (x : FStmt) : FStmt :=
  { x with s := { x.s with line := x.s.line.map (pushPos i), pre := x.s.pre.map (pushPos i) } }

/-- Logical_File.cc:365-366, 388-389: the statement that a source over the single line `i` gives. -/
def srcStmt (i : Nat) (ll : LLine) : Res LLStmt := do
  let s ← StmtSrc.new [ll] true
  let y ← s.current
  .ok { y with line := y.line.map (· + i), pre := y.pre.map (· + i) }

/-- Logical_File.cc:362-367, 385-390: the line is inserted in front of line `i`, its statement in front of
statement `pos`. -/
def LFile.emplaceAt (fl : LFile) (pos i : Nat) (ll : LLine) (tag : Int) : Res LFile :=
  if fl.lines.length < i then .error .ub
  else do
    let y ← srcStmt i ll
    let xs := fl.stmts.map (·.push i)
    .ok ⟨fl.lines.take i ++ ll :: fl.lines.drop i, xs.take pos ++ { s := y, tag := tag } :: xs.drop pos⟩

/-- Logical_File.cc:346-370 `emplace_ll_stmt`. -/
def LFile.emplace (fl : LFile) (pos : Nat) (ll : LLine) (tag : Int) : Res LFile :=
  if ll.semis = -1 ∨ ll.stmts.length ≠ 1 then .error .assertion
  else do
    let x ← fl.stmtAt pos
    let a ← (if x.s.compound > 1 then do
        let b ← fl.splitBefore pos
        .ok b.2
      else .ok fl : Res LFile)
    let x1 ← a.stmtAt pos
    let i ← x1.prefixBegin
    a.emplaceAt pos i ll tag

/-- Logical_File.cc:372-397 `emplace_ll_stmt_after_prefix`. -/
def LFile.emplaceAfterPrefix (fl : LFile) (pos : Nat) (ll : LLine) (tag : Int) : Res LFile :=
  if ll.semis = -1 ∨ ll.stmts.length ≠ 1 then .error .assertion
  else do
    let x ← fl.stmtAt pos
    if x.s.pre = [] then fl.emplace pos ll tag
    else if ¬ x.s.compound < 2 then .error .assertion
    else do
      let i ← x.prefixEnd
      let a ← fl.emplaceAt pos i ll tag
      let x1 ← a.stmtAt (pos + 1)
      let y ← a.stmtAt pos
      let e ← x1.prefixEnd
      if e ≠ i then .error .assertion
      else
        .ok ⟨a.lines, (a.stmts.set pos { y with s := { y.s with pre := x1.s.pre } }).set (pos + 1)
          { x1 with s := { x1.s with pre := [] } }⟩

/-- `assign_range(ll().stmts()[0])` (Safe_List.hh:286): the statement gets the range `s` of its line. -/
def FStmt.assign (x : FStmt) (s : Nat × Nat) : FStmt :=
  { x with s := { x.s with range := some s }, live := true }

/-- Logical_File.cc:406-408, 431-433, 456-458: the line must have one statement, whose range is taken over. -/
def LFile.regen (fl : LFile) (pos p : Nat) (x : FStmt) (l : LLine) : Res LFile :=
  if l.semis = -1 then .error .assertion
  else
    match l.stmts with
    | [s] => .ok ⟨fl.lines.set p l, fl.stmts.set pos (x.assign s)⟩
    | _ => .error .assertion

/-- Logical_File.cc:399-411 `replace_stmt_text`. -/
def LFile.replaceStmtText (st : Flex.State) (fl : LFile) (pos : Nat) (new : List Str) (tag : Int) :
    Res (LFile × Flex.State) := do
  let a ← fl.isolate pos
  let x ← a.2.stmtAt pos
  let l ← a.2.lineOf x
  let r ← l.2.replaceMain st new
  let f ← a.2.regen pos l.1 { x with tag := tag } r.1
  .ok (f, r.2)

/-- `std::distance(stmt->begin(), it)`, `it` being at position `i` of the `len` tokens of the same line: `begin` of a
default-constructed range is uninitialised, and it must not be behind `it`. -/
def FStmt.offset (x : FStmt) (len i : Nat) : Res Nat :=
  match x.s.range with
  | none => .error .ub
  | some r => if i < r.1 ∨ len < i then .error .ub else .ok (i - r.1)

/-- `std::next(ll().fragments().begin(), off)`. -/
def tokAt (l : LLine) (off : Nat) : Res Nat := if l.frags.length < off then .error .ub else .ok off

/-- Logical_File.cc:413-436 `replace_stmt_substr`; `orig_tt` is the range from position `i` up to `j` of the tokens of
the line of the statement. -/
def LFile.replaceStmtSubstr (st : Flex.State) (fl : LFile) (pos i j : Nat) (new : Str) :
    Res (LFile × Flex.State) := do
  let x0 ← fl.stmtAt pos
  let l0 ← fl.lineOf x0
  let b ← x0.offset l0.2.frags.length i
  let e ← x0.offset l0.2.frags.length j
  let a ← fl.isolate pos
  let x ← a.2.stmtAt pos
  let l ← a.2.lineOf x
  let b' ← tokAt l.2 b
  let e' ← tokAt l.2 e
  if e' < b' then .error .ub
  else do
    let r ← l.2.replaceSubstr st b' e' new
    let f ← a.2.regen pos l.1 x r.1
    .ok (f, r.2)

/-- Logical_File.cc:438-448 `insert_text_after`; `frag` is at position `i` of the tokens of the line of the statement.
Nothing is asserted about the statements of the line, and `stmts()[0]` of an empty vector is undefined. -/
def LFile.insertTextAfter (st : Flex.State) (fl : LFile) (pos i : Nat) (new : Str) :
    Res (LFile × Flex.State) := do
  let x0 ← fl.stmtAt pos
  let l0 ← fl.lineOf x0
  let o ← x0.offset l0.2.frags.length i
  let a ← fl.isolate pos
  let x ← a.2.stmtAt pos
  let l ← a.2.lineOf x
  let o' ← tokAt l.2 o
  let r ← l.2.insertAfter st o' new
  match r.1.stmts with
  | [] => .error .ub
  | s :: _ => .ok (⟨a.2.lines.set l.1 r.1, a.2.stmts.set pos (x.assign s)⟩, r.2)

/-- Logical_File.cc:450-461 `append_stmt_text`; the iterator `stmt->end()` may refer to an erased token. -/
def LFile.appendStmtText (st : Flex.State) (fl : LFile) (pos : Nat) (new : Str) :
    Res (LFile × Flex.State) := do
  let a ← fl.isolate pos
  let x ← a.2.stmtAt pos
  let l ← a.2.lineOf x
  match x.s.range with
  | none => .error .ub
  | some r =>
    if x.live = false then .error .ub
    else do
      let z ← l.2.insertBefore st r.2 new
      let f ← a.2.regen pos l.1 x z.1
      .ok (f, z.2)

/-- Logical_File.cc:463-473 `set_stmt_label`. -/
def LFile.setStmtLabel (fl : LFile) (pos : Nat) (label : Int) : Res (Bool × LFile) :=
  if label < 0 then .error .assertion
  else do
    let x0 ← fl.stmtAt pos
    if ¬ x0.s.label > 0 ∧ label = 0 then .ok (false, fl)
    else do
      let a ← (if ¬ x0.s.label > 0 then do
          let b ← fl.splitBefore pos
          .ok b.2
        else .ok fl : Res LFile)
      let x ← a.stmtAt pos
      let l ← a.lineOf x
      let r ← l.2.setLabel label
      .ok (r.2, ⟨a.lines.set l.1 r.1, a.stmts.set pos { x with s := { x.s with label := r.1.label } }⟩)

end FLPR
