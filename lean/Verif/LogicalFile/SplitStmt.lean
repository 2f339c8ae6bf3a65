import Verif.LogicalLine.Split
import Verif.LogicalFile.StmtSrc
/-!
# Model of `Logical_File::split_compound_before` and `isolate_stmt`
-/

namespace FLPR

/-- LL_Stmt.hh:25-163: a statement in the list of a file: `s` as in `StmtSrc.lean`, and the cached tag
(`stmt_syntag_`).  The tree and the hook are not modelled.  `live` tells whether the iterator `end_` of the range
(Safe_List.hh:301) still refers to an element of the tokens of the line. -/
structure FStmt where
  s : LLStmt
  tag : Int := 0
  live : Bool := true
  deriving DecidableEq, Repr

/-- Logical_File.hh:119-129: the lines and the statements of a file. -/
structure LFile where
  lines : List LLine := []
  stmts : List FStmt := []

/-- Iterators into the list of lines stay with their line when a line is inserted behind line `p`. -/
def bumpPos (p q : Nat) : Nat := if p < q then q + 1 else q

def FStmt.bump (p : Nat) (x : FStmt) : FStmt :=
  { x with s := { x.s with line := x.s.line.map (bumpPos p), pre := x.s.pre.map (bumpPos p) } }

/-- The tokens of line `p` from position `i + 1` on, of `len`, are erased: the end of a range there no
longer refers to a token – unless it is the hidden element at the end of the list, which remains. -/
def FStmt.cut (p i len : Nat) (x : FStmt) : FStmt :=
  match x.s.line, x.s.range with
  | some q, some r => if q = p ∧ i < r.2 ∧ r.2 < len then { x with live := false } else x
  | _, _ => x

/-- Safe_List.hh:229-232 `empty`, for the range of a statement: the assertion compares `end_`. -/
def FStmt.empty (x : FStmt) : Res Bool :=
  match x.s.range with
  | none => .ok true
  | some r => if x.live then .ok (decide (r.2 ≤ r.1)) else .error .ub

/-- LL_TT_Range.hh:39-42 `it`. -/
def FStmt.it (x : FStmt) : Res Nat :=
  match x.s.line with
  | none => .error .assertion
  | some p => .ok p

/-- LL_Stmt.hh:37-42 `update_range`. -/
def FStmt.update (x : FStmt) (src : LLStmt) : FStmt :=
  { x with s := { x.s with line := src.line, range := src.range, label := src.label, compound := src.compound }, live := true }

/-- Logical_File.cc:322-332: the loop; at the end of the list there is a default-constructed statement,
whose `it()` fails. -/
def updateStmts (p : Nat) : List LLStmt → List FStmt → Res (List FStmt)
  | [], xs => .ok xs
  | _ :: _, [] => .error .assertion
  | y :: ys, x :: xs => do
    let q ← x.it
    if q ≠ p then .error .assertion
    else
      let x' := x.update y
      let q' ← x'.it
      if q' ≠ p + 1 then .error .assertion
      else do
        let r ← updateStmts p ys xs
        .ok (x' :: r)

/-- Logical_File.cc:295-335 `split_compound_before`; the position of the end is the number of statements,
there a default-constructed statement is found. -/
def LFile.splitBefore (fl : LFile) (pos : Nat) : Res (Bool × LFile) :=
  if pos = fl.stmts.length then .ok (false, fl)
  else
    match fl.stmts[pos]? with
    | none => .error .ub
    | some x =>
      if x.s.compound < 2 then .ok (false, fl)
      else if pos = 0 then .error .ub
      else
        match fl.stmts[pos - 1]? with
        | none => .error .ub
        | some prev => do
          let e ← prev.empty
          if e then .error .assertion
          else if prev.s.compound + 1 ≠ x.s.compound then .error .assertion
          else do
            let p ← prev.it
            let p' ← x.it
            if p ≠ p' then .error .assertion
            else
              match fl.lines[p]?, prev.s.range with
              | some l, some r => do
                let z ← l.splitAfter (r.2 - 1) {}
                if ¬ z.1 then .error .assertion
                else
                  let l' := z.2.1.initStmts
                  let n := z.2.2.initStmts
                  if l'.stmts = [] then .error .assertion
                  else if n.stmts = [] then .error .assertion
                  else if l'.stmts.length + n.stmts.length ≠ l.stmts.length then .error .assertion
                  else do
                    let lines := fl.lines.take p ++ l' :: n :: fl.lines.drop (p + 1)
                    let src ← StmtSrc.refill lines ⟨p + 1, [], 0⟩
                    let xs := (fl.stmts.map (·.cut p (r.2 - 1) l.frags.length)).map (·.bump p)
                    let ys ← updateStmts p src.buf (xs.drop pos)
                    if src.buf.length ≠ n.stmts.length then .error .assertion
                    else .ok (true, ⟨lines, xs.take pos ++ ys⟩)
              | _, _ => .error .ub

/-- Logical_File.cc:337-344 `isolate_stmt`; `std::next(pos)` of the end is undefined. -/
def LFile.isolate (fl : LFile) (pos : Nat) : Res (Bool × LFile) := do
  let a ← fl.splitBefore pos
  if fl.stmts.length ≤ pos then .error .ub
  else if pos + 1 ≠ a.2.stmts.length then do
    let b ← a.2.splitBefore (pos + 1)
    .ok (a.1 || b.1, b.2)
  else .ok a

end FLPR
