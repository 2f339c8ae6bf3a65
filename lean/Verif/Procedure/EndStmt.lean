import Verif.Procedure.Name
import Verif.LogicalFile.StmtEdit
import Verif.ParsedFile.Model
/-!
# Model of `Procedure::complete_end_stmt` and `rename` (src/flpr/Procedure.hh), and the specification of C70

`s` has the statements as the program parser saw them, with their trees; `fl` has the lines that are edited.
-/

namespace FLPR
namespace Proc
open PP Reg
open SP (SNode)

/-- Procedure.hh:406-419: the switch; `suffix` stays empty for other tags. -/
def suffixWord (tag : Int) : Str :=
  if tag = Tag.PG_FUNCTION_SUBPROGRAM then " function ".toList
  else if tag = Tag.PG_SUBROUTINE_SUBPROGRAM then " subroutine ".toList
  else if tag = Tag.PG_SEPARATE_MODULE_SUBPROGRAM then " procedure ".toList
  else if tag = Tag.PG_MAIN_PROGRAM then " program ".toList
  else []

/-- Procedure.hh:399-430: the text to be appended. -/
def Procd.suffix (s : PState) (p : Procd) : Res Str := do
  let j ← p.stmtAt PROC_END
  let t ← stmtTree s j
  let c ← Cur.down (t.2, [])
  if c.1.tag ≠ Tag.KW_END then .error .assertion
  else
    match c.2 with
    | [] =>
      if suffixWord p.tag = [] then .error .assertion
      else do
        let nm ← p.name s
        .ok (suffixWord p.tag ++ nm)
    | [_] => do
      let h ← p.headless
      if h = true then .ok []
      else do
        let nm ← p.name s
        .ok (' ' :: nm)
    | _ => .ok []

/-- Procedure.hh:398-440 `complete_end_stmt`. -/
def Procd.completeEnd (st : Flex.State) (s : PState) (p : Procd) (fl : LFile) : Res (Bool × LFile × Procd × Flex.State) := do
  let w ← p.suffix s
  if w = [] then .ok (false, fl, p, st)
  else do
    let j ← p.stmtAt PROC_END
    let f ← fl.appendStmtText st j w
    .ok (true, f.1, { p with dirty := true }, f.2)

/-- `token_range.ll().replace_fragment(token_range.begin(), tag, new)` for a node of the tree of statement `j` that
begins at token `i` of its line. -/
def replaceIn (fl : LFile) (j i : Nat) (tag : Int) (new : Str) : Res LFile := do
  let x ← fl.stmtAt j
  let l ← fl.lineOf x
  let l' ← l.2.replaceFragment i tag new
  .ok { fl with lines := fl.lines.set l.1 l' }

/-- Procedure.hh:370-381: the first statement. -/
def Procd.renameBegin (s : PState) (p : Procd) (fl : LFile) (new : Str) : Res LFile := do
  let j ← p.stmtAt PROC_BEGIN
  let t ← stmtTree s j
  let c ← nameCur t.2
  let i ← oneToken c.1
  replaceIn fl j i Tag.TK_NAME new

/-- Procedure.hh:384-393: the last statement. -/
def Procd.renameEnd (s : PState) (p : Procd) (fl : LFile) (new : Str) : Res LFile := do
  let j ← p.stmtAt PROC_END
  let t ← stmtTree s j
  let c ← Cur.down (t.2, [])
  match c.2 with
  | _ :: k :: _ => do
    let b ← Registry.isName k.tag
    if b = true then
      match k.range with
      | none => .error .ub
      | some (i, _) => replaceIn fl j i Tag.TK_NAME new
    else .error .assertion
  | _ => .ok fl

/-- Procedure.hh:175-184 `emplace_stmt` in front of statement `pos` of region `i`, below its prefix.  The list of
statements is that of their numbers, with the new one, `fl.stmts.length + 1`, in front of `pos`, and the hidden last one. -/
def Procd.emplaceAfterPrefix (p : Procd) (fl : LFile) (i pos : Nat) (ll : LLine) (tag : Int) : Res (LFile × Procd) := do
  let f ← fl.emplaceAfterPrefix pos ll tag
  let all := List.range (fl.stmts.length + 1)
  let r ← p.ranges.insert (all.take pos ++ (fl.stmts.length + 1) :: all.drop pos) i (some pos) (some (fl.stmts.length + 1))
  .ok (f, { p with ranges := r })

/-- Procedure.hh:356-396 `rename`; `lineOf` makes a line of a text (Logical_Line.hh:49). -/
def Procd.rename (lineOf : Str → Res LLine) (s : PState) (p : Procd) (fl : LFile) (new : Str) : Res (Bool × LFile × Procd) := do
  let e ← p.ranges.empty PROC_END
  if e = true then .error .assertion else do
  let nm ← p.name s
  if new = nm then .ok (false, fl, p) else do
  let h ← p.headless
  if h = true then do
    let ll ← lineOf ("program ".toList ++ new)
    let e ← p.ranges.mend PROC_BEGIN
    match e.1 with
    | none => .error .ub
    | some pos => do
      let r ← ({ p with ranges := e.2 } : Procd).emplaceAfterPrefix fl PROC_BEGIN pos ll Tag.SG_PROGRAM_STMT
      .ok (true, r.1, { r.2 with dirty := true })
  else do
    let f ← p.renameBegin s fl new
    let g ← p.renameEnd s f new
    .ok (true, g, { p with dirty := true })

end Proc
end FLPR
