import Verif.Procedure.Model
import Verif.Procedure.Spec
import Verif.Program.AttachSpec
import Verif.StmtParser.FormStd
/-!
# Model of `Procedure::name` and `scan_out_labels` (src/flpr/Procedure.hh), and the specification of C69
-/

namespace FLPR
namespace Proc
open PP Reg
open SP (SNode)

/-- Procedure.hh:346-351: the cursor at the name in a statement that begins a procedure. -/
def nameCur (t : SNode) : Res Cur := do
  let c1 ← Cur.down (t, [])
  let c2 ← if c1.1.tag = Tag.SG_PREFIX then c1.next else (.ok c1 : Res Cur)
  let c3 ← c2.next
  if c3.1.tag = Tag.KW_PROCEDURE then c3.next else .ok c3

/-- Procedure.hh:352: the one token of a node. -/
def oneToken (n : SNode) : Res Nat :=
  match n.range with
  | none => .error .assertion
  | some (b, e) => if e = b + 1 then .ok b else .error .assertion

/-- Procedure.hh:346-353. -/
def nameOf (toks : List Tok) (t : SNode) : Res Str := do
  let c ← nameCur t
  let i ← oneToken c.1
  let a ← SP.derefTok toks i
  .ok a.text

/-- The statement of the node that the cursor of region `i` is at; a node without one must not be asked. -/
def Procd.stmtAt (p : Procd) (i : Nat) : Res Nat := do
  let path ← p.ranges.getTracker i
  match p.root with
  | none => .error .ub
  | some t =>
    match Spec.nodeAt t path with
    | none => .error .ub
    | some n =>
      match n.stmt with
      | none => .error .ub
      | some j => .ok j

/-- Prgm_Tree.hh:52-53, LL_Stmt.hh:75-87 `stmt_tree()`, with the tokens of its line.  A statement that was not given
a tree has the tag `UNKNOWN`, so that `rebuild_tree_` returns `false` and the assertion fails. -/
def stmtTree (s : PState) (j : Nat) : Res (List Tok × SNode) :=
  match s.stmts[j]? with
  | none => .error .ub
  | some st =>
    match s.treeOf j with
    | none => .error .assertion
    | some t => .ok (st.strm.all, t)

/-- Procedure.hh:148-150 `headless_main_program`. -/
def Procd.headless (p : Procd) : Res Bool :=
  if p.tag = Tag.PG_MAIN_PROGRAM then p.ranges.empty PROC_BEGIN else .ok false

/-- Procedure.hh:339-354 `name()`. -/
def Procd.name (s : PState) (p : Procd) : Res Str := do
  let e ← p.ranges.empty PROC_END
  if e = true then .error .assertion else do
    let h ← p.headless
    if h = true then .ok [] else do
      let j ← p.stmtAt PROC_BEGIN
      let t ← stmtTree s j
      nameOf t.1 t.2

/-- Procedure.hh:447-455 `scan_out_labels`: the labels written; LL_Stmt.hh:44 `has_label`. -/
def Procd.labels (s : PState) (p : Procd) : Res (List Int) :=
  match p.root with
  | none => .error .ub
  | some t =>
    match t.range with
    | none => .ok []
    | some (b, e) => .ok ((((s.stmts.drop b).take (e - b)).filter (fun st => decide (st.label > 0))).map (·.label))

end Proc

namespace Spec

/-- `a` is the name in a statement that begins a procedure, by the tokens of the statement: it is behind the keyword
(R1530 function-stmt, R1535 subroutine-stmt, R1401 program-stmt, R1539 mp-subprogram-stmt). -/
def Named (tag : Int) (ts : List Tok) (a : Tok) : Prop :=
  NameTag a.token ∧ ∃ pre kws rest, ts = pre ++ kws ++ a :: rest ∧
    ((tag = Tag.SG_FUNCTION_STMT ∧ Std.prefix_.Is pre ∧ kws.map (·.token) = [Tag.KW_FUNCTION]) ∨
     (tag = Tag.SG_SUBROUTINE_STMT ∧ Std.prefix_.Is pre ∧ kws.map (·.token) = [Tag.KW_SUBROUTINE]) ∨
     (tag = Tag.SG_PROGRAM_STMT ∧ pre = [] ∧ kws.map (·.token) = [Tag.KW_PROGRAM]) ∨
     (tag = Tag.SG_MP_SUBPROGRAM_STMT ∧ pre = [] ∧ kws.map (·.token) = [Tag.KW_MODULE, Tag.KW_PROCEDURE]))

/-- The labels of some statements, in order. -/
def labelsOf (l : List PP.LStmt) (is : List Nat) : List Int :=
  is.filterMap (fun i => match l[i]? with
    | some st => if st.label > 0 then some st.label else none
    | none => none)

end Spec
end FLPR
