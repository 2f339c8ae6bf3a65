import Verif.Regions.Partition
import Verif.Program.Eval
/-!
# Model of `Procedure` (src/flpr/Procedure.hh)

A cursor into the program tree, as it is kept in a tracker, is the path from the root of the procedure:
the indices of the branches.  The statement with index `i` has the address `i`, and the hidden element at
the end of the list of statements has the number of statements as its address.
-/

namespace FLPR
namespace Proc
open PP Reg

/-- Procedure.hh:54-64 `Region_Tag`. -/
abbrev PROC_BEGIN : Nat := 0
abbrev USES : Nat := 1
abbrev IMPORTS : Nat := 2
abbrev IMPLICITS : Nat := 3
abbrev DECLS : Nat := 4
abbrev EXECUTION_PART : Nat := 5
abbrev CONTAINED : Nat := 6
abbrev PROC_END : Nat := 7
abbrev NUM_REGION_TAG : Nat := 8

/-- A cursor kept in a tracker. -/
abbrev Path := List Nat

/-- The iterators of `stmt_range()`; those of an empty range are equal. -/
def its (n : PNode) : It × It :=
  match n.range with
  | none => (none, none)
  | some (b, e) => (some b, some e)

/-- `ranges_.set_tracker(idx, cursor); ranges_.append(idx, node.stmt_range())`. -/
def record (r : RP Path) (i : Nat) (t : Path) (n : PNode) : Res (RP Path) := do
  let r1 ← r.setTracker i t
  r1.append i (its n).1 (its n).2

/-- Procedure.hh:286-309: the loop over the branches of the specification part, which is branch `i` of
the procedure; `j` is the index of the first of the branches left. -/
def specLoop (i : Nat) : Nat → List PNode → RP Path → Res (RP Path)
  | _, [], r => .ok r
  | j, k :: ks, r =>
    if k.tag = Tag.SG_USE_STMT then do
      let r' ← record r USES [i] k
      specLoop i (j + 1) ks r'
    else if k.tag = Tag.SG_IMPORT_STMT then do
      let r' ← record r IMPORTS [i] k
      specLoop i (j + 1) ks r'
    else if k.tag = Tag.PG_IMPLICIT_PART then do
      let r' ← record r IMPLICITS [i, j] k
      specLoop i (j + 1) ks r'
    else if k.tag = Tag.PG_DECLARATION_CONSTRUCT then do
      let r' ← record r DECLS [i] k
      specLoop i (j + 1) ks r'
    else specLoop i (j + 1) ks r

/-- Procedure.hh:282-323: the loop over the branches from index `i` on.  The result has the branch at
which it stopped, if it did. -/
def scan : Nat → List PNode → RP Path → Res (RP Path × Option (Nat × PNode))
  | _, [], r => .ok (r, none)
  | i, k :: ks, r =>
    if k.tag = Tag.PG_SPECIFICATION_PART then
      if k.kids.isEmpty then .error .assertion
      else do
        let r' ← specLoop i 0 k.kids r
        scan (i + 1) ks r'
    else if k.tag = Tag.PG_EXECUTION_PART then do
      let r' ← record r EXECUTION_PART [i] k
      scan (i + 1) ks r'
    else if k.tag = Tag.PG_INTERNAL_SUBPROGRAM_PART then do
      let r' ← record r CONTAINED [i] k
      scan (i + 1) ks r'
    else .ok (r, some (i, k))

/-- Procedure.hh:229-238: the data members that matter here. -/
structure Procd where
  dirty : Bool
  tag : Int
  root : Option PNode
  ranges : RP Path

/-- Procedure.hh:67-68: the constructor. -/
def make : Res Procd := do
  let r ← RP.make NUM_REGION_TAG
  .ok ⟨false, Tag.UNKNOWN, none, r⟩

/-- Procedure.hh:277-282: the statement that begins the procedure, and the branches behind it. -/
def beginStmt (t : PNode) (r : RP Path) : Res (Nat × List PNode × RP Path) :=
  match t.kids with
  | [] => .error .assertion
  | k :: ks =>
    if t.tag = Tag.PG_MAIN_PROGRAM ∧ k.tag ≠ Tag.SG_PROGRAM_STMT then .ok (0, k :: ks, r)
    else if k.kids.isEmpty then do
      let r' ← record r PROC_BEGIN [0] k
      if ks.isEmpty then .error .assertion else .ok (1, ks, r')
    else .error .assertion

/-- Procedure.hh:325-328: the tags of end statements. -/
def endTags : List Int :=
  [Tag.SG_END_FUNCTION_STMT, Tag.SG_END_SUBROUTINE_STMT, Tag.SG_END_PROGRAM_STMT, Tag.SG_END_MP_SUBPROGRAM_STMT]

/-- Procedure.hh:264-337 `ingest`. -/
def ingest (p : Procd) (t : PNode) : Res (Bool × Procd) :=
  let p1 : Procd := { p with root := some t, tag := t.tag }
  if t.tag = Tag.PG_FUNCTION_SUBPROGRAM ∨ t.tag = Tag.PG_SUBROUTINE_SUBPROGRAM ∨ t.tag = Tag.PG_MAIN_PROGRAM ∨
      t.tag = Tag.PG_SEPARATE_MODULE_SUBPROGRAM then do
    let b ← beginStmt t p1.ranges
    let s ← scan b.1 b.2.1 b.2.2
    match s.2 with
    | none => .error .assertion
    | some (i, k) =>
      if k.tag ∈ endTags then do
        let r ← record s.1 PROC_END [i] k
        let _ ← r.validate
        .ok (true, { p1 with dirty := false, ranges := r })
      else .error .assertion
  else .ok (false, p1)

end Proc
end FLPR
