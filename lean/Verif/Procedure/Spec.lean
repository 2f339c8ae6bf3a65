import Verif.Program.TreeSpec
/-!
# Specification: the regions of a procedure

Written for a program tree by itself: the branches that make up the regions, the region each belongs to
by its tag, and the statements of a region.
-/

namespace FLPR
namespace Spec
open PP
open SP (Rng)

/-- The statements under a node. -/
def stmtsUnder (t : PNode) : List Nat := squash (leavesOf t)

/-- The branches of a procedure, with those of its specification part in place of it. -/
def regionNodes (t : PNode) : List PNode :=
  t.kids.flatMap (fun k => if k.tag = Tag.PG_SPECIFICATION_PART then k.kids else [k])

/-- The region a branch belongs to: the first statement (0), `use` (1), `import` (2), the implicit part
(3), declarations (4), the execution part (5), the internal subprograms (6), the last statement (7). -/
def regionOfTag (t : Int) : Nat :=
  if t = Tag.SG_USE_STMT then 1
  else if t = Tag.SG_IMPORT_STMT then 2
  else if t = Tag.PG_IMPLICIT_PART then 3
  else if t = Tag.PG_DECLARATION_CONSTRUCT then 4
  else if t = Tag.PG_EXECUTION_PART then 5
  else if t = Tag.PG_INTERNAL_SUBPROGRAM_PART then 6
  else if t ∈ [Tag.SG_END_FUNCTION_STMT, Tag.SG_END_SUBROUTINE_STMT, Tag.SG_END_PROGRAM_STMT, Tag.SG_END_MP_SUBPROGRAM_STMT] then 7
  else 0

/-- The statements of region `i`. -/
def regionStmts (t : PNode) (i : Nat) : List Nat :=
  ((regionNodes t).filter (fun k => regionOfTag k.tag == i)).flatMap stmtsUnder

mutual
/-- All the nodes of a tree. -/
def nodesOf : PNode → List PNode
  | .node t r i ks => .node t r i ks :: nodesOfAll ks
/-- The same for some trees. -/
def nodesOfAll : List PNode → List PNode
  | [] => []
  | k :: ks => nodesOf k ++ nodesOfAll ks
end

/-- The tags of procedures. -/
def procTags : List Int :=
  [Tag.PG_FUNCTION_SUBPROGRAM, Tag.PG_SUBROUTINE_SUBPROGRAM, Tag.PG_MAIN_PROGRAM, Tag.PG_SEPARATE_MODULE_SUBPROGRAM]

/-- The node at the end of a path. -/
def nodeAt : PNode → List Nat → Option PNode
  | t, [] => some t
  | t, i :: p =>
    match t.kids[i]? with
    | some k => nodeAt k p
    | none => none

/-- The branches of a procedure are what they should be: a first statement, which a main program may be
without, the three parts, each with what belongs to it, and a last statement. -/
def ProcBranches (t : PNode) : Prop :=
  ∃ first parts last, t.kids = first ++ parts ++ [last] ∧
    ((first = [] ∧ t.tag = Tag.PG_MAIN_PROGRAM) ∨
      ∃ f, first = [f] ∧ f.kids = [] ∧
        f.tag ∈ [Tag.SG_FUNCTION_STMT, Tag.SG_SUBROUTINE_STMT, Tag.SG_PROGRAM_STMT, Tag.SG_MP_SUBPROGRAM_STMT] ∧
        (t.tag = Tag.PG_MAIN_PROGRAM → f.tag = Tag.SG_PROGRAM_STMT)) ∧
    (∀ p ∈ parts, (p.tag = Tag.PG_SPECIFICATION_PART ∧ p.kids ≠ [] ∧ p.stmt = none ∧
        (∀ k ∈ p.kids, k.tag ∈ [Tag.SG_USE_STMT, Tag.SG_IMPORT_STMT, Tag.PG_IMPLICIT_PART, Tag.PG_DECLARATION_CONSTRUCT]) ∧
        p.kids.Pairwise (fun a b => ¬ (a.tag = Tag.PG_IMPLICIT_PART ∧ b.tag = Tag.PG_IMPLICIT_PART))) ∨
      p.tag ∈ [Tag.PG_EXECUTION_PART, Tag.PG_INTERNAL_SUBPROGRAM_PART]) ∧
    (parts.map (·.tag)).Nodup ∧
    last.tag ∈ [Tag.SG_END_FUNCTION_STMT, Tag.SG_END_SUBROUTINE_STMT, Tag.SG_END_PROGRAM_STMT, Tag.SG_END_MP_SUBPROGRAM_STMT]

/-- The tree of a procedure. -/
structure IsProc (t : PNode) : Prop where
  kind : t.tag ∈ procTags
  branches : ProcBranches t
  order : ((regionNodes t).map (fun k => regionOfTag k.tag)).Pairwise (· ≤ ·)
  ranges : ∀ k ∈ regionNodes t, RangeOf k.range (leavesOf k)

end Spec
end FLPR
