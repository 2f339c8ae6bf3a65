import Verif.Program.TreeSpec
import Verif.StmtParser.ParserSpec
/-!
# Specification for nests of loops

What a statement is, by what the statement parsers say of it; nests of loops of any depth made of such
statements; and the tree that each of them should have.
-/

namespace FLPR
namespace Spec
open PP
open SP (R SNode Rng Strm Exts)

/-- The statement parser `r` does not match. -/
def Not (x : Exts) (r : R) (st : LStmt) : Prop := Returns x r st.strm (.ok (none, st.strm))

/-- The statement parser `r` matches, with the tree `u`. -/
def Is (x : Exts) (r : R) (st : LStmt) (u : SNode) : Prop := ∃ q, Returns x r st.strm (.ok (some u, q)) ∧ u.tag ≠ Tag.HOIST

/-- The statement is not one that may stand between the first and the last of an execution part. -/
structure NotExec (x : Exts) (st : LStmt) : Prop where
  heads : ∀ r ∈ [R.action_stmt, .associate_stmt, .block_stmt, .select_case_stmt, .do_stmt, .if_then_stmt,
    .select_rank_stmt, .select_type_stmt, .where_construct_stmt, .forall_construct_stmt], Not x r st
  others : ∀ r ∈ [R.format_stmt, .data_stmt, .entry_stmt], Not x r st

/-- The statement is a do-stmt, with the label `l` (zero without one). -/
structure IsDo (x : Exts) (st : LStmt) (l : Int) (u : SNode) : Prop where
  before : ∀ r ∈ [R.action_stmt, .associate_stmt, .block_stmt, .select_case_stmt], Not x r st
  do_ : Is x .do_stmt st u
  label : getLabelDoLabel st.strm.all u = .ok l

/-- A piece of an execution part, each statement with its tree. -/
inductive Item where
  /-- an action statement -/
  | act (st : LStmt) (u : SNode)
  /-- a do without label, its body, and its end do -/
  | loop (d : LStmt) (du : SNode) (body : List Item) (e : LStmt) (eu : SNode)
  /-- the same with the label `l` on both -/
  | labelled (l : Int) (d : LStmt) (du : SNode) (body : List Item) (e : LStmt) (eu : SNode)
  /-- a do with the label `l` that ends with an action statement -/
  | action (l : Int) (d : LStmt) (du : SNode) (body : List Item) (e : LStmt) (eu : SNode)

mutual
/-- The pieces are what they are said to be.  `top` is the label of the innermost loop around that has
one, zero if there is none. -/
def Item.Fits (x : Exts) : Item → Int → Prop
  | .act st u, _ => st.label ≤ 0 ∧ Is x .action_stmt st u
  | .loop d du body e eu, top => d.label ≤ 0 ∧ IsDo x d 0 du ∧ Item.FitAll x body top ∧
      e.label ≤ 0 ∧ NotExec x e ∧ Is x .end_do_stmt e eu
  | .labelled l d du body e eu, top => 0 < l ∧ l ≠ top ∧ d.label ≤ 0 ∧ IsDo x d l du ∧ Item.FitAll x body l ∧
      e.label = l ∧ (∀ r ∈ [R.format_stmt, .data_stmt, .entry_stmt], Not x r e) ∧ Is x .end_do e eu
  | .action l d du body e eu, top => 0 < l ∧ l ≠ top ∧ d.label ≤ 0 ∧ IsDo x d l du ∧ Item.FitAll x body l ∧
      e.label = l ∧ (∀ r ∈ [R.format_stmt, .data_stmt, .entry_stmt], Not x r e) ∧ Not x .end_do e ∧
      Is x .action_stmt e eu
def Item.FitAll (x : Exts) : List Item → Int → Prop
  | [], _ => True
  | i :: is, top => i.Fits x top ∧ Item.FitAll x is top
end

mutual
/-- The statements of a piece. -/
def Item.flat : Item → List LStmt
  | .act st _ => [st]
  | .loop d _ body e _ => d :: Item.flatAll body ++ [e]
  | .labelled _ d _ body e _ => d :: Item.flatAll body ++ [e]
  | .action _ d _ body e _ => d :: Item.flatAll body ++ [e]
def Item.flatAll : List Item → List LStmt
  | [] => []
  | i :: is => i.flat ++ Item.flatAll is
end

/-- The node of the statement `i`. -/
def leafOf (t : Int) (i : Nat) : PNode := .node t (some (i, i + 1)) (some i) []

/-- The range `[b, e)`, written as it is when it is empty. -/
def rangeFrom (b e : Nat) : Rng := if b = e then none else some (b, e)

/-- The nodes around an executable construct. -/
def execOf (b e : Nat) (t : PNode) : PNode :=
  .node Tag.PG_EXECUTION_PART_CONSTRUCT (some (b, e)) none [.node Tag.PG_EXECUTABLE_CONSTRUCT (some (b, e)) none [t]]

mutual
/-- The tree for a piece that starts with the statement `i`. -/
def Item.tree : Item → Nat → PNode
  | .act _ u, i => execOf i (i + 1) (leafOf u.tag i)
  | .loop _ du body _ eu, i =>
    let e := i + 1 + (Item.flatAll body).length
    execOf i (e + 1) (.node Tag.PG_DO_CONSTRUCT (some (i, e + 1)) none
      [leafOf du.tag i, .node Tag.PG_BLOCK (rangeFrom (i + 1) e) none (Item.trees body (i + 1)), leafOf eu.tag e])
  | .labelled _ _ du body _ eu, i =>
    let e := i + 1 + (Item.flatAll body).length
    execOf i (e + 1) (.node Tag.PG_DO_CONSTRUCT (some (i, e + 1)) none
      [leafOf du.tag i, .node Tag.PG_BLOCK (rangeFrom (i + 1) e) none (Item.trees body (i + 1)), leafOf eu.tag e])
  | .action _ _ du body _ eu, i =>
    let e := i + 1 + (Item.flatAll body).length
    execOf i (e + 1) (.node Tag.PG_NONBLOCK_DO_CONSTRUCT (some (i, e + 1)) none
      [.node Tag.PG_ACTION_TERM_DO_CONSTRUCT (some (i, e + 1)) none
        [leafOf du.tag i, .node Tag.PG_DO_BODY (rangeFrom (i + 1) e) none (Item.trees body (i + 1)),
         .node Tag.PG_DO_TERM_ACTION_STMT (some (e, e + 1)) none [leafOf eu.tag e]]])
def Item.trees : List Item → Nat → List PNode
  | [], _ => []
  | t :: ts, i => t.tree i :: Item.trees ts (i + t.flat.length)
end

mutual
/-- The trees given to the statements of a piece, last first. -/
def Item.given : Item → Nat → List (Nat × SNode)
  | .act _ u, i => [(i, u)]
  | .loop _ du body _ eu, i => (i + 1 + (Item.flatAll body).length, eu) :: Item.givenAll body (i + 1) ++ [(i, du)]
  | .labelled _ _ du body _ eu, i => (i + 1 + (Item.flatAll body).length, eu) :: Item.givenAll body (i + 1) ++ [(i, du)]
  | .action _ _ du body _ eu, i => (i + 1 + (Item.flatAll body).length, eu) :: Item.givenAll body (i + 1) ++ [(i, du)]
def Item.givenAll : List Item → Nat → List (Nat × SNode)
  | [], _ => []
  | t :: ts, i => Item.givenAll ts (i + t.flat.length) ++ t.given i
end

end Spec
end FLPR
