import Verif.Program.AttachSpec
import Verif.StmtParser.ParserProps
/-!
# The statement tree that a statement keeps, and makes again when it is asked for (src/flpr/LL_Stmt.hh, LL_Stmt.cc)

Simplifications: of an `LL_Stmt` there are the tokens, `stmt_tree_` and `stmt_syntag_`; label, hook, prefix lines and
the number in a compound statement are not here.  The tree is kept by value and its ranges are positions, so that a tree
of an earlier text can be looked at; in the library its iterators then point to tokens that are gone.  `stmt_tree()` is
`noexcept`: an exception in it ends the program.  `assert` is taken to be on.
-/

namespace FLPR
namespace PP
open SP (SNode Strm Exts PRes up dispatch isActionStmt)

/-- LL_Stmt.hh:28-170: a statement, with `stmt_tree_` and `stmt_syntag_`. -/
structure TStmt where
  text : Strm
  tree : Option SNode
  tag : Int

/-- LL_Stmt.hh:30-35: a new statement. -/
def TStmt.new (s : Strm) : TStmt := ⟨s, none, Tag.UNKNOWN⟩

/-- LL_Stmt.hh:89-92 `set_stmt_tree`. -/
def TStmt.setTree (c : TStmt) (t : Option SNode) : Res TStmt := do
  let g ← treeTag t
  .ok { c with tree := t, tag := g }

/-- LL_Stmt.hh:93 `drop_stmt_tree`. -/
def TStmt.drop (c : TStmt) : TStmt := { c with tree := none }

/-- LL_Stmt.hh:94-97 `reset_stmt_tree`. -/
def TStmt.reset (c : TStmt) : Res TStmt := c.setTree none

/-- LL_Stmt.hh:98-104 `set_stmt_syntag`. -/
def TStmt.setTag (c : TStmt) (g : Int) : TStmt :=
  { c with tree := if g ≠ c.tag then none else c.tree, tag := g }

/-- LL_Stmt.hh:36-41 `update_range`. -/
def TStmt.updateRange (c : TStmt) (s : Strm) : TStmt := { c with text := s, tree := none }

/-- LL_Stmt.cc:60-82 `rebuild_tree_`. -/
def TStmt.rebuild (x : Exts) (n : Nat) (c : TStmt) : PRes (Bool × TStmt) :=
  if c.tag = Tag.UNKNOWN then .ok (false, c)
  else do
    let r ← (if isActionStmt c.tag then dispatch x n Tag.SG_ACTION_STMT c.text else dispatch x n c.tag c.text : PRes (Option SNode × Strm))
    let k ← up (c.setTree r.1)
    .ok (k.tree.isSome, k)

/-- LL_Stmt.hh:75-88 `stmt_tree()`: the tree is there afterwards. -/
def TStmt.stmtTree (x : Exts) (n : Nat) (c : TStmt) : PRes TStmt :=
  match c.tree with
  | some _ => .ok c
  | none => do
    let r ← c.rebuild x n
    if r.1 = true then .ok r.2 else .error (.fail .assertion)

/-- Logical_File.cc:406-410, the end of `replace_stmt_text` for a statement on a line of its own: the range of the
new text is taken, then the tag is set. -/
def TStmt.replaceText (c : TStmt) (s : Strm) (g : Int) : TStmt := TStmt.setTag { c with text := s } g

/-- Logical_File.cc:431-435, 443-447, 456-460, the end of `replace_stmt_substr`, `insert_text_after` and
`append_stmt_text`: the range of the new text is taken, then the tree is dropped. -/
def TStmt.edit (c : TStmt) (s : Strm) : TStmt := TStmt.drop { c with text := s }

end PP

namespace Spec

/-- `stmt_tree()` of this statement ends with this result: the statement afterwards, or a failure. -/
def TreeReturns (x : SP.Exts) (c : PP.TStmt) (res : Res PP.TStmt) : Prop := ∃ N, ∀ n, N ≤ n → c.stmtTree x n = SP.up res

/-- The rule that `stmt_tree()` asks for a statement with this tag. -/
def askedFor (g : Int) : Int := if SP.isActionStmt g = true then Tag.SG_ACTION_STMT else g

/-- The tags of the statements whose tree, once dropped, is not made again: for the first three the library has no parser
to ask; the others become a branch of an action statement. -/
def lostTags : List Int :=
  [Tag.SG_END_DO, Tag.SG_PRIVATE_OR_SEQUENCE, Tag.SG_TYPE_BOUND_PROC_BINDING, Tag.SG_ASSIGNMENT_STMT, Tag.SG_FORALL_STMT,
   Tag.SG_WHERE_STMT]

end Spec
end FLPR
