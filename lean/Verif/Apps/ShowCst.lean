import Verif.StmtParser.ParserSpec
import Verif.StmtParser.Cursor
import Verif.Tags.Registry
/-!
# Model of the loop of `flpr_show_cst` (apps/flpr_show_cst.cc)

For each statement the program tries every statement parser in turn on one token stream, and prints the
trees it gets.

Simplifications.  A tree stands for its text on standard output, and the banner on standard error is left
out, as are the messages of `parse_stmt_dispatch` for tags it has no parser for (there are none among those
tried, `C87_tried`).  Scanning the file is C06 and C07, the statements are C19.
-/

namespace FLPR
namespace Apps
open SP

/-- A line on standard output: a numbered tree, or `Unrecognized:` with the statement. -/
inductive ShowLine where
  | tree (k : Nat) (t : SNode)
  | unrecognized

/-- The numbers of the loop at flpr_show_cst.cc:84-85. -/
def sgIds : List Int :=
  (List.range (Tag.SG_ZZZ_UB - (Tag.SG_000_LB + 1)).toNat).map fun (i : Nat) => Tag.SG_000_LB + 1 + i

/-- flpr_show_cst.cc:87 `FLPR::Syntax_Tags::type(sg_id) == 5`. -/
def isStmtTag (tag : Int) : Bool :=
  match Registry.type [] tag with
  | .ok v => v == 5
  | .error _ => false

/-- flpr_show_cst.cc:84-97, the loop over the tags from `results = k` and a stream: the lines it prints and
the last value of `results`, or how it fails. -/
inductive ShowLoop (x : Exts) : List Int → Nat → Strm → Res (List ShowLine × Nat) → Prop
  /-- The end of the loop. -/
  | done {k s} : ShowLoop x [] k s (.ok ([], k))
  /-- Line 87, not a statement. -/
  | skip {tag tags k s res} : isStmtTag tag = false → ShowLoop x tags k s res → ShowLoop x (tag :: tags) k s res
  /-- Line 90, no tree: the stream is not rewound. -/
  | no {tag tags k s s' res} : isStmtTag tag = true → Spec.DispatchReturns x tag s (.ok (none, s')) →
      ShowLoop x tags k s' res → ShowLoop x (tag :: tags) k s res
  /-- Lines 91-94. -/
  | yes {tag tags k s s' t out k'} : isStmtTag tag = true → Spec.DispatchReturns x tag s (.ok (some t, s')) →
      ShowLoop x tags (k + 1) s'.rewind (.ok (out, k')) → ShowLoop x (tag :: tags) k s (.ok (.tree (k + 1) t :: out, k'))
  /-- The same with a failure later on. -/
  | yesFail {tag tags k s s' t e} : isStmtTag tag = true → Spec.DispatchReturns x tag s (.ok (some t, s')) →
      ShowLoop x tags (k + 1) s'.rewind (.error e) → ShowLoop x (tag :: tags) k s (.error e)
  /-- Line 88 fails. -/
  | fail {tag tags k s e} : isStmtTag tag = true → Spec.DispatchReturns x tag s (.error e) →
      ShowLoop x (tag :: tags) k s (.error e)

/-- flpr_show_cst.cc:77-101, what is printed for one statement, whose token stream is `s`. -/
inductive ShowStmt (x : Exts) (s : Strm) : Res (List ShowLine) → Prop
  /-- Line 98, `results` is not 0. -/
  | trees {out k} : ShowLoop x sgIds 0 s (.ok (out, k)) → k ≠ 0 → ShowStmt x s (.ok out)
  /-- Line 99. -/
  | none {out} : ShowLoop x sgIds 0 s (.ok (out, 0)) → ShowStmt x s (.ok (out ++ [.unrecognized]))
  /-- A parser failed. -/
  | fail {e} : ShowLoop x sgIds 0 s (.error e) → ShowStmt x s (.error e)

end Apps

namespace Spec
open SP Apps

/-- The parser with this number, asked about the whole statement, returns the tree. -/
def Accepts (x : Exts) (s : Strm) (tag : Int) (t : SNode) : Prop := ∃ q, DispatchReturns x tag s (.ok (some t, q))

/-- These trees, numbered from 1. -/
def numbered (ts : List SNode) : List ShowLine := ts.mapIdx fun i t => .tree (i + 1) t

end Spec
end FLPR
