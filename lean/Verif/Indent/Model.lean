import Verif.LogicalFile.StmtSrc
import Verif.Program.Eval
/-!
# Model of the indentation of a parsed file (src/flpr/Indent_Table.{hh,cc}, `Parsed_File::indent` of
Parsed_File.hh, `set_leading_spaces` of LL_Stmt.cc and Logical_Line.cc)

An `int` that overflows is undefined behaviour (`ub`).  Only the tag, the statement and the branches of a
node of the program tree matter.
-/

namespace FLPR
namespace Ind
open PP

/-- An `int` addition. -/
def intAdd (a b : Int) : Res Int :=
  if -2147483648 ≤ a + b ∧ a + b ≤ 2147483647 then .ok (a + b) else .error .ub

/-- File_Line.cc:460-580 `set_leading_spaces`, for any `int`.  With a negative number the calls
`left_txt.insert(0, spaces, ' ')` and `left_space.assign(spaces, ' ')` throw `length_error`, the number
being converted to `size_t`; on the other ways through the function it acts as 0 does, except that a
comment in `main_txt` never has the number of spaces already. -/
def setLeading (f : FileLine) (n : Int) : Res (FileLine × Bool) :=
  if 0 ≤ n then f.setLeadingSpaces n.toNat
  else if f.bits.comment then
    match findChar '!' f.left_txt with
    | some _ => .error .exc
    | none =>
      match findChar '!' f.main_txt with
      | some pos =>
        .ok (if pos > 0 then { f with main_txt := f.main_txt.drop pos, left_space := f.left_space ++ blanks pos }
             else f, false)
      | none => .ok (f, false)
  else if f.isFortran = true ∧ f.left_txt = [] then .error .exc
  else f.setLeadingSpaces 0

/-- Logical_Line.cc:731-735: the loop over the lines behind the first. -/
def setRest (n : Int) : List FileLine → Res (List FileLine × Bool)
  | [] => .ok ([], false)
  | f :: fs => do
    let r ← setLeading f n
    let rs ← setRest n fs
    .ok (r.1 :: rs.1, r.2 || rs.2)

/-- Logical_Line.cc:723-737 `set_leading_spaces`.  The sum is computed only if there are further lines. -/
def setLine (l : LLine) (n cont : Int) : Res (LLine × Bool) :=
  match l.layout with
  | [] => .error .ub
  | f :: fs => do
    let r ← setLeading f n
    let c := if l.hasFortran then cont else 0
    let m ← (if fs.isEmpty then .ok n else intAdd n c : Res Int)
    let rs ← setRest m fs
    .ok ({ l with layout := r.1 :: rs.1 }, r.2 || rs.2)

/-- `(*it)->set_leading_spaces` for the line at position `j`. -/
def setAt (lines : List LLine) (j : Nat) (n cont : Int) : Res (List LLine × Bool) :=
  match lines[j]? with
  | none => .error .ub
  | some l => do
    let r ← setLine l n cont
    .ok (lines.set j r.1, r.2)

/-- LL_Stmt.cc:32-34: the loop over the prefix lines. -/
def setPrefix (n cont : Int) : List Nat → List LLine → Res (List LLine × Bool)
  | [], lines => .ok (lines, false)
  | j :: js, lines => do
    let r ← setAt lines j n cont
    let rs ← setPrefix n cont js r.1
    .ok (rs.1, r.2 || rs.2)

/-- LL_Stmt.cc:27-38 `set_leading_spaces`. -/
def setStmt (lines : List LLine) (s : LLStmt) (n cont : Int) : Res (List LLine × Bool) :=
  if n < 0 then .error .assertion
  else if s.compound < 2 then do
    let r ← setPrefix n cont s.pre lines
    match s.line with
    | none => .error .assertion
    | some j =>
      let rs ← setAt r.1 j n cont
      .ok (rs.1, r.2 || rs.2)
  else .ok (lines, false)

/-- Indent_Table.hh:25-67: the offsets by tag, and the offset of continued lines. -/
structure Table where
  offset : Int → Int
  continued : Int

/-- Indent_Table.hh:27: the constructor. -/
def Table.new : Table := ⟨fun _ => 0, 2⟩

/-- Indent_Table.hh:48-49: the tags of the program grammar. -/
def inTable (tag : Int) : Bool := decide (Tag.PG_000_LB + 1 ≤ tag) && decide (tag < Tag.PG_ZZZ_UB)

/-- Indent_Table.hh:35-40, 63-66 `get_indent`, `operator[]`. -/
def Table.get (t : Table) (tag : Int) : Res Int :=
  if inTable tag then .ok (t.offset tag) else .error .assertion

/-- Indent_Table.hh:32-34, 59-62 `set_indent`. -/
def Table.set (t : Table) (tag n : Int) : Res Table :=
  if inTable tag then .ok { t with offset := fun g => if g = tag then n else t.offset g } else .error .assertion

/-- Indent_Table.hh:70-78 `begin_end_construct`. -/
def beginEnd (tag : Int) : Bool :=
  tag == Tag.PG_DERIVED_TYPE_DEF || tag == Tag.PG_ENUM_DEF || tag == Tag.PG_CASE_CONSTRUCT

/-- The calls of `set_indent` one after the other. -/
def Table.setAll (t : Table) : List (Int × Int) → Res Table
  | [] => .ok t
  | (tag, n) :: l => do
    let t' ← t.set tag n
    t'.setAll l

/-- The loop of Indent_Table.cc:30-32, 45-47, 60-62: the calls of `set_indent` it makes. -/
def beginEndCalls (n : Int) : List (Int × Int) :=
  ((List.range (Tag.PG_ZZZ_UB - (Tag.PG_000_LB + 1)).toNat).map
    (fun k : Nat => Tag.PG_000_LB + 1 + (k : Int))).filterMap (fun i => if beginEnd i then some (i, n) else none)

/-- The seven tags that are set one by one, with `e` for the execution and the specification part, `p` for
the subprograms, and `n` for the others. -/
def partCalls (n e p : Int) : List (Int × Int) :=
  [(Tag.PG_BLOCK, n), (Tag.PG_EXECUTION_PART, e), (Tag.PG_INTERFACE_SPECIFICATION, n), (Tag.PG_INTERNAL_SUBPROGRAM, p),
    (Tag.PG_MODULE_SUBPROGRAM, p), (Tag.PG_SPECIFICATION_PART, e), (Tag.PG_WHERE_BODY_CONSTRUCT, n)]

/-- Indent_Table.cc:21-34 `apply_constant_indent`. -/
def Table.constant (t : Table) (n : Int) : Res Table := do
  let t' ← t.setAll (partCalls n n n ++ beginEndCalls n)
  .ok { t' with continued := 5 }

/-- Indent_Table.cc:36-49 `apply_emacs_indent`. -/
def Table.emacs (t : Table) : Res Table := do
  let t' ← t.setAll (partCalls 3 2 2 ++ beginEndCalls 3)
  .ok { t' with continued := 5 }

/-- Indent_Table.cc:51-64 `apply_constant_fixed_indent`. -/
def Table.fixed (t : Table) (n : Int) : Res Table := do
  let t' ← t.setAll (partCalls n 0 n ++ beginEndCalls n)
  .ok { t' with continued := 5 }

/-- `*ll_stmt_iter_`: behind the last statement there is the hidden, default constructed one. -/
def stmtAt (stmts : List LLStmt) (i : Nat) : Res LLStmt :=
  match stmts[i]? with
  | some s => .ok s
  | none => if i = stmts.length then .ok {} else .error .ub

/-- Parsed_File.hh:211-220: a leaf. -/
def indentLeaf (tab : Table) (stmts : List LLStmt) (st : Option Nat) (cur : Int) (lines : List LLine) :
    Res (List LLine × Bool) :=
  match st with
  | none => .ok (lines, false)
  | some i => do
    let s ← stmtAt stmts i
    if s.compound < 2 then setStmt lines s cur tab.continued else .ok (lines, false)

mutual
/-- Parsed_File.hh:204-252 `indent_recurse_`. -/
def indentNode (tab : Table) (stmts : List LLStmt) : PNode → Int → List LLine → Res (List LLine × Bool)
  | .node _ _ st [], cur, lines => indentLeaf tab stmts st cur lines
  | .node tag _ _ (k :: ks), cur, lines =>
    if beginEnd tag then
      if ks.isEmpty then .error .assertion
      else do
        let r ← indentNode tab stmts k cur lines
        let x ← tab.get tag
        let mid ← intAdd cur x
        let rs ← indentTail tab stmts ks mid cur r.1
        .ok (rs.1, r.2 || rs.2)
    else do
      let x ← tab.get tag
      let c ← intAdd cur x
      let r ← indentNode tab stmts k c lines
      let rs ← indentAll tab stmts ks c r.1
      .ok (rs.1, r.2 || rs.2)
/-- Parsed_File.hh:245-248: the branches, all the same. -/
def indentAll (tab : Table) (stmts : List LLStmt) : List PNode → Int → List LLine → Res (List LLine × Bool)
  | [], _, lines => .ok (lines, false)
  | k :: ks, cur, lines => do
    let r ← indentNode tab stmts k cur lines
    let rs ← indentAll tab stmts ks cur r.1
    .ok (rs.1, r.2 || rs.2)
/-- Parsed_File.hh:235-242: the branches behind the first one of a begin/end construct; the last has the
indentation `last`, the others `mid`.  Subtracting what was added gives the number there was before. -/
def indentTail (tab : Table) (stmts : List LLStmt) : List PNode → Int → Int → List LLine → Res (List LLine × Bool)
  | [], _, _, lines => .ok (lines, false)
  | k :: ks, mid, last, lines => do
    let r ← indentNode tab stmts k (if ks.isEmpty then last else mid) lines
    let rs ← indentTail tab stmts ks mid last r.1
    .ok (rs.1, r.2 || rs.2)
end

/-- Parsed_File.hh:101-105 `indent`, on the tree of the file (`none`: an empty tree). -/
def indent (tab : Table) (stmts : List LLStmt) (tree : Option PNode) (lines : List LLine) : Res (List LLine × Bool) :=
  match tree with
  | none => .ok (lines, false)
  | some t => indentNode tab stmts t 0 lines

end Ind
end FLPR
