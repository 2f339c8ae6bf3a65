import Verif.LogicalFile.StmtSrc
import Verif.LogicalFile.Scan
import Verif.Utils.Model
import Verif.Program.Eval
import Verif.Procedure.Model
import Verif.Indent.Model
/-!
# Model of `Parsed_File` (src/flpr/Parsed_File.hh) and of reading a file (src/flpr/Logical_File.cc)

A file on disk is its list of lines, or `none` if it cannot be opened.  The program parser is a parameter
`parse`; it is given its meaning in `Props.lean`.  The hook of a statement (LL_Stmt.hh:61-64) is the path to
the node that it points to.  `from_stream_`, which is written and never read, and messages are left out.
-/

namespace FLPR
namespace PF
open PP
open Proc (Path)
open SP (Strm)

/-- Logical_File.cc:65-84 `scan`, up to the point where lines are made: `none` when `false` is returned. -/
def scanAs (type : FileType) (lastCol : Int) (raws : List Str) : Res (Option (List Group)) :=
  match type with
  | .fixedfmt => scanFixed raws lastCol
  | .freefmt => scanFree raws
  | .unknown => .ok none

/-- Logical_File.cc:37-84 `read_and_scan`: the lines that are appended to `lines`, `none` when `false` is
returned. -/
def readAndScan (st : Flex.State) (disk : Option (List Str)) (name : Str) (lastCol : Int) (given : FileType) :
    Res (Option (List LLine) × Flex.State) :=
  match disk with
  | none => .ok (none, st)
  | some raws => do
    let type ← fileInfoType name given
    match ← scanAs type lastCol raws with
    | none => .ok (none, st)
    | some gs => do
      let r ← buildLines st gs
      .ok (some r.1, r.2)

/-- The hooks of the statements. -/
abbrev Hooks := Nat → Option Path

/-- Parsed_File.hh:121-125, with the members of `logical_file_` that are used. -/
structure PFile where
  lines : List LLine := []
  stmts : List LLStmt := []
  hooks : Hooks := fun _ => none
  tree : Option PNode := none
  bad : Bool := true
  stmtsOk : Bool := false
  treeOk : Bool := false

/-- Parsed_File.hh:141-143, 153-155, 164-166: what is done with the result of `read_and_scan`. -/
def PFile.load (pf : PFile) : Option (List LLine) → PFile
  | none => pf
  | some ls => { pf with lines := pf.lines ++ ls, bad := false }

/-- Parsed_File.hh:137-156: the constructors. -/
def PFile.make (st : Flex.State) (disk : Option (List Str)) (name : Str) (lastCol : Int) (type : FileType) : Res (PFile × Flex.State) := do
  let r ← readAndScan st disk name lastCol type
  .ok (PFile.load {} r.1, r.2)

/-- Parsed_File.hh:65 `operator bool`. -/
def PFile.good (pf : PFile) : Bool := !pf.bad

/-- Parsed_File.hh:158-168 `read_file`. -/
def PFile.readFile (st : Flex.State) (pf : PFile) (disk : Option (List Str)) (name : Str) (lastCol : Int) (type : FileType) :
    Res (Bool × PFile × Flex.State) :=
  if pf.bad = false then .error .assertion
  else do
    let r ← readAndScan st disk name lastCol type
    let pf' := pf.load r.1
    .ok (pf'.bad, pf', r.2)

/-- Parsed_File.hh:129-134 `build_stmts_`.  The new statements have no hooks.  (`makeStmts` has a bound on its
loop, which suffices by C19.) -/
def PFile.buildStmts (pf : PFile) : Res PFile :=
  if pf.bad then .ok pf
  else do
    match ← makeStmts pf.lines with
    | none => .error .ub
    | some ss => .ok { pf with stmts := ss, hooks := fun _ => none, stmtsOk := true }

/-- Parsed_File.hh:78-82 `prefetch_statements`. -/
def PFile.prefetchStmts (pf : PFile) : Res PFile := if pf.stmtsOk then .ok pf else pf.buildStmts

/-- Parsed_File.hh:85-88 `statements`. -/
def PFile.statements (pf : PFile) : Res (List LLStmt × PFile) := do
  let pf' ← pf.prefetchStmts
  .ok (pf'.stmts, pf')

/-- What the program parser sees of a statement: TT_Stream.hh:55-58 on LL_Stmt.hh:25-46. -/
def stmtView (lines : List LLine) (s : LLStmt) : LStmt :=
  match s.line, s.range with
  | some j, some (b, e) =>
    match lines[j]? with
    | some l => ⟨s.label, Strm.mk' l.frags b e⟩
    | none => ⟨s.label, sentryStrm⟩
  | _, _ => ⟨s.label, sentryStrm⟩

/-- Prgm_Parsers.hh:50-53: `State` made of all the statements. -/
def stateOf (lines : List LLine) (ss : List LLStmt) : PState :=
  { stmts := ss.map (stmtView lines), hi := ss.length, pos := 0 }

/-- LL_Stmt.hh:61 `set_hook`. -/
def setHook (h : Hooks) (i : Nat) (p : Path) : Hooks := fun j => if j = i then some p else h j

mutual
/-- Parsed_File.hh:191-203 `link_stmts_recurse_`, on the node at `p`. -/
def link (p : Path) : PNode → Hooks → Hooks
  | .node _ _ (some i) [], h => setHook h i p
  | .node _ _ none [], h => h
  | .node _ _ _ (k :: ks), h => linkAll p 1 ks (link (p ++ [0]) k h)
/-- Parsed_File.hh:199-201: the loop over the branches, from number `i` on. -/
def linkAll (p : Path) (i : Nat) : List PNode → Hooks → Hooks
  | [], h => h
  | k :: ks, h => linkAll p (i + 1) ks (link (p ++ [i]) k h)
end

/-- Parsed_File.hh:170-189 `build_tree_`. -/
def PFile.buildTree (parse : PState → Res POut) (pf : PFile) : Res PFile :=
  if pf.bad then .ok pf
  else do
    let r ← pf.statements
    if r.1 = [] then .ok { r.2 with tree := none, treeOk := true }
    else do
      let o ← parse (stateOf r.2.lines r.1)
      match o.tree with
      | none => .error .assertion
      | some t => .ok { r.2 with tree := some t, bad := if o.ok then r.2.bad else true, hooks := link [] t r.2.hooks, treeOk := true }

/-- Parsed_File.hh:91-95 `prefetch_parse_tree`. -/
def PFile.prefetchTree (parse : PState → Res POut) (pf : PFile) : Res PFile := if pf.treeOk then .ok pf else pf.buildTree parse

/-- Parsed_File.hh:98-101 `parse_tree`. -/
def PFile.parseTree (parse : PState → Res POut) (pf : PFile) : Res (Option PNode × PFile) := do
  let pf' ← pf.prefetchTree parse
  .ok (pf'.tree, pf')

/-- Parsed_File.hh:104-108 `indent`. -/
def PFile.indent (parse : PState → Res POut) (tab : Ind.Table) (pf : PFile) : Res (Bool × PFile) := do
  let r ← pf.parseTree parse
  let q ← Ind.indent tab r.2.stmts r.1 r.2.lines
  .ok (q.2, { r.2 with lines := q.1 })

/-- Parsed_File.hh:111-118 `stmt_to_node_cursor`, `none` being a default constructed cursor. -/
def PFile.nodeCursor (pf : PFile) (i : Nat) : Option Path := pf.hooks i

/-- What a user asks of a file. -/
inductive Op where
  /-- `operator bool` -/
  | good
  /-- `prefetch_statements` -/
  | preStmts
  /-- `statements` -/
  | stmts
  /-- `prefetch_parse_tree` -/
  | preTree
  /-- `parse_tree` -/
  | tree
  /-- `stmt_to_node_cursor` of the statement with this number -/
  | node (i : Nat)

/-- What the user gets to see. -/
inductive Seen where
  | flag (b : Bool)
  | stmts (l : List LLStmt)
  | tree (t : Option PNode)
  | node (p : Option Path)

/-- One question. -/
def PFile.ask (parse : PState → Res POut) (pf : PFile) : Op → Res (Seen × PFile)
  | .good => .ok (.flag pf.good, pf)
  | .preStmts => do
    let pf' ← pf.prefetchStmts
    .ok (.flag pf'.stmtsOk, pf')
  | .stmts => do
    let r ← pf.statements
    .ok (.stmts r.1, r.2)
  | .preTree => do
    let pf' ← pf.prefetchTree parse
    .ok (.flag pf'.treeOk, pf')
  | .tree => do
    let r ← pf.parseTree parse
    .ok (.tree r.1, r.2)
  | .node i => .ok (.node (pf.nodeCursor i), pf)

/-- Questions one after the other. -/
def PFile.askAll (parse : PState → Res POut) (pf : PFile) : List Op → Res (List Seen)
  | [] => .ok []
  | q :: qs => do
    let r ← pf.ask parse q
    let l ← r.2.askAll parse qs
    .ok (r.1 :: l)

end PF
end FLPR
