import Verif.Program.Grammar
import Verif.StmtParser.Eval
import Verif.Misc.LabelStack
import Verif.LogicalLine.Model
/-!
# The program level parsers at work (src/flpr/Prgm_Parsers_utils.hh, Prgm_Parsers.hh, Prgm_Tree.hh,
`get_label_do_label` of Stmt_Tree.cc)

As for the statement parsers, running a parser takes a bound on the depth of calls and the turns of
each loop (outcome `fuel`).  The statement parsers are a parameter `sp` of everything here; it is
given the meaning of `StmtParser/Eval.lean` in `run`.

The parsers are `noexcept`, so an exception ends the program (`exc`).

An iterator into the list of statements is the number of statements before it.  The statements are
kept in a `Safe_List` (C28): behind the last statement there is a hidden, default constructed element
which may be dereferenced.  The token range of that element is default constructed.  Its two iterators
are equal and may be compared and copied, but neither read nor advanced: this is the stream `sentryStrm`.
-/

namespace FLPR
namespace PP
open SP (R SNode Rng Strm PRes PFail up)

/-- What the program level sees of an `LL_Stmt` (LL_Stmt.hh): its label and its tokens. -/
structure LStmt where
  label : Int
  strm : Strm

/-- A stream on a default constructed `LL_TT_Range`: at its end, and nothing but that can be asked. -/
def sentryStrm : Strm := ⟨[], 1, 1, 1⟩

/-- LL_Stmt.hh:30-32: the default constructed statement, hidden at the end of a `Safe_List`. -/
def sentry : LStmt := ⟨0, sentryStrm⟩

/-- Prgm_Tree.hh:26-91 with the branches: `stmt` is the statement of a leaf (`ll_stmt_iter`). -/
inductive PNode where
  | node (tag : Int) (range : Rng) (stmt : Option Nat) (kids : List PNode)

namespace PNode

def tag : PNode → Int
  | node t _ _ _ => t

def range : PNode → Rng
  | node _ r _ _ => r

def stmt : PNode → Option Nat
  | node _ _ i _ => i

def kids : PNode → List PNode
  | node _ _ _ ks => ks

end PNode

/-- Prgm_Parsers.hh:47-57 `State`: the range of statements ends at `hi`, `pos` is the current one.
`attached` are the calls of `set_stmt_tree` so far, last first, and `complaints` the number of messages
"Unrecognized statement".  `abandoned` is not in the program: it counts the parsers that gave up after
having taken statements, and nothing depends on it. -/
structure PState where
  stmts : List LStmt
  hi : Nat
  pos : Nat
  stack : LabelStack := []
  attached : List (Nat × SNode) := []
  complaints : Nat := 0
  abandoned : Nat := 0

namespace PState

/-- `*(state.ss)`. -/
def cur (s : PState) : Res LStmt :=
  match s.stmts[s.pos]? with
  | some st => .ok st
  | none => if s.pos = s.stmts.length then .ok sentry else .error .ub

/-- Safe_List.hh:417-419 `operator bool`. -/
def good (s : PState) : Bool := s.pos != s.hi

/-- Safe_List.hh:431-436 `advance`. -/
def advance (s : PState) : PState := if s.pos = s.hi then s else { s with pos := s.pos + 1 }

/-- LL_Stmt.hh:89-92 `set_stmt_tree` of the current statement. -/
def attach (s : PState) (t : SNode) : PState := { s with attached := (s.pos, t) :: s.attached }

/-- The message about an unrecognized statement, which prints the current statement (LL_Stmt.cc:84-108;
an empty statement is printed as such). -/
def complain (s : PState) : Res PState := do
  let _ ← s.cur
  .ok { s with complaints := s.complaints + 1 }

/-- For the count of abandoned constructs. -/
def giveUp (s : PState) : PState := { s with abandoned := s.abandoned + 1 }

end PState

/-- `PP_Result` and the state left behind. -/
structure POut where
  tree : Option PNode
  ok : Bool
  s : PState

/-- `PP_Result{}`. -/
def noMatch (s : PState) : POut := ⟨none, false, s⟩

/-- Prgm_Parsers_utils.hh:59-68 `hoist_back`. -/
def hoistBack (t : PNode) (donor : PNode) : PNode :=
  match t, donor with
  | .node tt r i ks, .node dt dr di dks =>
    if dt = Tag.HOIST then .node tt r i (ks ++ dks) else .node tt r i (ks ++ [.node dt dr di dks])

/-- The `if (pt) hoist_back(root, std::move(pt))` of the combinators. -/
def attachTree (t : PNode) : Option PNode → PNode
  | none => t
  | some d => hoistBack t d

/-- The successive `push_back`s of the ranges of some branches. -/
def pushAll : Rng → List PNode → Res Rng
  | r, [] => .ok r
  | r, k :: ks => do
    let r' ← r.pushBack k.range
    pushAll r' ks

/-- Prgm_Parsers_utils.hh:71-80 `cover_branches`. -/
def coverBranches : PNode → Res PNode
  | .node t _ (some i) ks => .ok (.node t (some (i, i + 1)) (some i) ks)
  | .node t _ none ks => do
    let r ← pushAll none ks
    .ok (.node t r none ks)

/-- The statement parsers as the program level calls them. -/
abbrev StmtP := R → Strm → PRes (Option SNode × Strm)

/-- Prgm_Parsers_utils.hh:395-405: `Statement_Parser`. -/
def runStmt (sp : StmtP) (r : R) (s : PState) : PRes POut := do
  let st ← up s.cur
  let o ← sp r st.strm
  match o.1 with
  | none => .ok (noMatch s)
  | some t => .ok ⟨some (.node t.tag (some (s.pos, s.pos + 1)) (some s.pos) []), true, (s.attach t).advance⟩

/-- Prgm_Parsers_utils.hh:93-103: `or_fold` over the alternatives. -/
def altsLoop (f : T → PState → PRes POut) : List T → PState → PRes POut
  | [], s => .ok (noMatch s)
  | p :: ps, s => do
    let o ← f p s
    if o.ok then .ok o else altsLoop f ps o.s

/-- Prgm_Parsers_utils.hh:178-188, 258-268, 311-322: `and_fold` over the members of a sequence. -/
def seqLoop (f : T → PState → PRes POut) : List T → PState → PNode → PRes (PNode × Bool × PState)
  | [], s, acc => .ok (acc, true, s)
  | p :: ps, s, acc => do
    let o ← f p s
    if o.ok then seqLoop f ps o.s (attachTree acc o.tree)
    else .ok (attachTree acc o.tree, false, o.s)

/-- Prgm_Parsers_utils.hh:230, 373: `while (state.ss && attach_if(parser_))`. -/
def starLoop (f : T → PState → PRes POut) (p : T) : Nat → PState → PNode → PRes (PNode × PState)
  | 0, _, _ => .error .fuel
  | n + 1, s, acc =>
    if s.good then do
      let o ← f p s
      if o.ok then starLoop f p n o.s (attachTree acc o.tree)
      else .ok (attachTree acc o.tree, o.s)
    else .ok (acc, s)

/-- Prgm_Parsers_utils.hh:541-548: the body of a do. -/
def blockLoop (f : T → PState → PRes POut) : Nat → PState → PNode → PRes (PNode × PState)
  | 0, _, _ => .error .fuel
  | n + 1, s, acc => do
    let o ← f (.rule .execution_part_construct) s
    match o.tree with
    | some t => blockLoop f n o.s (hoistBack acc t)
    | none => .ok (acc, o.s)

/-- A cursor in a statement tree, as far as it is used here: a node and the ones behind it. -/
abbrev Cur := SNode × List SNode

/-- Tree.hh:511-519 `down`. -/
def Cur.down (c : Cur) : Res Cur :=
  match c.1.kids with
  | [] => .error .assertion
  | k :: ks => .ok (k, ks)

/-- Tree.hh:496-502 `next`. -/
def Cur.next (c : Cur) : Res Cur :=
  match c.2 with
  | [] => .error .assertion
  | k :: ks => .ok (k, ks)

/-- Stmt_Tree.cc:65-67: the checks and the conversion. -/
def labelValue (toks : List Tok) (n : SNode) : Res Int :=
  if n.tag ≠ Tag.SG_INT_LITERAL_CONSTANT then .error .assertion
  else
    match n.range with
    | none => .error .assertion
    | some (b, e) =>
      if e = b + 1 then do
        let t ← SP.derefTok toks b
        stoi t.text
      else .error .assertion

/-- Stmt_Tree.cc:60-67: from the first branch of the label-do-stmt on. -/
def labelFrom (toks : List Tok) (c : Cur) : Res Int :=
  if c.1.tag = Tag.TK_NAME then do
    let c1 ← c.next
    let c2 ← c1.next
    let c3 ← c2.next
    let c4 ← c3.down
    labelValue toks c4.1
  else do
    let c3 ← c.next
    let c4 ← c3.down
    labelValue toks c4.1

/-- Stmt_Tree.cc:52-68 `get_label_do_label`. -/
def getLabelDoLabel (toks : List Tok) (t : SNode) : Res Int :=
  if t.tag = Tag.SG_DO_STMT then do
    let c ← Cur.down (t, [])
    if c.1.tag ≠ Tag.SG_LABEL_DO_STMT then .ok 0 else do
      let d ← c.down
      labelFrom toks d
  else if t.tag ≠ Tag.SG_LABEL_DO_STMT then .ok 0 else do
    let d ← Cur.down (t, [])
    labelFrom toks d

/-- How a do was found to end: the tag of the construct, that of the node for the last statement, the
tag of the last statement itself, and the state behind it. -/
structure DoEnd where
  cons : Int
  pg : Int
  sg : Int
  s : PState

/-- Prgm_Parsers_utils.hh:559-567: a do that ends without a label. -/
def endPlain (sp : StmtP) (st : LStmt) (s : PState) : PRes (Option DoEnd × PState) := do
  let o ← sp .end_do_stmt st.strm
  match o.1 with
  | none => .ok (none, s)
  | some e => .ok (some ⟨Tag.PG_DO_CONSTRUCT, Tag.HOIST, e.tag, (s.attach e).advance⟩, s)

/-- Prgm_Parsers_utils.hh:585-606: a shared last statement. -/
def endShared (sp : StmtP) (level : Int) (st : LStmt) (s : PState) : PRes (Option DoEnd × PState) := do
  let o ← sp .action_stmt st.strm
  match o.1 with
  | none => .ok (none, s)
  | some e => do
    let s1 := if level = 1 then (s.attach e).advance else s
    let k ← up (s1.stack.pop)
    .ok (some ⟨if level = 1 then Tag.PG_OUTER_SHARED_DO_CONSTRUCT else Tag.PG_INNER_SHARED_DO_CONSTRUCT,
      Tag.PG_DO_TERM_SHARED_STMT, e.tag, { s1 with stack := k }⟩, s)

/-- Prgm_Parsers_utils.hh:607-629, 631: a last statement for one do. -/
def endSingle (sp : StmtP) (st : LStmt) (s : PState) : PRes (Option DoEnd × PState) := do
  let o ← sp .end_do st.strm
  match o.1 with
  | some e => do
    let s1 := (s.attach e).advance
    let k ← up (s1.stack.pop)
    .ok (some ⟨Tag.PG_DO_CONSTRUCT, Tag.HOIST, e.tag, { s1 with stack := k }⟩, s)
  | none => do
    let o2 ← sp .action_stmt o.2
    match o2.1 with
    | none => .ok (none, s)
    | some e => do
      let s1 := (s.attach e).advance
      let k ← up (s1.stack.pop)
      .ok (some ⟨Tag.PG_ACTION_TERM_DO_CONSTRUCT, Tag.PG_DO_TERM_ACTION_STMT, e.tag, { s1 with stack := k }⟩, s)

/-- Prgm_Parsers_utils.hh:552-632: the terminating statement. -/
def doEnd (sp : StmtP) (s : PState) : PRes (Option DoEnd × PState) := do
  let st ← up s.cur
  if st.label ≤ 0 then endPlain sp st s
  else do
    let lv ← up (s.stack.level st.label)
    let s' : PState := { s with stack := lv.2 }
    if lv.1 ≤ -1 then .error (.fail .assertion)
    else if lv.1 > 0 then endShared sp lv.1 st s'
    else endSingle sp st s'

/-- Prgm_Parsers_utils.hh:634-667: the tree of the construct.  `i` and `j` are the first and the last
statement. -/
def doTree (doTag : Int) (i : Nat) (block : PNode) (j : Nat) (e : DoEnd) : Res PNode := do
  let plain := e.cons = Tag.PG_DO_CONSTRUCT
  let sub0 : PNode := .node (if plain then Tag.HOIST else e.cons) none none []
  let sub1 := hoistBack sub0 (.node doTag (some (i, i + 1)) (some i) [])
  let b ← coverBranches (.node (if plain then block.tag else Tag.PG_DO_BODY) block.range block.stmt block.kids)
  let sub2 := hoistBack sub1 b
  let term ← coverBranches (hoistBack (.node e.pg none none []) (.node e.sg (some (j, j + 1)) (some j) []))
  let sub3 := hoistBack sub2 term
  let sub ← coverBranches sub3
  coverBranches (hoistBack
    (.node (if plain then Tag.PG_DO_CONSTRUCT else Tag.PG_NONBLOCK_DO_CONSTRUCT) none none []) sub)

/-- Prgm_Parsers_utils.hh:494-671 `Legacy_Do_Construct_Parser`. -/
def runDo (sp : StmtP) (f : T → PState → PRes POut) (k : Nat) (s : PState) : PRes POut := do
  let st ← up s.cur
  let o ← sp .do_stmt st.strm
  match o.1 with
  | none => .ok (noMatch s)
  | some t => do
    let label ← up (getLabelDoLabel st.strm.all t)
    let s1 : PState := if label > 0 then { s with stack := s.stack.push label } else s
    let r ← blockLoop f k (s1.attach t).advance (.node Tag.PG_BLOCK none none [])
    let e ← doEnd sp r.2
    match e.1 with
    | none => .ok (noMatch e.2.giveUp)
    | some d => do
      let n ← up (doTree t.tag s.pos r.1 r.2.pos d)
      .ok ⟨some n, true, d.s⟩

/-- A parser function. -/
def runBody (sp : StmtP) (f : T → PState → PRes POut) (k : Nat) (b : PBody) (s : PState) : PRes POut :=
  match b with
  | .comb p => f p s
  | .exec p => do
    let st ← up s.cur
    if s.stack.isTop st.label then .ok (noMatch s) else f p s
  | .legacyDo => runDo sp f k s

/-- One layer of the combinators, given what the inner parsers do. -/
def step (sp : StmtP) (g : PR → PBody) (f : T → PState → PRes POut) (k : Nat) (p : T) (s : PState) : PRes POut :=
  match p with
  | .alts tag ps => do
    let o ← altsLoop f ps s
    if o.ok then
      match o.tree with
      | none => .error (.fail .assertion)
      | some t => do
        let n ← up (coverBranches (hoistBack (.node tag none none []) t))
        .ok ⟨some n, true, o.s⟩
    else .ok (noMatch o.s)
  | .endStream =>
    if s.good then do
      let s' ← up s.complain
      .ok (noMatch s')
    else .ok ⟨none, true, s⟩
  | .opt p => do
    let o ← f p s
    match o.tree with
    | none => .ok ⟨none, true, o.s⟩
    | some t => do
      let n ← up (coverBranches t)
      .ok ⟨some n, true, o.s⟩
  | .optSeq tag ps => do
    let r ← seqLoop f ps s (.node tag none none [])
    let n ← up (coverBranches r.1)
    .ok ⟨some n, true, r.2.2⟩
  | .plus tag p =>
    if s.good then do
      let o ← f p s
      if o.ok then do
        let r ← starLoop f p k o.s (attachTree (.node tag none none []) o.tree)
        let n ← up (coverBranches r.1)
        .ok ⟨some n, true, r.2⟩
      else .ok (noMatch o.s)
    else .ok (noMatch s)
  | .seq tag ps => do
    let r ← seqLoop f ps s (.node tag none none [])
    if r.2.1 then do
      let n ← up (coverBranches r.1)
      .ok ⟨some n, true, r.2.2⟩
    else do
      let s' ← up r.2.2.complain
      .ok (noMatch s'.giveUp)
  | .seqIf tag p ps => do
    let o ← f p s
    if o.ok then do
      let r ← seqLoop f ps o.s (attachTree (.node tag none none []) o.tree)
      if r.2.1 then do
        let n ← up (coverBranches r.1)
        .ok ⟨some n, true, r.2.2⟩
      else do
        let s' ← up r.2.2.complain
        .ok (noMatch s'.giveUp)
    else .ok (noMatch o.s)
  | .star p => do
    let r ← starLoop f p k s (.node Tag.HOIST none none [])
    let n ← up (coverBranches r.1)
    .ok ⟨some n, true, r.2⟩
  | .stmt r => runStmt sp r s
  | .tagIf tag p => do
    let o ← f p s
    match o.tree with
    | none => .ok o
    | some t => do
      let n ← up (coverBranches (hoistBack (.node tag none none []) t))
      .ok ⟨some n, o.ok, o.s⟩
  | .rule r => runBody sp f k (g r) s

/-- A parser run with a bound. -/
def eval (sp : StmtP) (g : PR → PBody) : Nat → T → PState → PRes POut
  | 0 => fun _ _ => .error .fuel
  | n + 1 => step sp g (eval sp g n) n

/-- A parser function called with the statement parsers of the library, all with the same bound. -/
def run (x : SP.Exts) (n : Nat) (r : PR) (s : PState) : PRes POut :=
  eval (SP.evalRule SP.R.body x n) PR.body n (.rule r) s

end PP
end FLPR
