import Verif.Procedure.EndStmt
import Verif.StmtParser.BuildSpec
/-!
# Model of the application `module` (apps/module_base.cc), and the specification of C73

`s` has the statements as the program parser left them, with their trees; `fl` has the lines.
-/

namespace FLPR
namespace Apps
open PP Reg Proc
open SP (SNode)

/-- Tree.hh:496-502 `next(count)`. -/
def nextN : Nat → Cur → Res Cur
  | 0, c => .ok c
  | n + 1, c => do
    let c' ← c.next
    nextN n c'

/-- `while (c.has_next()) c.next(1)`. -/
def lastSibling (c : Cur) : Cur :=
  match c.2.getLast? with
  | none => c
  | some k => (k, [])

/-- `assert(tag == c->syntag)`. -/
def need (c : Cur) (tag : Int) : Res Unit := if c.1.tag = tag then .ok () else .error .assertion

/-- `c->token_range.front()`; an empty range has none. -/
def frontTok (toks : List Tok) (n : SNode) : Res Tok :=
  match n.range with
  | none => .error .ub
  | some (b, e) => if b < e then SP.derefTok toks b else .error .ub

/-- apps/module_base.cc:120-130: from the root to the action statement. -/
def toAction (tag : Int) (t : SNode) : Res Cur :=
  if tag = Tag.SG_IF_STMT then do
    need (t, []) Tag.SG_ACTION_STMT
    let c1 ← Cur.down (t, [])
    need c1 Tag.SG_IF_STMT
    let c2 ← c1.down
    need c2 Tag.KW_IF
    nextN 4 c2
  else .ok (t, [])

/-- apps/module_base.cc:141-161: from the call statement to the name of the procedure. -/
def toCallee (c : Cur) : Res Cur := do
  let c1 ← c.down
  need c1 Tag.KW_CALL
  let c2 ← c1.next
  need c2 Tag.SG_PROCEDURE_DESIGNATOR
  let c3 ← c2.down
  let c4 := if c3.1.tag = Tag.SG_PART_REF then lastSibling c3 else c3
  need c4 Tag.TK_NAME
  .ok c4

/-- apps/module_base.cc:109-162 `has_call_named`, for the tree `t` of a statement with `syntax_tag()` `tag`. -/
def callNamed (toks : List Tok) (names : List Str) (tag : Int) (t : SNode) : Res Bool :=
  if tag ≠ Tag.SG_CALL_STMT ∧ tag ≠ Tag.SG_IF_STMT then .ok false
  else do
    let c0 ← toAction tag t
    need c0 Tag.SG_ACTION_STMT
    let c1 ← c0.down
    if c1.1.tag ≠ Tag.SG_CALL_STMT then .ok false
    else do
      let c2 ← toCallee c1
      let a ← frontTok toks c2.1
      .ok (decide (a.lowerText.1 ∈ names))

/-- apps/module_base.cc:109-162 `has_call_named`, for statement `j`; LL_Stmt.hh:72 `syntax_tag()`. -/
def hasCall (s : PState) (names : List Str) (j : Nat) : Res Bool := do
  let tag ← treeTag (s.treeOf j)
  if tag ≠ Tag.SG_CALL_STMT ∧ tag ≠ Tag.SG_IF_STMT then .ok false
  else do
    let t ← stmtTree s j
    callNamed t.1 names tag t.2

/-- apps/module_base.cc:164-176 `find_use_module_name`. -/
def useCur (t : SNode) : Res Cur := do
  need (t, []) Tag.SG_USE_STMT
  let c1 ← Cur.down (t, [])
  need c1 Tag.KW_USE
  let c2 ← c1.next
  let c3 ← if c2.1.tag = Tag.TK_COMMA then nextN 2 c2 else (.ok c2 : Res Cur)
  let c4 ← if c3.1.tag = Tag.TK_DBL_COLON then c3.next else (.ok c3 : Res Cur)
  need c4 Tag.TK_NAME
  .ok c4

/-- apps/module_base.cc:91-93: the name of the module of statement `j`, in lower case. -/
def useName (s : PState) (j : Nat) : Res Str := do
  let t ← stmtTree s j
  let c ← useCur t.2
  let i ← oneToken c.1
  let a ← SP.derefTok t.1 i
  .ok a.lowerText.1

/-- The statements from one iterator to another, by their numbers; Safe_List.hh:62-75: the constructor of a range counts
them, which must come to an end. -/
def stmtsBetween (b e : It) : Res (List Nat) :=
  match b, e with
  | none, none => .ok []
  | some b, some e => if b ≤ e then .ok (List.range' b (e - b)) else .error .ub
  | _, _ => .error .ub

/-- apps/module_base.cc:78-83: the loop over the execution part. -/
def anyCall (s : PState) (names : List Str) : List Nat → Res Bool
  | [] => .ok false
  | j :: js => do
    let b ← hasCall s names j
    if b = true then .ok true else anyCall s names js

/-- apps/module_base.cc:90-95: the loop over the use statements, which does not stop at the first. -/
def anyUse (s : PState) (lc : Str) : Bool → List Nat → Res Bool
  | found, [] => .ok found
  | found, j :: js => do
    let nm ← useName s j
    anyUse s lc (found || decide (nm = lc)) js

/-- apps/module_base.hh:60-65: the data members that matter; `only_names_` is empty. -/
structure ModuleAction where
  name : Str
  lc : Str
  subs : List Str

/-- apps/module_base.hh:39-48: the constructor and the calls of `add_subroutine_name`. -/
def ModuleAction.make (name : Str) (subs : List Str) : ModuleAction := ⟨name, name.map lowChar, subs.map (·.map lowChar)⟩

/-- apps/module_base.cc:56-105 `Module_Action::operator()`, on the node `n`; `lineOf` makes a line of a text.  What is
done with the new statement behind `emplace_stmt` is left out: no call of that comes back (C33). -/
def ModuleAction.run (lineOf : Str → Res LLine) (m : ModuleAction) (s : PState) (fl : LFile) (n : PNode) (internal : Bool) :
    Res (Bool × LFile) :=
  if internal = true then .ok (false, fl) else do
  let p0 ← Proc.make
  let r ← ingest p0 n
  if r.1 = false then .ok (false, fl) else do
  let e ← r.2.ranges.empty EXECUTION_PART
  if e = true then do
    let _ ← r.2.name s
    .ok (false, fl)
  else do
  let b ← r.2.ranges.cbegin EXECUTION_PART
  let e ← r.2.ranges.cend EXECUTION_PART
  let js ← stmtsBetween b e
  let found ← anyCall s m.subs js
  if found = false then .ok (false, fl) else do
  let ub ← r.2.ranges.mbegin USES
  let ue ← ub.2.mend USES
  let us ← stmtsBetween ub.1 ue.1
  let used ← anyUse s m.lc false us
  if used = true then .ok (true, fl) else do
  let pos ← ue.2.mend USES
  let ll ← lineOf ("use ".toList ++ m.name)
  match pos.1 with
  | none => .error .ub
  | some pos' => do
    let w ← ({ r.2 with ranges := pos.2 } : Procd).emplaceAfterPrefix fl USES pos' ll Tag.SG_USE_STMT
    .ok (true, w.1)

end Apps

namespace Spec
open PP
open SP (Strm SNode)

/-- `a` is the name of the procedure in the tokens of a call (R1521 call-stmt, R1522 procedure-designator): it is the name
in front of the arguments, which are in parentheses at the end, or else the last token. -/
def Callee (ts : List Tok) (a : Tok) : Prop :=
  NameTag a.token ∧ ∃ k d args, ts = k :: (d ++ a :: args) ∧ k.token = Tag.KW_CALL ∧
    (d = [] ∨ ∃ d' c, d = d' ++ [c] ∧ c.token = Tag.TK_PERCENT) ∧
    (args = [] ∨ ∃ mid, args.map (·.token) = Tag.TK_PARENL :: (mid ++ [Tag.TK_PARENR]) ∧ BalancedParens mid)

/-- `if (...)` in front of an action statement (R1139 if-stmt). -/
def ifHead : Form := .seqs [.word Tag.KW_IF, .paren .expr]

/-- `action_stmt` takes the tokens from where the stream is for a statement of the kind `u`. -/
def Action (st : Strm) (u : Int) : Prop := ∃ t q k, Returns noExts .action_stmt st (.ok (some t, q)) ∧ t.kids = [k] ∧ k.tag = u

/-- The statement is a call of one of `names`, or an if statement with such a call. -/
def Calls (st : Strm) (names : List Str) : Prop :=
  (Action st Tag.SG_CALL_STMT ∧ ∃ a, Callee (restOf st) a ∧ a.lowerText.1 ∈ names) ∨
  (Action st Tag.SG_IF_STMT ∧ ∃ i w, restOf st = w ++ restOf (st.goto i) ∧ ifHead.Is w ∧ Action (st.goto i) Tag.SG_CALL_STMT ∧
    ∃ a, Callee (restOf (st.goto i)) a ∧ a.lowerText.1 ∈ names)

/-- `a` is the name of the module in the tokens of a use statement (R1409 use-stmt). -/
def UsedModule (ts : List Tok) (a : Tok) : Prop :=
  NameTag a.token ∧ ∃ k nat rest, ts = k :: (nat ++ a :: rest) ∧ k.token = Tag.KW_USE ∧
    (nat = [] ∨ nat.map (·.token) = [Tag.TK_DBL_COLON] ∨
      ∃ n ∈ [Tag.KW_INTRINSIC, Tag.KW_NON_INTRINSIC], nat.map (·.token) = [Tag.TK_COMMA, n, Tag.TK_DBL_COLON])

end Spec
end FLPR
