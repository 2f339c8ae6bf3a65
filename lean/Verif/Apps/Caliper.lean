import Verif.Apps.Module
/-!
# Model of the application `caliper` (apps/caliper.cc), and the specification of C80

As in `Module.lean`, `s` has the statements as the program parser left them, with their trees, and `fl` has the lines.
`hooked j` says whether statement `j` has a hook (LL_Stmt.hh:64 `has_hook`).
-/

namespace FLPR
namespace Apps
open PP Reg Proc
open SP (SNode)

/-- apps/caliper.cc:169-175: the loop over the branches of a prefix. -/
def pureLoop : List SNode → Res Bool
  | [] => .ok false
  | k :: ks => do
    need (k, ks) Tag.SG_PREFIX_SPEC
    let c ← Cur.down (k, ks)
    if c.1.tag = Tag.KW_PURE ∨ c.1.tag = Tag.KW_ELEMENTAL then .ok true else pureLoop ks

/-- apps/caliper.cc:164-178, from the tree of the first statement on. -/
def excludeTree (t : SNode) : Res Bool := do
  let c ← Cur.down (t, [])
  if c.1.tag = Tag.SG_PREFIX then pureLoop c.1.kids else .ok false

/-- apps/caliper.cc:159-179 `exclude_procedure`. -/
def excluded (s : PState) (p : Procd) : Res Bool := do
  let h ← p.headless
  if h = true then .ok false
  else do
    let j ← p.stmtAt PROC_BEGIN
    let t ← stmtTree s j
    excludeTree t.2

/-- LL_Stmt.cc:40-58 `stmt_tag(true)`. -/
def stmtTagIn (s : PState) (j : Nat) : Res Int := do
  let tag ← treeTag (s.treeOf j)
  if tag = Tag.SG_IF_STMT then do
    let t ← stmtTree s j
    let c ← toAction tag t.2
    need c Tag.SG_ACTION_STMT
    let k ← c.down
    .ok (-k.1.tag)
  else .ok tag

/-- The numbers of returns that apps/caliper.cc:183-209 counts, which are taken to be in the range of `int`. -/
structure Tally where
  inIf : Nat
  inner : Nat
  final : Nat
  deriving DecidableEq, Repr

/-- apps/caliper.cc:192-207: the loop; the last statement is the one with none behind it. -/
def tallyLoop (s : PState) (hooked : Nat → Bool) : List Nat → Tally → Res Tally
  | [], n => .ok n
  | j :: js, n =>
    if hooked j = false then .error .assertion
    else do
      let tag ← stmtTagIn s j
      tallyLoop s hooked js
        (if tag < 0 then (if Tag.SG_RETURN_STMT = -tag then { n with inIf := n.inIf + 1 } else n)
        else if Tag.SG_RETURN_STMT = tag then (if js = [] then { n with final := n.final + 1 } else { n with inner := n.inner + 1 })
        else n)

/-- apps/caliper.cc:183-209 `count_return_stmts`. -/
def tally (s : PState) (hooked : Nat → Bool) (p : Procd) : Res Tally := do
  let b ← p.ranges.cbegin EXECUTION_PART
  let e ← p.ranges.cend EXECUTION_PART
  let js ← stmtsBetween b e
  let n ← tallyLoop s hooked js ⟨0, 0, 0⟩
  if n.final = 0 ∨ n.final = 1 then .ok n else .error .assertion

/-- apps/caliper.cc:74-155 `caliper_procedure`, on the node `n`; `lineOf` makes a line of a text.  What is done behind the
first `emplace_stmt` is left out: no call of that comes back (C33). -/
def caliper (lineOf : Str → Res LLine) (s : PState) (hooked : Nat → Bool) (fl : LFile) (n : PNode) (internal : Bool) :
    Res (Bool × LFile) :=
  if internal = true then .ok (false, fl) else do
  let p0 ← Proc.make
  let r ← ingest p0 n
  if r.1 = false then .ok (false, fl) else do
  let e ← r.2.ranges.empty EXECUTION_PART
  if e = true then do
    let _ ← r.2.name s
    .ok (false, fl)
  else do
  let x ← excluded s r.2
  if x = true then do
    let _ ← r.2.name s
    .ok (false, fl)
  else do
  let _ ← tally s hooked r.2
  let nm ← r.2.name s
  let pos ← r.2.ranges.mbegin EXECUTION_PART
  let ll ← lineOf ("call caliper_begin('".toList ++ nm ++ "')".toList)
  match pos.1 with
  | none => .error .ub
  | some pos' => do
    let w ← ({ r.2 with ranges := pos.2 } : Procd).emplaceAfterPrefix fl EXECUTION_PART pos' ll Tag.SG_CALL_STMT
    .ok (true, w.1)

/-- apps/caliper.cc:134-147: the label for the end, from the labels in use, counting down from 9999. -/
def pickLabel (used : List Int) : Nat → Res Nat
  | 0 => .error .assertion
  | k + 1 => if ((k + 1 : Nat) : Int) ∈ used then pickLabel used k else .ok (k + 1)

/-- apps/caliper.cc:134-147, for an end statement without a label. -/
def newLabel (s : PState) (p : Procd) : Res Nat := do
  let used ← p.labels s
  pickLabel used 9999

end Apps

namespace Spec
open PP
open SP (Strm SNode)

/-- R1527 prefix-spec. -/
def prefixSpec : Form :=
  .oneOf [.word Tag.KW_ELEMENTAL, .word Tag.KW_IMPURE, .word Tag.KW_MODULE, .word Tag.KW_NON_RECURSIVE,
    .word Tag.KW_PURE, .word Tag.KW_RECURSIVE, Std.declarationTypeSpec]

/-- The tokens of a function or subroutine statement, with the prefix in its parts. -/
def Prefixed (ts : List Tok) (ws : List (List Tok)) : Prop :=
  (∀ w ∈ ws, prefixSpec.Is w) ∧ ∃ k rest, ts = ws.flatten ++ k :: rest ∧ k.token ∈ [Tag.KW_FUNCTION, Tag.KW_SUBROUTINE]

/-- One of the parts of the prefix is the word `pure` or `elemental`. -/
def PurePrefix (ts : List Tok) : Prop :=
  ∃ ws, Prefixed ts ws ∧ ∃ w ∈ ws, w.map (·.token) ∈ [[Tag.KW_PURE], [Tag.KW_ELEMENTAL]]

/-- The node `n` is a function or subroutine, and the first statement of it says that it is pure or elemental. -/
def PureProc (s : PState) (n : PNode) : Prop :=
  n.tag ∈ [Tag.PG_FUNCTION_SUBPROGRAM, Tag.PG_SUBROUTINE_SUBPROGRAM] ∧
    ∃ k j st, n.kids.head? = some k ∧ k.stmt = some j ∧ s.stmts[j]? = some st ∧ PurePrefix (restOf st.strm)

/-- An if statement with a return in it. -/
def IfReturn (st : Strm) : Prop :=
  Action st Tag.SG_IF_STMT ∧ ∃ i w, i ≤ st.hi ∧ restOf st = w ++ restOf (st.goto i) ∧ ifHead.Is w ∧ Action (st.goto i) Tag.SG_RETURN_STMT

end Spec
end FLPR
