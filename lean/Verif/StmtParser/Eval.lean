import Verif.StmtParser.Grammar
import Verif.StmtParser.Stream
/-!
# The statement parsers at work (src/flpr/Stmt_Parsers.hh, Stmt_Tree.cc, Stmt_Parser_Exts.cc and the
hand written functions of parse_stmt.cc)

Parsers may call each other without bound and `star` may go on for ever, so running a parser takes a
number that bounds the depth of calls and the turns of each loop; running out of it is the outcome
`fuel`, which is neither a result nor a failure of the program.  That some number is always enough is
a theorem (C52), not part of the model.

The trees are modelled by value; that the linked trees of Tree.hh behave like that is C30.
-/

namespace FLPR
namespace SP
open Registry

/-- Why there is no result: the bound was too small, or the program did not return normally. -/
inductive PFail where
  | fuel
  | fail (f : Fail)
  deriving DecidableEq, Repr

/-- The result of running a parser. -/
abbrev PRes := Except PFail

/-- A stream operation within a parser. -/
def up {α : Type} (x : Res α) : PRes α :=
  match x with
  | .ok a => .ok a
  | .error e => .error (.fail e)

/-- `token_range` of a node: `none` for a default constructed or cleared range. -/
abbrev Rng := Option (Nat × Nat)

/-- Safe_List.hh:229-232 `empty()`. -/
def Rng.isEmpty : Rng → Bool
  | none => true
  | some (b, e) => b == e

/-- Safe_List.hh:251-275 `push_back`. -/
def Rng.pushBack (r adj : Rng) : Res Rng :=
  match adj with
  | none => .ok r
  | some (ab, ae) =>
    if ab = ae then .ok r
    else
      match r with
      | none => .ok adj
      | some (rb, re) =>
        if rb = re then .ok adj
        else if ae ≠ re then
          if re = ab then .ok (some (rb, ae)) else .error .assertion
        else .ok r

/-- Stmt_Tree.hh:26-41: a node with its branches. -/
inductive SNode where
  | node (tag : Int) (range : Rng) (kids : List SNode)

namespace SNode

def tag : SNode → Int
  | node t _ _ => t

def range : SNode → Rng
  | node _ r _ => r

def kids : SNode → List SNode
  | node _ _ ks => ks

end SNode

/-- The successive `push_back`s of the ranges of some branches. -/
def pushAll : Rng → List SNode → Res Rng
  | r, [] => .ok r
  | r, k :: ks => do
    let r' ← r.pushBack k.range
    pushAll r' ks

/-- Stmt_Tree.cc:21-34 `cover_branches`. -/
def coverBranches : SNode → Res SNode
  | .node t r ks =>
    match ks.dropWhile (fun k => k.range.isEmpty) with
    | [] => .ok (.node t r ks)
    | bs => do
      let r' ← pushAll none bs
      .ok (.node t r' ks)

/-- Stmt_Tree.cc:36-47 `hoist_back`. -/
def hoistBack (t : SNode) (donor : Option SNode) : SNode :=
  match t, donor with
  | t, none => t
  | .node tt r ks, some (.node dt dr dks) =>
    if dt = Tag.HOIST then .node tt r (ks ++ dks) else .node tt r (ks ++ [.node dt dr dks])

/-- What a parser leaves behind: `SP_Result` and the stream. -/
structure Out where
  tree : Option SNode
  ok : Bool
  s : Strm

/-- A registered extension parser: the tree and where it leaves the stream.  The position is all it
can change through the interface of the stream; it is taken to return or fail, not to run for ever. -/
abbrev Ext := Strm → Res (Option SNode × Nat)

/-- Stmt_Parser_Exts.hh:26-54: the registered extension parsers. -/
structure Exts where
  action : List Ext
  other : List Ext

/-- `SP_Result{Stmt_Tree{}, false}`. -/
def noMatch (s : Strm) : Out := ⟨none, false, s⟩

/-- `SP_Result{Stmt_Tree{tag, ts.digest(1)}, true}`. -/
def leaf (tag : Int) (s : Strm) : Res Out := do
  let r ← s.digest 1
  .ok ⟨some (.node tag (some r.1) []), true, r.2⟩

/-- Stmt_Parsers.hh:84-93 `Letter_Parser`. -/
def runLetter (s : Strm) : Res Out := do
  let t ← s.peek
  let b ← isName t
  if b then do
    let tt ← s.peekTT 1
    if tt.text.length ≠ 1 then .ok (noMatch s) else leaf Tag.TK_NAME s
  else .ok (noMatch s)

/-- Stmt_Parsers.hh:99-113 `Literal_Parser`. -/
def runLiteral (w : Str) (s : Strm) : Res Out := do
  let t ← s.peek
  let b ← isName t
  if b then do
    let tt ← s.peekTT 1
    if tt.lowerText.1 ≠ w.map lowChar then .ok (noMatch s) else leaf Tag.TK_NAME s
  else .ok (noMatch s)

/-- Stmt_Parsers.hh:119-132 `Name_Parser`. -/
def runName (s : Strm) : Res Out := do
  let t ← s.peek
  let b ← isName t
  if b then leaf Tag.TK_NAME s else .ok (noMatch s)

/-- Stmt_Parsers.hh:343-360 `Token_Parser`. -/
def runTok (tag : Int) (s : Strm) : Res Out := do
  let t ← s.peek
  if tag ≠ t then .ok (noMatch s) else leaf tag s

/-- Stmt_Parsers.hh:178-189 `Peek_Parser`. -/
def runPeek (tag : Int) (s : Strm) : Res Out := do
  let t ← s.peek
  .ok ⟨none, tag == t, s⟩

/-- Stmt_Parsers.hh:42-54: `or_fold` over the alternatives; the tree of the first match. -/
def altsLoop (f : P → Strm → PRes Out) : List P → Strm → PRes Out
  | [], s => .ok (noMatch s)
  | p :: ps, s => do
    let o ← f p s
    if o.ok then .ok o else altsLoop f ps o.s

/-- Stmt_Parsers.hh:237-246: `and_fold` over the members of a sequence. -/
def seqLoop (f : P → Strm → PRes Out) : List P → Strm → SNode → PRes (SNode × Bool × Strm)
  | [], s, acc => .ok (acc, true, s)
  | p :: ps, s, acc => do
    let o ← f p s
    if o.ok then seqLoop f ps o.s (hoistBack acc o.tree)
    else .ok (hoistBack acc o.tree, false, o.s)

/-- Stmt_Parsers.hh:286-294: the loop of `Star_Parser`. -/
def starLoop (f : P → Strm → PRes Out) (p : P) : Nat → Strm → SNode → PRes (SNode × Strm)
  | 0, _, _ => .error .fuel
  | n + 1, s, acc => do
    let o ← f p s
    if o.ok then starLoop f p n o.s (hoistBack acc o.tree)
    else .ok (hoistBack acc o.tree, o.s)

/-- What a turn of the loop of `consume_until_break` does with the token it sees. -/
inductive BreakStep where
  /-- leave the loop -/
  | stop
  /-- `FAIL` -/
  | fail
  /-- take the token, with the new depth -/
  | take (d : Int)

/-- parse_stmt.cc:60-87. -/
def breakStep (t d : Int) : BreakStep :=
  if t = Tag.TK_PARENL then .take (d + 1)
  else if t = Tag.TK_BRACKETL then .take (d + 1)
  else if t = Tag.TK_PARENR then if d - 1 = 0 then .stop else .take (d - 1)
  else if t = Tag.TK_BRACKETR then if d - 1 = 0 then .stop else .take (d - 1)
  else if d = 1 then
    if t = Tag.BAD then .stop
    else if t = Tag.TK_COMMA then .stop
    else if t = Tag.TK_COLON then .stop
    else if t = Tag.TK_EQUAL then .fail
    else .take d
  else .take d

/-- `root.graft_back(Stmt_Tree{...})`; a tree without root fails the assertion Tree.hh:707. -/
def graftBack (ks : List SNode) (donor : Option SNode) : Res (List SNode) :=
  match donor with
  | none => .error .assertion
  | some k => .ok (ks ++ [k])

/-- parse_stmt.cc:60-95: the loop of `consume_until_break`, from a depth greater than 0; the branches
collected, or `none` after `FAIL`. -/
def untilBreak (f : P → Strm → PRes Out) (real : P) :
    Nat → Strm → Int → List SNode → PRes (Option (List SNode) × Strm)
  | 0, _, _, _ => .error .fuel
  | n + 1, s, d, ks => do
    let t ← up s.peek
    match breakStep t d with
    | .stop => .ok (some ks, s)
    | .fail => .ok (none, s)
    | .take d' =>
      if t = Tag.SG_SIGNIFICAND then do
        let o ← f real s
        let ks' ← up (graftBack ks o.tree)
        untilBreak f real n o.s d' ks'
      else do
        let r ← up (s.digest 1)
        untilBreak f real n r.2 d' (ks ++ [.node t (some r.1) []])

/-- parse_stmt.cc:1729-1735 `expr`, 56-102 `consume_until_break`. -/
def runExpr (f : P → Strm → PRes Out) (k : Nat) (tag : Int) (real : P) (s : Strm) :
    PRes (Option SNode × Strm) := do
  let t ← up s.peek
  if t = Tag.TK_ASTERISK ∨ t = Tag.TK_SLASHF then .ok (none, s)
  else do
    let r ← untilBreak f real k s 1 []
    match r.1 with
    | none => .ok (none, s)
    | some [] => .ok (none, r.2)
    | some ks => do
      let n ← up (coverBranches (.node tag none ks))
      .ok (some n, r.2)

/-- parse_stmt.cc:112-121: the loop of `consume_parens`. -/
def parensLoop : Nat → Strm → Int → List SNode → PRes (List SNode × Strm)
  | 0, _, _, _ => .error .fuel
  | n + 1, s, d, ks =>
    if d > 0 then do
      let t ← up s.peek
      if t = Tag.TK_PARENL then do
        let r ← up (s.digest 1)
        parensLoop n r.2 (d + 1) (ks ++ [.node t (some r.1) []])
      else if t = Tag.TK_PARENR then do
        let r ← up (s.digest 1)
        parensLoop n r.2 (d - 1) (ks ++ [.node t (some r.1) []])
      else if t = Tag.BAD then .error (.fail .assertion)
      else do
        let r ← up (s.digest 1)
        parensLoop n r.2 d (ks ++ [.node t (some r.1) []])
    else .ok (ks, s)

/-- parse_stmt.cc:105-126 `consume_parens`. -/
def runParens (k : Nat) (s : Strm) : PRes (Option SNode × Strm) := do
  let t ← up s.peek
  if t ≠ Tag.TK_PARENL then .ok (none, s)
  else do
    let r ← up (s.digest 1)
    let q ← parensLoop k r.2 1 [.node t (some r.1) []]
    let n ← up (coverBranches (.node Tag.HOIST none q.1))
    .ok (some n, q.2)

/-- parse_stmt.cc:133-142 `list_name`. -/
def runListName (s : Strm) : Res (Option SNode × Strm) := do
  let t ← s.peekAt 1
  let b ← isName t
  if b then do
    let nx ← s.peekAt 2
    if nx = Tag.BAD ∨ nx = Tag.TK_ARROW ∨ nx = Tag.TK_COLON ∨ nx = Tag.TK_COMMA ∨
        nx = Tag.TK_PARENR then do
      let r ← s.digest 1
      .ok (some (.node Tag.TK_NAME (some r.1) []), r.2)
    else .ok (none, s)
  else .ok (none, s)

/-- parse_stmt.cc:2956-2967: the end of the possible designator, as the stream left there. -/
def designatorEnd (s : Strm) : Res Strm := do
  let m ← s.consumeUntilEol.moveToOpenParen
  if m.1 then m.2.putBack else .ok m.2

/-- parse_stmt.cc:2938-2982 `procedure_designator`. -/
def runDesignator (f : P → Strm → PRes Out) (p : P) (s : Strm) : PRes (Option SNode × Strm) := do
  let e ← up (designatorEnd s)
  let r ← up (Strm.mkRange s.all s.pos e.pos)
  let o ← f p (Strm.mk' s.all r.1 r.2)
  .ok (o.tree, e)

/-- Stmt_Parser_Exts.cc:34-43, 49-58: the loop over the registered parsers. -/
def extLoop (tag : Int) (mark : Nat) : List Ext → Strm → Res (Option SNode × Strm)
  | [], s => .ok (none, s)
  | e :: es, s => do
    let r ← e s
    match r.1 with
    | some st => do
      let n ← coverBranches (hoistBack (.node tag st.range []) (some st))
      .ok (some n, s.goto r.2)
    | none => extLoop tag mark es ((s.goto r.2).goto mark)

/-- Stmt_Parser_Exts.cc:32-60 `parse_action_stmt`, `parse_other_specification_stmt`. -/
def runExts (x : Exts) (action : Bool) (s : Strm) : Res (Option SNode × Strm) :=
  if action then extLoop Tag.SG_ACTION_STMT s.pos x.action s
  else extLoop Tag.SG_OTHER_SPECIFICATION_STMT s.pos x.other s

/-- Stmt_Parser_Exts.cc:24-26 `register_action_stmt`. -/
def Exts.registerAction (x : Exts) (e : Ext) : Exts := { x with action := x.action ++ [e] }

/-- Stmt_Parser_Exts.cc:28-30 `register_other_specification_stmt`. -/
def Exts.registerOther (x : Exts) (e : Ext) : Exts := { x with other := x.other ++ [e] }

/-- Stmt_Parser_Exts.cc:62-65 `clear`. -/
def Exts.clear (_ : Exts) : Exts := ⟨[], []⟩

/-- A rule function.  `return p(ts)` converts the `SP_Result` to its tree (Parser_Result.hh:34). -/
def runBody (x : Exts) (f : P → Strm → PRes Out) (k : Nat) (b : Body) (s : Strm) :
    PRes (Option SNode × Strm) :=
  match b with
  | .comb p => do
    let o ← f p s
    .ok (o.tree, o.s)
  | .expr tag real => runExpr f k tag real s
  | .parens => runParens k s
  | .listName => up (runListName s)
  | .procDesignator p => runDesignator f p s
  | .withExts a p => do
    let o ← f p s
    if o.ok then .ok (o.tree, o.s) else up (runExts x a o.s)

/-- One layer of the combinators, given what the inner parsers do. -/
def step (g : R → Body) (x : Exts) (f : P → Strm → PRes Out) (k : Nat) (p : P) (s : Strm) :
    PRes Out :=
  match p with
  | .alts tag ps => do
    let o ← altsLoop f ps s
    if o.ok then do
      let n ← up (coverBranches (hoistBack (.node tag none []) o.tree))
      .ok ⟨some n, true, o.s⟩
    else .ok o
  | .letter => up (runLetter s)
  | .literal w => up (runLiteral w s)
  | .name => up (runName s)
  | .neg p => do
    let o ← f p s
    .ok { o with ok := !o.ok }
  | .opt p => do
    let o ← f p s
    .ok { o with ok := true }
  | .peek t => up (runPeek t s)
  | .rule r => do
    let o ← runBody x f k (g r) s
    match o.1 with
    | none => .ok ⟨none, false, o.2.goto s.pos⟩
    | some n => .ok ⟨some n, true, o.2⟩
  | .seq tag ps => do
    let r ← seqLoop f ps s (.node Tag.UNKNOWN none [])
    if r.2.1 then do
      let n ← up (coverBranches (.node tag r.1.range r.1.kids))
      .ok ⟨some n, true, r.2.2⟩
    else .ok ⟨none, false, r.2.2.goto s.pos⟩
  | .star p => do
    let r ← starLoop f p k s (.node Tag.HOIST none [])
    let n ← up (coverBranches r.1)
    .ok ⟨some n, true, r.2⟩
  | .tagIf tag p => do
    let o ← f p s
    match o.tree with
    | some t => do
      let n ← up (coverBranches (hoistBack (.node tag t.range []) (some t)))
      .ok { o with tree := some n }
    | none => .ok o
  | .tok t => up (runTok t s)

/-- A parser run with a bound. -/
def eval (g : R → Body) (x : Exts) : Nat → P → Strm → PRes Out
  | 0 => fun _ _ => .error .fuel
  | n + 1 => step g x (eval g x n) n

/-- A rule function called directly with a bound. -/
def evalRule (g : R → Body) (x : Exts) (n : Nat) (r : R) (s : Strm) : PRes (Option SNode × Strm) :=
  runBody x (eval g x n) n (g r) s

/-- parse_stmt.cc:3820-4222 `parse_stmt_dispatch`. -/
def dispatch (x : Exts) (n : Nat) (tag : Int) (s : Strm) : PRes (Option SNode × Strm) :=
  match dispatchTable.find? (fun q => q.1 == tag) with
  | some q => evalRule R.body x n q.2 s
  | none => .ok (none, s)

/-- parse_stmt.cc:4224-4273 `is_action_stmt`. -/
def isActionStmt (tag : Int) : Bool := actionTags.contains tag

end SP
end FLPR
