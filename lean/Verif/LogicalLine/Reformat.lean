import Verif.LogicalLine.Model
/-!
# Model of `Logical_Line::text_from_frags` and `remove_empty_statements`
-/

namespace FLPR

/-- Logical_Line.cc:152-168 `max_main_txt_len`. -/
def maxMainTxtLen (f : FileLine) : Res Nat :=
  if f.bits.comment then .ok 0
  else
    let mlen := f.left_txt.length + f.left_space.length
    let rlen := f.right_space.length + f.right_txt.length
    let mlen := if mlen + rlen < 38 then mlen + rlen else mlen
    if mlen < 76 then .ok (76 - mlen) else .error .assertion

/-- The locals of `text_from_frags`: `layout_` is `done ++ cur :: rest` with `fline_it` at `cur`;
`start` is `line_start`, `maxLen` is `max_llen`. -/
structure Fmt where
  done : List FileLine
  cur : FileLine
  rest : List FileLine
  start : Bool
  maxLen : Nat
  deriving DecidableEq, Repr

/-- Logical_Line.cc:186-190: an existing line is cleared for reuse. -/
def reuseLine (f : FileLine) (spaces : Nat) : FileLine :=
  { ({ f with left_txt := [] }).makeUncontinued with main_txt := [], left_space := blanks spaces }

/-- Logical_Line.cc:171-192 `continue_fl`: the current line is continued; the next line that is not a
comment is cleared and becomes the current one, or a new line is appended. -/
def Fmt.continueFl (s : Fmt) : Fmt :=
  let cur := s.cur.makeContinued
  let spaces := cur.left_txt.length + cur.left_space.length + (if s.done = [] then 2 else 0)
  let skipped := s.rest.takeWhile (·.bits.comment)
  match s.rest.dropWhile (·.bits.comment) with
  | [] => { s with done := s.done ++ cur :: skipped, cur := { left_space := blanks spaces },
                   rest := [] }
  | g :: gs => { s with done := s.done ++ cur :: skipped, cur := reuseLine g spaces, rest := gs }

/-- Logical_Line.cc:197-211 `append_tt_if_`: the new text, or `none` when the token does not fit.
`max_len - 1` is a `size_t` and wraps at 0. -/
def appendIf (main : Str) (maxLen : Nat) (t : Tok) (first : Bool) : Res (Option Str) := do
  let pre ← (if first then .ok 0 else getInt t.pre : Res Int)
  let len := main.length + (t.text.length + pre.toNat)
  if t.token ≠ Tag.TK_COMMA ∧ maxLen = 0 then .ok (some (main ++ blanks pre.toNat ++ t.text))
  else if len > (if t.token = Tag.TK_COMMA then maxLen else maxLen - 1) then .ok none
  else .ok (some (main ++ blanks pre.toNat ++ t.text))

/-- Logical_Line.cc:246-257: the loop that spreads one token over several lines; `k` is the number of
pieces to go, `i0` tells the first round. -/
def splitGo (text : Str) (count : Nat) : Nat → Bool → Nat → Fmt → Res Fmt
  | 0, _, _, s => .ok s
  | k + 1, i0, pos, s => do
    let piece ← substr text pos count
    let cur := { s.cur with main_txt := s.cur.main_txt ++ (if i0 then [] else ['&']) ++ piece }
    if k = 0 then .ok { s with cur := cur }
    else
      let s1 := Fmt.continueFl { s with cur := { cur.makeContinued with right_space := [] } }
      splitGo text count k false (pos + count) s1

/-- Logical_Line.cc:238-261: a token that does not even fit on a line of its own. -/
def Fmt.splitTok (s : Fmt) (t : Tok) : Res Fmt :=
  if s.maxLen = 0 then .error .ub
  else do
    let splits := t.text.length / s.maxLen + 1
    let s1 ← splitGo t.text (t.text.length / splits + 1) splits true 0 s
    .ok { s1 with start := false }

/-- Logical_Line.cc:225-278: one token.  The `redo` loop: a failure at the start of a line splits the
token and leaves the loop; any other failure adds a line, so that the next attempt is at the start of
a line.  There are at most two attempts and `redo == 4` (`exit(1)`) cannot happen. -/
def Fmt.token (s : Fmt) (t : Tok) : Res Fmt := do
  match ← appendIf s.cur.main_txt s.maxLen t s.start with
  | some m => .ok { s with cur := { s.cur with main_txt := m }, start := false }
  | none =>
    if s.start then s.splitTok t
    else
      let s1 := s.continueFl
      let ml ← maxMainTxtLen s1.cur
      match ← appendIf s1.cur.main_txt ml t true with
      | some m => .ok { s1 with cur := { s1.cur with main_txt := m }, start := false, maxLen := ml }
      | none => Fmt.splitTok { s1 with start := true, maxLen := ml } t

/-- The loop over the tokens. -/
def Fmt.tokens : Fmt → List Tok → Res Fmt
  | s, [] => .ok s
  | s, t :: ts => do
    let s1 ← s.token t
    Fmt.tokens s1 ts

/-- Logical_Line.cc:285-294: a line left over after the last token. -/
def leftover (f : FileLine) : FileLine :=
  if f.bits.comment then f
  else
    let f := f.makeUncontinued
    if f.right_txt = [] then { f with bits := { f.bits with blank := true } }
    else { f with main_txt := [], bits := { f.bits with comment := true } }

/-- Logical_Line.cc:284-290: whether one of the lines left over makes `blanked` true. -/
def blanked (f : FileLine) : Bool := !f.bits.comment && f.makeUncontinued.right_txt.isEmpty

/-- Logical_Line.cc:214-306 `text_from_frags`. -/
def LLine.textFromFrags (l : LLine) : Res LLine :=
  match l.layout with
  | [] => .ok l
  | f :: fs =>
    if f.isFortran = false then .ok l
    else do
      let f := ({ f with main_txt := [] }).makeUncontinued
      let ml ← maxMainTxtLen f
      let s ← Fmt.tokens ⟨[], f, fs, true, ml⟩ l.frags
      let kept := if l.frags = [] then s.done else s.done ++ [s.cur]
      let left := if l.frags = [] then s.cur :: s.rest else s.rest
      let lay := kept ++ left.map leftover
      if left.any blanked then
        let lay := lay.filter (fun f => !f.bits.blank)
        .ok ({ l with layout := lay, suppress := l.suppress || lay.isEmpty } : LLine).initStmts
      else .ok ({ l with layout := lay } : LLine).initStmts

/-! ### `remove_empty_statements` (Logical_Line.cc:639-690) -/

/-- Lines 650-657: semicolons at the end are popped. -/
def popSemis (ts : List Tok) : List Tok := (ts.reverse.dropWhile Tok.isSemi).reverse

/-- Lines 661-672: the text of every semicolon behind a semicolon is cleared; `prev` tells whether the
token before is a semicolon. -/
def clearSemis : Bool → List Tok → List Tok
  | _, [] => []
  | prev, t :: ts =>
    (if prev && t.isSemi then t.modText.write [] else t) :: clearSemis t.isSemi ts

/-- Lines 664-671: whether some semicolon was cleared. -/
def doubleSemi : Bool → List Tok → Bool
  | _, [] => false
  | prev, t :: ts => (prev && t.isSemi) || doubleSemi t.isSemi ts

/-- Lines 674-676. -/
def dropCleared (ts : List Tok) : List Tok := ts.filter (fun t => !(t.isSemi && t.text.isEmpty))

/-- Lines 640-684: the tokens that remain and the value returned.  Line 682 uses `stmts_.back()`,
which is undefined when there are no statements. -/
def LLine.removeEmptyFrags (l : LLine) : Res (List Tok × Bool) :=
  let fr1 := l.frags.dropWhile Tok.isSemi
  let front := decide (fr1.length ≠ l.frags.length)
  let fr2 := popSemis fr1
  let back := decide (fr2.length ≠ fr1.length)
  let internal := decide (l.stmts.length > 1) && doubleSemi false fr2
  let fr3 := if internal then dropCleared (clearSemis false fr2) else fr2
  if back = true ∧ l.stmts = [] then .error .ub else .ok (fr3, front || internal || back)

/-- Logical_Line.cc:639-690 `remove_empty_statements`: the line afterwards and the value returned.
`stmts_` is computed again by `text_from_frags`, unless that returns early (empty layout, or first
line not Fortran).  In that case the code keeps the old iterators, some of which may dangle; the
positions in `stmts` do not describe that and no theorem is about it. -/
def LLine.removeEmpty (l : LLine) : Res (LLine × Bool) := do
  let r ← l.removeEmptyFrags
  if r.2 then
    let l' ← ({ l with frags := r.1 } : LLine).textFromFrags
    .ok (l', true)
  else .ok (l, false)

end FLPR
