import Verif.Tags.Registry
import Verif.Token.Model
/-!
# Model of `TT_Stream` (src/flpr/TT_Stream.hh, TT_Stream.cc)

A stream runs over a sub-range of the tokens of one logical line.  The list of tokens is not changed
while it is being parsed, so an iterator is the number of tokens before it.  The tokens of the line
are kept in a `Safe_List` (C28): behind the last token there is a hidden, default constructed element,
so index `all.length` may be dereferenced and gives a token with tag `BAD`; index `all.length + 1` is
the past-the-end iterator of the `std::list`: it may be reached, but neither read nor advanced.
-/

namespace FLPR
namespace SP
open Registry

/-- TT_Stream.hh:145-146: the data members.  `all` are the tokens of the logical line, `lo`/`hi` the
bounds of `ll_tt_range_` and `pos` is `next_tok_`. -/
structure Strm where
  all : List Tok
  lo : Nat
  hi : Nat
  pos : Nat
  deriving DecidableEq, Repr

/-- Token_Text.cc:23-24: the default constructed token. -/
def badTok : Tok := { token := Tag.BAD, line := -1, pos := -1, text := [] }

/-- `*it` for the iterator with index `i`. -/
def derefTok (all : List Tok) (i : Nat) : Res Tok :=
  if i < all.length then .ok (all.getD i badTok)
  else if i = all.length then .ok badTok
  else .error .ub

namespace Strm

/-- The same stream with `next_tok_` elsewhere. -/
def goto (s : Strm) (p : Nat) : Strm := { s with pos := p }

/-- TT_Stream.hh:55-58: a stream on the range `[b, e)` of the tokens of a line. -/
def mk' (all : List Tok) (b e : Nat) : Strm := { all := all, lo := b, hi := e, pos := b }

/-- TT_Stream.hh:195-198 `peek()`. -/
def peek (s : Strm) : Res Int :=
  if s.pos = s.hi then .ok Tag.BAD
  else do
    let t ← derefTok s.all s.pos
    .ok t.token

/-- TT_Stream.hh:184-192 `peek_tt(offset)`, for `offset ≥ 1`. -/
def peekTT (s : Strm) (offset : Nat) : Res Tok :=
  let tmp := s.pos + (offset - 1)
  if tmp ≤ s.all.length + 1 then
    if tmp ≠ s.hi then derefTok s.all tmp else .ok badTok
  else .error .ub

/-- TT_Stream.hh:201-203 `peek(offset)`. -/
def peekAt (s : Strm) (offset : Nat) : Res Int := do
  let t ← s.peekTT offset
  .ok t.token

/-- TT_Stream.hh:172-178 `curr_tt()`. -/
def currTT (s : Strm) : Res Tok :=
  if s.pos ≠ s.lo then
    if s.pos = 0 then .error .ub else derefTok s.all (s.pos - 1)
  else .ok badTok

/-- TT_Stream.hh:181 `curr()`. -/
def curr (s : Strm) : Res Int := do
  let t ← s.currTT
  .ok t.token

/-- TT_Stream.hh:229-231 `consume(n)`. -/
def consume (s : Strm) (n : Nat) : Res Strm :=
  if s.pos + n ≤ s.all.length + 1 then .ok (s.goto (s.pos + n)) else .error .ub

/-- TT_Stream.hh:233 `consume_until_eol()`. -/
def consumeUntilEol (s : Strm) : Strm := s.goto s.hi

/-- Safe_List.hh:172-175: the range between two iterators; `std::distance` is undefined when the
second cannot be reached from the first. -/
def mkRange (all : List Tok) (b e : Nat) : Res (Nat × Nat) :=
  if b ≤ e ∧ e ≤ all.length + 1 then .ok (b, e) else .error .ub

/-- TT_Stream.hh:235-239 `digest(n)`. -/
def digest (s : Strm) (n : Nat) : Res ((Nat × Nat) × Strm) := do
  let s' ← s.consume n
  let r ← mkRange s.all s.pos s'.pos
  .ok (r, s')

/-- TT_Stream.hh:242-245 `put_back()`. -/
def putBack (s : Strm) : Res Strm :=
  if s.pos ≠ s.lo then
    if s.pos = 0 then .error .ub else .ok (s.goto (s.pos - 1))
  else .ok s

/-- TT_Stream.hh:218-227 `is_eol()`; note that it consumes a semicolon. -/
def isEol (s : Strm) : Res (Bool × Strm) :=
  if s.pos ≠ s.hi then do
    let t ← derefTok s.all s.pos
    if t.token = Tag.TK_SEMICOLON then .ok (true, s.goto (s.pos + 1)) else .ok (false, s)
  else .ok (true, s)

/-- TT_Stream.hh:253-259 `expect_tok`.  On a mismatch the code prints a message and calls
`std::exit(5)`: the function does not return, which is `exc` here. -/
def expectTok (s : Strm) (tok : Int) : Res Strm := do
  let t ← s.peek
  let s' ← s.consume 1
  if t ≠ tok then .error .exc else .ok s'

/-- The loop of TT_Stream.cc:114-121.  Every turn that does not end the loop advances, and advancing
is undefined beyond `all.length + 1`, so `all.length + 3` turns are enough. -/
def closeLoop : Nat → Strm → Int → Res (Int × Strm)
  | 0, _, _ => .error .ub
  | n + 1, s, d =>
    if d > 0 then do
      let t ← s.peek
      if t = Tag.TK_PARENR then do
        let s' ← s.consume 1
        closeLoop n s' (d - 1)
      else if t = Tag.TK_PARENL then do
        let s' ← s.consume 1
        closeLoop n s' (d + 1)
      else if t = Tag.BAD then .ok (d, s)
      else do
        let s' ← s.consume 1
        closeLoop n s' d
    else .ok (d, s)

/-- TT_Stream.cc:110-123 `move_to_close_paren`. -/
def moveToCloseParen (s : Strm) : Res (Bool × Strm) := do
  let s1 ← s.expectTok Tag.TK_PARENL
  let s2 ← s1.consume 1
  let r ← closeLoop (s.all.length + 3) s2 1
  .ok (r.1 == 0, r.2)

/-- The loop of TT_Stream.cc:133-141. -/
def beforeLoop : Nat → Strm → Int → Res (Int × Strm)
  | 0, _, _ => .error .ub
  | n + 1, s, d =>
    if d > 0 then do
      let t ← s.peek
      if t = Tag.TK_PARENR then
        if d - 1 > 0 then do
          let s' ← s.consume 1
          beforeLoop n s' (d - 1)
        else beforeLoop n s (d - 1)
      else if t = Tag.TK_PARENL then do
        let s' ← s.consume 1
        beforeLoop n s' (d + 1)
      else if t = Tag.BAD then .ok (d, s)
      else do
        let s' ← s.consume 1
        beforeLoop n s' d
    else .ok (d, s)

/-- TT_Stream.cc:129-143 `move_before_close_paren`. -/
def moveBeforeCloseParen (s : Strm) : Res (Bool × Strm) := do
  let s1 ← s.expectTok Tag.TK_PARENL
  let s2 ← s1.consume 1
  let r ← beforeLoop (s.all.length + 4) s2 1
  .ok (r.1 == 0, r.2)

/-- The loop of TT_Stream.cc:151-160.  Every turn but the last moves back, so `pos + 2` turns are
enough. -/
def openLoop : Nat → Strm → Int → Res (Int × Strm)
  | 0, _, _ => .error .ub
  | n + 1, s, d =>
    if d > 0 then do
      let s' ← s.putBack
      let t ← s'.curr
      if t = Tag.TK_PARENL then openLoop n s' (d - 1)
      else if t = Tag.TK_PARENR then openLoop n s' (d + 1)
      else if t = Tag.BAD then .ok (d, s')
      else openLoop n s' d
    else .ok (d, s)

/-- TT_Stream.cc:146-162 `move_to_open_paren`. -/
def moveToOpenParen (s : Strm) : Res (Bool × Strm) := do
  let t ← s.curr
  if t ≠ Tag.TK_PARENR then .ok (false, s)
  else do
    let r ← openLoop (s.pos + 2) s 1
    .ok (r.1 == 0, r.2)

/-- The loop of TT_Stream.cc:170-178. -/
def bracketLoop : Nat → Strm → Int → Res (Int × Strm)
  | 0, _, _ => .error .ub
  | n + 1, s, d =>
    if d > 0 then do
      let t ← s.peek
      if t = Tag.TK_BRACKETR then do
        let s' ← s.consume 1
        bracketLoop n s' (d - 1)
      else if t = Tag.TK_BRACKETL then do
        let s' ← s.consume 1
        bracketLoop n s' (d + 1)
      else if t = Tag.BAD then .ok (d, s)
      else do
        let s' ← s.consume 1
        bracketLoop n s' d
    else .ok (d, s)

/-- TT_Stream.cc:167-180 `ignore_bracket_expr`. -/
def ignoreBracketExpr (s : Strm) : Res (Bool × Strm) := do
  let s1 ← s.expectTok Tag.TK_BRACKETL
  let r ← bracketLoop (s.all.length + 3) s1 1
  .ok (r.1 == -1, r.2)

end Strm
end SP
end FLPR
