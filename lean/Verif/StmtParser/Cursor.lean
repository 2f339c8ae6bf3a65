import Verif.StmtParser.Stream
import Verif.LogicalLine.Model
/-!
# Model of the rest of `TT_Stream` (src/flpr/TT_Stream.hh): marks, captures, `expect_*` and `unkeyword`

`std::exit(5)`, which ends the program when an expectation is not met, is `exc`.  The messages on
`std::cerr` are not modelled.
-/

namespace FLPR
namespace SP

namespace Strm

/-- TT_Stream.hh:206-210 `peek_back()`. -/
def peekBack (s : Strm) : Res Int :=
  if s.lo = s.hi then .ok Tag.BAD
  else if s.lo < s.hi then do
    let t ← derefTok s.all (s.hi - 1)
    .ok t.token
  else .error .ub

/-- TT_Stream.hh:212-215 `num_consumed()`: `std::distance` is undefined when the second iterator cannot
be reached from the first. -/
def numConsumed (s : Strm) : Res Int :=
  if s.lo ≤ s.pos then .ok ((s.pos - s.lo : Nat) : Int) else .error .ub

/-- TT_Stream.hh:247 `rewind()`. -/
def rewind (s : Strm) : Strm := s.goto s.lo

/-- TT_Stream.hh:249 `rewind(it)`. -/
def rewindTo (s : Strm) (it : Nat) : Strm := s.goto it

/-- TT_Stream.hh:251 `mark()`. -/
def mark (s : Strm) : Nat := s.pos

/-- TT_Stream.hh:261-264 `expect_eol()`. -/
def expectEol (s : Strm) : Res Strm := do
  let r ← s.isEol
  if r.1 then .ok r.2 else .error .exc

/-- TT_Stream.hh:266-273 `expect_integer()`. -/
def expectInteger (s : Strm) : Res (Int × Strm) := do
  let t ← s.peek
  if t ≠ Tag.SG_INT_LITERAL_CONSTANT then .error .exc
  else do
    let s' ← s.consume 1
    let c ← s'.currTT
    let v ← stoi c.text
    .ok (v, s')

/-- TT_Stream.hh:275-282 `expect_id()`. -/
def expectId (s : Strm) : Res (Str × Strm) := do
  let t ← s.peek
  if t ≠ Tag.TK_NAME then .error .exc
  else do
    let s' ← s.consume 1
    let c ← s'.currTT
    .ok (c.text, s')

/-- TT_Stream.hh:284-291 `expect_id_low()`; the copy in lower case that the token keeps is not written back. -/
def expectIdLow (s : Strm) : Res (Str × Strm) := do
  let t ← s.peek
  if t ≠ Tag.TK_NAME then .error .exc
  else do
    let s' ← s.consume 1
    let c ← s'.currTT
    .ok (c.lowerText.1, s')

end Strm

/-- Token_Text.cc:56-62 `unkeyword`, on the tokens from `beg` to `end`.  A count below zero is no limit, until
it overflows. -/
def unkeywordToks (r : Registry) : Int → List Tok → Res (List Tok)
  | _, [] => .ok []
  | n, t :: ts =>
    if n = 0 then .ok (t :: ts)
    else if n ≤ -2147483648 then .error .ub
    else do
      let k ← r.isKeyword t.token
      let ts' ← unkeywordToks r (n - 1) ts
      .ok ((if k then { t with token := Tag.TK_NAME } else t) :: ts')

/-- TT_Stream.hh:168-170 `unkeyword(num_toks)`. -/
def Strm.unkeyword (r : Registry) (s : Strm) (n : Int) : Res Strm :=
  if s.pos ≤ s.hi then do
    let ts ← unkeywordToks r n ((s.all.take s.hi).drop s.pos)
    .ok { s with all := s.all.take s.pos ++ ts ++ s.all.drop s.hi }
  else .error .ub

/-- TT_Stream.hh:27-52 `TT_Stream::Capture`, made by `capture_begin`; without an end it is not complete. -/
structure Capture where
  beg : Nat
  fin : Option Nat

/-- TT_Stream.hh:149-151 `capture_begin`. -/
def Strm.captureBegin (s : Strm) : Capture := { beg := s.pos, fin := none }

/-- TT_Stream.hh:153-155 `capture_end`. -/
def Strm.captureEnd (s : Strm) (c : Capture) : Capture := { c with fin := some s.pos }

/-- TT_Stream.hh:38 `empty()`. -/
def Capture.empty (c : Capture) : Bool :=
  match c.fin with
  | none => true
  | some e => c.beg == e

/-- TT_Stream.hh:39-41 `size()`. -/
def Capture.size (c : Capture) : Res Int :=
  match c.fin with
  | none => .ok 0
  | some e => if c.beg ≤ e then .ok ((e - c.beg : Nat) : Int) else .error .ub

/-- TT_Stream.hh:157-161 `capture_text`, as the text appended.  Without an end the loop compares with an
iterator that was never set. -/
def Strm.captureText (s : Strm) (c : Capture) : Res Str :=
  match c.fin with
  | none => .error .ub
  | some e => if c.beg ≤ e ∧ e ≤ s.all.length then .ok (((s.all.take e).drop c.beg).flatMap (·.text)) else .error .ub

/-- TT_Stream.hh:163-165 `capture_to_range`. -/
def Strm.captureRange (s : Strm) (c : Capture) : Res (Nat × Nat) :=
  match c.fin with
  | none => .error .ub
  | some e => Strm.mkRange s.all c.beg e

end SP
end FLPR
