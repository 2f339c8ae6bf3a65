import Verif.Containers.SafeListLemmas
/-!
# `SL_Range` and `SL_Range_Iterator` (src/flpr/Safe_List.hh:157-441): model

A range is modelled together with the nodes of the list it points into (the hidden element
included, see `SafeList.lean`).  An iterator is `some address`, or `none` for the past-the-end
iterator of the hidden `std::list`.
-/

namespace FLPR
namespace SL

variable {α : Type}

/-- An iterator into a list. -/
abbrev Iter := Option Nat

/-- The nodes from an iterator on; undefined when the iterator is not of this list. -/
def suffixAt (l : Nodes α) : Iter → Res (Nodes α)
  | none => .ok []
  | some n =>
    match cut n l with
    | none => .error .ub
    | some (_, b) => .ok b

/-- The iterator to the first of some nodes. -/
def iterTo (l : Nodes α) : Iter := l.head?.map (·.1)

/-- `std::next(it, k)`: undefined past the end of the list. -/
def advance (l : Nodes α) (it : Iter) (k : Nat) : Res Iter := do
  let b ← suffixAt l it
  if k ≤ b.length then .ok (iterTo (b.drop k)) else .error .ub

/-- `std::distance(first, last)`: undefined when `last` is not reachable. -/
def distance (l : Nodes α) (first last : Iter) : Res Nat := do
  let b ← suffixAt l first
  match last with
  | none => .ok b.length
  | some n =>
    match cut n b with
    | none => .error .ub
    | some (a, _) => .ok a.length

/-- `*it`. -/
def deref (l : Nodes α) (it : Iter) : Res α := do
  match ← suffixAt l it with
  | [] => .error .ub
  | x :: _ => .ok x.2

/-- Safe_List.hh:290-306: the data members of `SL_Range`. -/
structure Range where
  begin_ : Iter
  size_ : Nat
  end_ : Iter
  bad : Bool
  deriving Repr, DecidableEq

namespace Range

/-- Safe_List.hh:169.  The iterators are not initialised; the model gives them a value that no
operation looks at while `bad_` is set. -/
def none' : Range := { begin_ := none, size_ := 0, end_ := none, bad := true }

/-- Safe_List.hh:170-171. -/
def ofSeq (s : SList α) : Range :=
  { begin_ := iterTo s.nodes, size_ := s.size, end_ := some s.myEnd, bad := false }

/-- Safe_List.hh:172-175. -/
def ofPair (l : Nodes α) (b e : Iter) : Res Range := do
  let n ← distance l b e
  .ok { begin_ := b, size_ := n, end_ := e, bad := false }

/-- Safe_List.hh:176-177. -/
def ofOnly (l : Nodes α) (it : Iter) : Res Range := do
  let e ← advance l it 1
  .ok { begin_ := it, size_ := 1, end_ := e, bad := false }

/-- Safe_List.hh:309. -/
def empty' (r : Range) : Bool := r.bad || r.size_ == 0

/-- Safe_List.hh:229-232 `empty`, with its assertion. -/
def empty (l : Nodes α) (r : Range) : Res Bool :=
  if r.bad then .ok r.empty'
  else do
    let e ← advance l r.begin_ r.size_
    if e = r.end_ then .ok r.empty' else .error .assertion

/-- Safe_List.hh:190-197 `last`. -/
def last (l : Nodes α) (r : Range) : Res Iter := do
  let e ← r.empty l
  if e then .error .assertion else advance l r.begin_ (r.size_ - 1)

/-- Safe_List.hh:203-210 `front`. -/
def front (l : Nodes α) (r : Range) : Res α := do
  let e ← r.empty l
  if e then .error .assertion else deref l r.begin_

/-- Safe_List.hh:211-218 `back`. -/
def back (l : Nodes α) (r : Range) : Res α := do
  let e ← r.empty l
  if e then .error .assertion else do
    let it ← r.last l
    deref l it

/-- Safe_List.hh:219-222 `clear()`. -/
def clear (r : Range) : Range := { r with size_ := 0, bad := true }

/-- Safe_List.hh:224-228 `clear(empty_end)`. -/
def clearAt (_ : Range) (it : Iter) : Range :=
  { begin_ := it, size_ := 0, end_ := it, bad := false }

/-- Safe_List.hh:288 `size`. -/
def size (r : Range) : Nat := if r.bad then 0 else r.size_

/-- Safe_List.hh:234-246 `push_front`. -/
def pushFront (l : Nodes α) (r adj : Range) : Res Range := do
  let ae ← adj.empty l
  if ae then .ok r
  else do
    let e ← r.empty l
    if e then .ok adj
    else if adj.begin_ ≠ r.begin_ then
      if r.begin_ = adj.end_ then
        .ok { r with begin_ := adj.begin_, size_ := r.size_ + adj.size }
      else .error .assertion
    else .ok r

/-- Safe_List.hh:251-275 `push_back`. -/
def pushBack (l : Nodes α) (r adj : Range) : Res Range := do
  let ae ← adj.empty l
  if ae then .ok r
  else do
    let e ← r.empty l
    if e then .ok adj
    else if adj.end_ ≠ r.end_ then
      if r.end_ = adj.begin_ then
        .ok { r with end_ := adj.end_, size_ := r.size_ + adj.size }
      else .error .assertion
    else .ok r

/-- Safe_List.hh:276-284 `update_end`. -/
def updateEnd (l : Nodes α) (r : Range) (it : Iter) : Res Range :=
  if r.empty' then .ok { r with bad := false, begin_ := it, end_ := it }
  else do
    let e ← advance l r.begin_ r.size_
    if e = it then .ok { r with end_ := it } else .error .assertion

/-- Safe_List.hh:312-317 `equal`. -/
def equal (r t : Range) : Bool :=
  r.bad == t.bad && (r.bad || (r.begin_ == t.begin_ && r.size_ == t.size_))

end Range

/-- Safe_List.hh:328-335 `rebase`: the same range in a copy of the list. -/
def rebase (src : Nodes α) (r : Range) (cpy : Nodes α) : Res Range := do
  let n ← distance src (iterTo src) r.begin_
  let m ← distance src (iterTo src) r.end_
  let b ← advance cpy (iterTo cpy) n
  let e ← advance cpy (iterTo cpy) m
  Range.ofPair cpy b e

/-- Safe_List.hh:402-441 `SL_Range_Iterator`: a range with a current position. -/
structure RangeIter where
  range : Range
  curr : Iter
  deriving Repr, DecidableEq

namespace RangeIter

/-- Safe_List.hh:413-414. -/
def ofRange (r : Range) : RangeIter := { range := r, curr := r.begin_ }

/-- Safe_List.hh:419-421 `operator bool`. -/
def good (i : RangeIter) : Bool := i.curr != i.range.end_

/-- Safe_List.hh:432-437 `advance`. -/
def advance (l : Nodes α) (i : RangeIter) : Res (Bool × RangeIter) :=
  if i.curr ≠ i.range.end_ then do
    let c ← SL.advance l i.curr 1
    .ok (c != i.range.end_, { i with curr := c })
  else .ok (false, i)

end RangeIter

/-- The range operations of a client, and changes of the list under the range. -/
inductive RangeOp where
  | pushFront (adj : Range)
  | pushBack (adj : Range)
  | updateEnd (it : Iter)
  | clear
  | clearAt (it : Iter)

/-- One range operation. -/
def Range.step (l : Nodes α) (r : Range) : RangeOp → Res Range
  | .pushFront adj => r.pushFront l adj
  | .pushBack adj => r.pushBack l adj
  | .updateEnd it => r.updateEnd l it
  | .clear => .ok r.clear
  | .clearAt it => .ok (r.clearAt it)

/-- A history of range operations. -/
def Range.run (l : Nodes α) : Range → List RangeOp → Res Range
  | r, [] => .ok r
  | r, o :: os => do
    let r' ← r.step l o
    Range.run l r' os

end SL
end FLPR
