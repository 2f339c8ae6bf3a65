import Verif.Containers.Tree
/-!
# Tree cursors (src/flpr/Tree.hh:277-545): model

A `TN_Cursor` is an iterator to a node with a flag that says whether it is set.  The two classes
`TN_Cursor` and `TN_Const_Cursor` have the same bodies.

A move reads the link fields of the node, or steps in the list that physically holds the node.
These are two different things in the code, and so they are here: `holder` looks for the node in
the tree, while `parent` is what the node says.
-/

namespace FLPR
namespace Tr

variable {α : Type}

/-- Where an iterator of a branch list can be: at a node, or at the hidden end element of the
list owned by the node at address `n`. -/
inductive Pos where
  | node (n : Nat)
  | endOf (n : Nat)
deriving DecidableEq

mutual
/-- The list that holds the node at address `n`, below this node: the address of its owner, the
addresses in front of it, nearest first, and the ones behind it. -/
def TNode.holder (n : Nat) : TNode α → Option (Nat × List Nat × List Nat)
  | .mk a _ _ _ _ ks => TNode.holderAll n a [] ks
/-- The search through the branches. -/
def TNode.holderAll (n own : Nat) (pre : List Nat) :
    List (TNode α) → Option (Nat × List Nat × List Nat)
  | [] => none
  | k :: ks =>
    if k.addr = n then some (own, pre, ks.map TNode.addr)
    else match TNode.holder n k with
      | some r => some r
      | none => TNode.holderAll n own (k.addr :: pre) ks
end

/-- The address after which an iterator at `n` stands, for `std::next`. -/
def stepNext (t : TNode α) (n : Nat) : Res Pos :=
  match t.holder n with
  | none => .error .ub
  | some (own, _, []) => .ok (.endOf own)
  | some (_, _, b :: _) => .ok (.node b)

/-- `std::prev`. -/
def stepPrev (t : TNode α) (n : Nat) : Res Pos :=
  match t.holder n with
  | none => .error .ub
  | some (_, [], _) => .error .ub
  | some (_, b :: _, _) => .ok (.node b)

/-- `branches().begin()` of a node. -/
def firstOf (x : TNode α) : Res Pos :=
  match x.value with
  | none => .error .assertion
  | some _ =>
    match x.kids with
    | [] => .ok (.endOf x.addr)
    | k :: _ => .ok (.node k.addr)

/-- `branches().end()` of a node. -/
def endPos (x : TNode α) : Res Pos :=
  match x.value with
  | none => .error .assertion
  | some _ => .ok (.endOf x.addr)

/-- `*iter_`. -/
def deref (t : TNode α) (c : Pos) : Res (TNode α) :=
  match c with
  | .endOf _ => .error .ub
  | .node n =>
    match t.find n with
    | none => .error .ub
    | some x => .ok x

/-- A cursor; `none` stands for `assoc_ == false`. -/
abbrev Cursor := Option Pos

/-- `assert(assoc_)` and the node. -/
def Cursor.node (t : TNode α) (c : Cursor) : Res (TNode α) :=
  match c with
  | none => .error .assertion
  | some p => deref t p

/-- Tree.hh:127-130, 297-300 `is_root`. -/
def Cursor.isRoot (t : TNode α) (c : Cursor) : Res Bool := do
  let x ← Cursor.node t c
  if x.linked = false then .error .assertion else .ok (decide (x.parent = x.self))

/-- Tree.hh:321-324 `has_up`. -/
def Cursor.hasUp (t : TNode α) (c : Cursor) : Res Bool := do
  let b ← Cursor.isRoot t c
  .ok (!b)

/-- Tree.hh:92-101, 326-332: one round of `up`. -/
def Cursor.up1 (t : TNode α) (c : Cursor) : Res Cursor := do
  let b ← Cursor.hasUp t c
  if b = false then .error .assertion
  else do
    let x ← Cursor.node t c
    let p ← deref t (.node x.parent)
    if x.linked = false then .error .assertion
    else if x.parent ≠ p.self then .error .assertion
    else .ok (some (.node x.parent))

/-- Tree.hh:334-337 `has_prev`. -/
def Cursor.hasPrev (t : TNode α) (c : Cursor) : Res Bool := do
  let b ← Cursor.isRoot t c
  if b then .ok false
  else do
    let x ← Cursor.node t c
    let p ← deref t (.node x.parent)
    let f ← firstOf p
    .ok (decide (some f ≠ c))

/-- Tree.hh:339-345: one round of `prev`. -/
def Cursor.prev1 (t : TNode α) (c : Cursor) : Res Cursor := do
  let b ← Cursor.hasPrev t c
  if b = false then .error .assertion
  else match c with
    | some (.node n) => do
      let q ← stepPrev t n
      .ok (some q)
    | _ => .error .ub

/-- Tree.hh:347-351 `has_next`. -/
def Cursor.hasNext (t : TNode α) (c : Cursor) : Res Bool := do
  let b ← Cursor.isRoot t c
  if b then .ok false
  else match c with
    | some (.node n) => do
      let x ← Cursor.node t c
      let p ← deref t (.node x.parent)
      let e ← endPos p
      let q ← stepNext t n
      .ok (decide (e ≠ q))
    | _ => .error .ub

/-- `iter_ = std::next(iter_)`. -/
def Cursor.bump (t : TNode α) (c : Cursor) : Res Cursor :=
  match c with
  | some (.node n) => do
    let q ← stepNext t n
    .ok (some q)
  | _ => .error .ub

/-- Tree.hh:353-359: one round of `next`. -/
def Cursor.next1 (t : TNode α) (c : Cursor) : Res Cursor := do
  let b ← Cursor.hasNext t c
  if b = false then .error .assertion else Cursor.bump t c

/-- Tree.hh:369-372 `has_down`. -/
def Cursor.hasDown (t : TNode α) (c : Cursor) : Res Bool := do
  let x ← Cursor.node t c
  let b ← x.isLeaf
  .ok (!b)

/-- `iter_ = iter_->branches().begin()`. -/
def Cursor.toFirst (t : TNode α) (c : Cursor) : Res Cursor := do
  let x ← Cursor.node t c
  let f ← firstOf x
  .ok (some f)

/-- Tree.hh:374-380: one round of `down`. -/
def Cursor.down1 (t : TNode α) (c : Cursor) : Res Cursor := do
  let b ← Cursor.hasDown t c
  if b = false then .error .assertion else Cursor.toFirst t c

/-- The loops `for (int i = 0; i < count; ++i)` of `up`, `prev`, `next` and `down`; a negative
count does nothing, as zero. -/
def times (f : Cursor → Res Cursor) : Nat → Cursor → Res Cursor
  | 0, c => .ok c
  | n + 1, c => do
    let c' ← f c
    times f n c'

def Cursor.up (t : TNode α) (count : Nat) (c : Cursor) : Res Cursor := times (Cursor.up1 t) count c
def Cursor.prev (t : TNode α) (count : Nat) (c : Cursor) : Res Cursor :=
  times (Cursor.prev1 t) count c
def Cursor.next (t : TNode α) (count : Nat) (c : Cursor) : Res Cursor :=
  times (Cursor.next1 t) count c
def Cursor.down (t : TNode α) (count : Nat) (c : Cursor) : Res Cursor :=
  times (Cursor.down1 t) count c

/-- The loops of the `try_` functions: the cursor afterwards and the result. -/
def tryTimes (has : Cursor → Res Bool) (go : Cursor → Res Cursor) :
    Nat → Cursor → Res (Cursor × Bool)
  | 0, c => .ok (c, true)
  | n + 1, c => do
    let b ← has c
    if b = false then .ok (c, false)
    else do
      let c' ← go c
      tryTimes has go n c'

/-- Tree.hh:361-367 `try_next`. -/
def Cursor.tryNext (t : TNode α) (count : Nat) (c : Cursor) : Res (Cursor × Bool) :=
  tryTimes (Cursor.hasNext t) (Cursor.bump t) count c
/-- Tree.hh:382-388 `try_down`. -/
def Cursor.tryDown (t : TNode α) (count : Nat) (c : Cursor) : Res (Cursor × Bool) :=
  tryTimes (Cursor.hasDown t) (Cursor.toFirst t) count c

end Tr
end FLPR
