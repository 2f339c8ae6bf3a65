import Verif.FileLine.Lemmas
/-!
# `Tree`, `Tree_Node` and the cursors (src/flpr/Tree.hh): model

A `Tree_Node` lives in a node of a branch list; its address is the address of that list node,
which is also what an iterator to it is.  The branch list of a node is owned by the node, so a
tree is modelled as an inductive type whose nodes carry their address and the three link fields
`linked_`, `parent_` and `self_itr_`.  The links are plain addresses, which the code may get
wrong; nothing in the type keeps them right.

`value = none` stands for a node whose `contents_` pointer is null, i.e. a moved-from node.

Simplifications.  The branch lists are `Safe_List`s; C28 shows that these behave as sequences
with stable iterators, so they are plain lists here, without the hidden end element.  A null
branch pointer and an empty branch list are not told apart.  `Tree(false)`, a tree with a root
list but no root node, is not modelled (it is not used).
-/

namespace FLPR
namespace Tr

variable {α : Type}

/-- Tree.hh:36-243 `Tree_Node`. -/
inductive TNode (α : Type) where
  | mk (addr : Nat) (linked : Bool) (parent self : Nat) (value : Option α)
      (kids : List (TNode α))

namespace TNode

def addr : TNode α → Nat
  | .mk a _ _ _ _ _ => a
def linked : TNode α → Bool
  | .mk _ l _ _ _ _ => l
def parent : TNode α → Nat
  | .mk _ _ p _ _ _ => p
def self : TNode α → Nat
  | .mk _ _ _ s _ _ => s
def value : TNode α → Option α
  | .mk _ _ _ _ v _ => v
def kids : TNode α → List (TNode α)
  | .mk _ _ _ _ _ ks => ks

/-- `i->parent_ = p`. -/
def setParent (p : Nat) : TNode α → TNode α
  | .mk a l _ s v ks => .mk a l p s v ks

/-- Tree.hh:76-87, 235-242 `link(self, parent)` with `fix_branches`. -/
def link (s p : Nat) : TNode α → TNode α
  | .mk a _ _ _ v ks => .mk a true p s v (ks.map (setParent s))

/-- The move constructor (Tree.hh:59) into a list node at address `a`: the contents are moved
and the links copied. -/
def moveTo (a : Nat) : TNode α → TNode α
  | .mk _ l p s v ks => .mk a l p s v ks

/-- What the move constructor leaves behind: a node without contents. -/
def husk : TNode α → TNode α
  | .mk a l p s _ _ => .mk a l p s none []

/-- Tree.hh:63-75: a new node with a value, at address `a`, not yet linked.  (Its links are not
initialised; no operation looks at them before `link`.) -/
def fresh (a : Nat) (v : α) : TNode α := .mk a false 0 0 (some v) []

/-- Tree.hh:123-126 `is_leaf`. -/
def isLeaf (t : TNode α) : Res Bool :=
  match t.value with
  | none => .error .assertion
  | some _ => .ok t.kids.isEmpty

mutual
/-- Tree.hh:115-122 `size`. -/
def size : TNode α → Res Nat
  | .mk _ _ _ _ none _ => .error .assertion
  | .mk _ _ _ _ (some _) ks => do
    let n ← sizeAll ks
    .ok (1 + n)
/-- The loop over the branches in `size`. -/
def sizeAll : List (TNode α) → Res Nat
  | [] => .ok 0
  | k :: ks => do
    let n ← size k
    let m ← sizeAll ks
    .ok (n + m)
end

mutual
/-- Tree.hh:245-257 `check`: `.ok ()` when no assertion fails. -/
def check : TNode α → Res Unit
  | .mk _ l _ s v ks =>
    if l = false then .error .assertion
    else if v.isNone then .error .assertion
    else checkAll s ks
/-- The loop over the branches in `check`. -/
def checkAll (s : Nat) : List (TNode α) → Res Unit
  | [] => .ok ()
  | k :: ks =>
    if k.addr ≠ k.self then .error .assertion
    else if k.parent ≠ s then .error .assertion
    else do
      check k
      checkAll s ks
end

mutual
/-- The node at an address, by search. -/
def find (n : Nat) : TNode α → Option (TNode α)
  | .mk a l p s v ks => if a = n then some (.mk a l p s v ks) else findAll n ks
/-- The node at an address in some branches. -/
def findAll (n : Nat) : List (TNode α) → Option (TNode α)
  | [] => none
  | k :: ks =>
    match find n k with
    | some t => some t
    | none => findAll n ks
end

mutual
/-- Change the node at an address. -/
def modify (n : Nat) (f : TNode α → Res (TNode α)) : TNode α → Res (TNode α)
  | .mk a l p s v ks =>
    if a = n then f (.mk a l p s v ks)
    else do
      let ks' ← modifyAll n f ks
      .ok (.mk a l p s v ks')
/-- Change the node at an address in some branches. -/
def modifyAll (n : Nat) (f : TNode α → Res (TNode α)) : List (TNode α) → Res (List (TNode α))
  | [] => .ok []
  | k :: ks => do
    let k' ← modify n f k
    let ks' ← modifyAll n f ks
    .ok (k' :: ks')
end

/-- Tree.hh:147-163 `emplace`, `emplace_front`, `emplace_back`: the branch `nb` is moved to a
new list node at address `a`, before the branch number `i`. -/
def emplace (i : Nat) (a : Nat) (nb : TNode α) (t : TNode α) : Res (TNode α) :=
  match t with
  | .mk b l p s v ks =>
    if v.isNone then .error .assertion                        -- branches()
    else if ks.length < i then .error .ub
    else if l = false then .error .assertion                  -- self()
    else .ok (.mk b l p s v (ks.take i ++ link a s (moveTo a nb) :: ks.drop i))

/-- Tree.hh:164-168 `swap`, seen from one of the two nodes: it gets the contents of `o`. -/
def takeContents : TNode α → TNode α → TNode α
  | .mk a l p s _ _, o => .mk a l p s o.value (o.kids.map (setParent s))

end TNode

/-- Tree.hh:562-718 `Tree`: `none` is a tree without a root list. -/
abbrev Tree (α : Type) := Option (TNode α)

/-- Tree.hh:584-601: `Tree(value)`: the root is its own parent. -/
def Tree.ofValue (a : Nat) (v : α) : TNode α := (TNode.fresh a v).link a a

/-- Tree.hh:655-683 `graft`, both versions: the root of `donor` is moved to the new address `a`,
as branch number `i` of the root. -/
def graft (i a : Nat) (donor : TNode α) (root : TNode α) : Res (TNode α) :=
  match root with
  | .mk b l p s v ks =>
    if v.isNone then .error .assertion
    else if ks.length < i then .error .ub
    else .ok (.mk b l p s v (ks.take i ++ (donor.moveTo a).link a s :: ks.drop i))

/-- Stmt_Tree.cc:36-47 and Prgm_Parsers_utils.hh:59-68 `hoist_back`: with a hoist tag on the
donor's root its branches are moved one by one, otherwise the donor is grafted.  `hoist` says
whether a value has the tag. -/
def hoistBack (hoist : α → Bool) (a : Nat) (donor : TNode α) (root : TNode α) :
    Res (TNode α × Nat) :=
  match donor.value with
  | none => .error .ub                                        -- null `contents_` is dereferenced
  | some dv =>
    if hoist dv then
      match root with
      | .mk b l p s v ks =>
        if v.isNone then .error .assertion
        else .ok (.mk b l p s v (ks ++ (donor.kids.zipIdx.map fun x =>
                    (x.1.moveTo (a + x.2)).link (a + x.2) s)), a + donor.kids.length)
    else do
      let r ← graft root.kids.length a donor root
      .ok (r, a + 1)

/-- The trees of a program. -/
structure World (α : Type) where
  trees : List (Tree α)
  next : Nat

/-- What a program does with its trees; a tree is named by its index, a node by its address. -/
inductive Cmd (α : Type) where
  /-- a new tree with one node -/
  | new (v : α)
  /-- `emplace` of a new leaf at branch `k` of node `n` of tree `i` -/
  | emplace (i n k : Nat) (v : α)
  /-- `graft` of tree `j` at branch `k` of the root of tree `i` -/
  | graft (i k j : Nat)
  /-- `hoist_back(tree i, std::move(tree j))` -/
  | hoist (i j : Nat)
  /-- `Tree::swap` -/
  | swap (i j : Nat)
  /-- `Tree_Node::swap` of node `n` of tree `i` and node `m` of tree `j` -/
  | swapNodes (i n j m : Nat)
  /-- a new tree, moved from tree `i` -/
  | move (i : Nat)
  /-- tree `i` = std::move(tree `j`) -/
  | moveAssign (i j : Nat)
  /-- `clear` -/
  | clear (i : Nat)

/-- One command.  After `graft(Tree &)` the donor is cleared; after the `&&` version and after
`hoist_back` it is a root without contents.  The model clears it in both cases: the second kind
of donor can only be cleared, assigned to or destroyed.

`root_node()` asserts that the tree has a root (Tree.hh:706-717). -/
def World.step (hoist : α → Bool) (w : World α) : Cmd α → Res (World α)
  | .new v => .ok { trees := w.trees ++ [some (Tree.ofValue w.next v)], next := w.next + 1 }
  | .emplace i n k v =>
    match w.trees[i]? with
    | none => .error .ub
    | some none => .error .assertion
    | some (some t) =>
      match t.find n with
      | none => .error .ub
      | some _ => do
        let t' ← t.modify n (TNode.emplace k w.next (TNode.fresh w.next v))
        .ok { trees := w.trees.set i (some t'), next := w.next + 1 }
  | .graft i k j =>
    if i = j then .error .ub
    else match w.trees[i]?, w.trees[j]? with
    | some (some t), some (some d) => do
      let t' ← graft k w.next d t
      .ok { trees := (w.trees.set i (some t')).set j none, next := w.next + 1 }
    | some _, some _ => .error .assertion
    | _, _ => .error .ub
  | .hoist i j =>
    if i = j then .error .ub
    else match w.trees[i]?, w.trees[j]? with
    | some _, some none => .ok w                              -- `if (!donor) return;`
    | some (some t), some (some d) => do
      let r ← hoistBack hoist w.next d t
      .ok { trees := (w.trees.set i (some r.1)).set j none, next := r.2 }
    | some none, some (some _) => .error .assertion
    | _, _ => .error .ub
  | .swap i j =>
    match w.trees[i]?, w.trees[j]? with
    | some x, some y => .ok { w with trees := (w.trees.set i y).set j x }
    | _, _ => .error .ub
  | .swapNodes i n j m =>
    match w.trees[i]?, w.trees[j]? with
    | some (some t), some (some u) =>
      match t.find n, u.find m with
      | some x, some y =>
        if n = m then .ok w
        -- swapping a node with one below it makes an ownership cycle: no tree results
        else if (x.find m).isSome || (y.find n).isSome then .error .ub
        else do
          let t' ← t.modify n (fun z => .ok (z.takeContents y))
          let ts := w.trees.set i (some t')
          match ts[j]? with
          | some (some u') => do
            let u'' ← u'.modify m (fun z => .ok (z.takeContents x))
            .ok { w with trees := ts.set j (some u'') }
          | _ => .error .ub
      | _, _ => .error .ub
    | _, _ => .error .ub
  | .move i =>
    match w.trees[i]? with
    | none => .error .ub
    | some t => .ok { w with trees := w.trees.set i none ++ [t] }
  | .moveAssign i j =>
    match w.trees[i]?, w.trees[j]? with
    | some _, some t =>
      if i = j then .ok w else .ok { w with trees := (w.trees.set i t).set j none }
    | _, _ => .error .ub
  | .clear i =>
    match w.trees[i]? with
    | none => .error .ub
    | some _ => .ok { w with trees := w.trees.set i none }

/-- A history of commands. -/
def World.run (hoist : α → Bool) : World α → List (Cmd α) → Res (World α)
  | w, [] => .ok w
  | w, c :: cs => do
    let w' ← w.step hoist c
    World.run hoist w' cs

end Tr
end FLPR
