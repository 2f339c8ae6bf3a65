import Verif.Containers.Tree
/-!
# `Tree`: specification (C30, C31)

Plain trees: a node has a handle (what an iterator to it is), a value and its branches, and there
are no links.  A command that the interface does not allow has no result.
-/

namespace FLPR
namespace Tr
namespace Spec

variable {α : Type}

/-- A tree. -/
inductive Rose (α : Type) where
  | node (h : Nat) (v : α) (kids : List (Rose α))

namespace Rose

def handle : Rose α → Nat
  | .node h _ _ => h
def val : Rose α → α
  | .node _ v _ => v
def kids : Rose α → List (Rose α)
  | .node _ _ ks => ks

mutual
/-- The handles of all nodes, parents first. -/
def handles : Rose α → List Nat
  | .node h _ ks => h :: handlesAll ks
def handlesAll : List (Rose α) → List Nat
  | [] => []
  | k :: ks => handles k ++ handlesAll ks
end

mutual
/-- The values of all nodes, parents first. -/
def values : Rose α → List α
  | .node _ v ks => v :: valuesAll ks
def valuesAll : List (Rose α) → List α
  | [] => []
  | k :: ks => values k ++ valuesAll ks
end

mutual
/-- The subtree with a handle. -/
def get (n : Nat) : Rose α → Option (Rose α)
  | .node h v ks => if h = n then some (.node h v ks) else getAll n ks
def getAll (n : Nat) : List (Rose α) → Option (Rose α)
  | [] => none
  | k :: ks =>
    match get n k with
    | some t => some t
    | none => getAll n ks
end

mutual
/-- Replace the subtree with a handle. -/
def change (n : Nat) (g : Rose α → Rose α) : Rose α → Rose α
  | .node h v ks => if h = n then g (.node h v ks) else .node h v (changeAll n g ks)
def changeAll (n : Nat) (g : Rose α → Rose α) : List (Rose α) → List (Rose α)
  | [] => []
  | k :: ks => change n g k :: changeAll n g ks
end

/-- The same tree with another handle at its root. -/
def relabel (a : Nat) : Rose α → Rose α
  | .node _ v ks => .node a v ks

/-- With a new branch in place `i`. -/
def insertKid : Rose α → Nat → Rose α → Rose α
  | .node h v ks, i, k => .node h v (ks.take i ++ k :: ks.drop i)

/-- With the branches of a list, under new handles, after its own. -/
def appendKids (a : Nat) (more : List (Rose α)) : Rose α → Rose α
  | .node h v ks => .node h v (ks ++ more.zipIdx.map fun x => x.1.relabel (a + x.2))

/-- With the value and branches of another node. -/
def withContents : Rose α → Rose α → Rose α
  | .node h _ _, o => .node h o.val o.kids

end Rose

/-- The trees of a program. -/
structure World (α : Type) where
  trees : List (Option (Rose α))
  next : Nat

/-- Tree `i`, if it exists and has a root. -/
def World.live (w : World α) (i : Nat) : Option (Rose α) := (w.trees[i]?).join

/-- One command. -/
def World.step (hoist : α → Bool) (w : World α) : Cmd α → Option (World α)
  | .new v => some { trees := w.trees ++ [some (.node w.next v [])], next := w.next + 1 }
  | .emplace i n k v =>
    (w.live i).bind fun t => (t.get n).bind fun x =>
      if k ≤ x.kids.length then
        some { trees := w.trees.set i
                 (some (t.change n fun z => z.insertKid k (.node w.next v []))),
               next := w.next + 1 }
      else none
  | .graft i k j =>
    if i = j then none
    else (w.live i).bind fun t => (w.live j).bind fun d =>
      if k ≤ t.kids.length then
        some { trees := (w.trees.set i (some (t.insertKid k (d.relabel w.next)))).set j none,
               next := w.next + 1 }
      else none
  | .hoist i j =>
    if i = j then none
    else (w.trees[i]?).bind fun _ => (w.trees[j]?).bind fun d =>
      match d with
      | none => some w
      | some d => (w.live i).bind fun t =>
        if hoist d.val then
          some { trees := (w.trees.set i (some (t.appendKids w.next d.kids))).set j none,
                 next := w.next + d.kids.length }
        else
          some { trees := (w.trees.set i
                   (some (t.insertKid t.kids.length (d.relabel w.next)))).set j none,
                 next := w.next + 1 }
  | .swap i j =>
    (w.trees[i]?).bind fun x => (w.trees[j]?).map fun y =>
      { w with trees := (w.trees.set i y).set j x }
  | .swapNodes i n j m =>
    (w.live i).bind fun t => (w.live j).bind fun u =>
    (t.get n).bind fun x => (u.get m).bind fun y =>
      if n = m then some w
      else if m ∈ x.handles ∨ n ∈ y.handles then none
      else
        let ts := w.trees.set i (some (t.change n fun z => z.withContents y))
        ((ts[j]?).join).map fun u' =>
          { w with trees := ts.set j (some (u'.change m fun z => z.withContents x)) }
  | .move i => (w.trees[i]?).map fun t => { w with trees := w.trees.set i none ++ [t] }
  | .moveAssign i j =>
    (w.trees[i]?).bind fun _ => (w.trees[j]?).map fun t =>
      if i = j then w else { w with trees := (w.trees.set i t).set j none }
  | .clear i => (w.trees[i]?).map fun _ => { w with trees := w.trees.set i none }

/-- A history of commands. -/
def World.run (hoist : α → Bool) : World α → List (Cmd α) → Option (World α)
  | w, [] => some w
  | w, c :: cs => (w.step hoist c).bind fun w' => World.run hoist w' cs

/-- All handles in use. -/
def World.handles (w : World α) : List Nat :=
  w.trees.flatMap fun o => match o with | none => [] | some r => r.handles

end Spec

variable {α : Type}

mutual
/-- The links of a node and of everything below it are right: it is linked, its self handle is
its own address, its parent link is `p`, and the parent link of each branch is its address. -/
def Linked (p : Nat) : TNode α → Prop
  | .mk a l q s v ks => l = true ∧ s = a ∧ q = p ∧ v.isSome = true ∧ LinkedAll a ks
def LinkedAll (p : Nat) : List (TNode α) → Prop
  | [] => True
  | k :: ks => Linked p k ∧ LinkedAll p ks
end

mutual
/-- The tree without its links. -/
def Shape : TNode α → Spec.Rose α → Prop
  | .mk a _ _ _ v ks, .node h x rs => a = h ∧ v = some x ∧ ShapeAll ks rs
def ShapeAll : List (TNode α) → List (Spec.Rose α) → Prop
  | [], [] => True
  | k :: ks, r :: rs => Shape k r ∧ ShapeAll ks rs
  | _, _ => False
end

/-- The trees of the program are those of the specification, with right links, `check()` and
`size()` say so, and every node can be found at its own address only. -/
structure Matches (w : World α) (v : Spec.World α) : Prop where
  next : w.next = v.next
  count : w.trees.length = v.trees.length
  same : ∀ (i : Nat) (t : TNode α), w.trees[i]? = some (some t) → ∃ r, v.live i = some r ∧
    Shape t r ∧ Linked t.addr t ∧ t.check = .ok () ∧ t.size = .ok r.values.length
  live : ∀ (i : Nat), v.live i = none → (w.trees[i]?).join.isNone
  unique : v.handles.Nodup

end Tr
end FLPR
