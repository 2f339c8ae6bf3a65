import Verif.Containers.Cursor
import Verif.Containers.TreeSpec
/-!
# Tree cursors: specification (C31)

A position in a plain tree is a path from the root: which branch to take, level by level.
-/

namespace FLPR
namespace Tr

variable {α : Type}

namespace Spec

/-- The subtree at a path. -/
def Rose.at : List Nat → Rose α → Option (Rose α)
  | [], r => some r
  | i :: p, r => (r.kids[i]?).bind (Rose.at p)

/-- The four moves. -/
inductive Move where
  | up | down | next | prev

/-- A move on paths, when there is somewhere to go. -/
def move (r : Rose α) : Move → List Nat → Option (List Nat)
  | .up, p => if p = [] then none else some p.dropLast
  | .down, p => if (r.at (p ++ [0])).isSome then some (p ++ [0]) else none
  | .next, p =>
    match p.getLast? with
    | none => none
    | some i =>
      let q := p.dropLast ++ [i + 1]
      if (r.at q).isSome then some q else none
  | .prev, p =>
    match p.getLast? with
    | some (i + 1) => some (p.dropLast ++ [i])
    | _ => none

/-- A move, several times. -/
def moves (r : Rose α) (m : Move) : Nat → List Nat → Option (List Nat)
  | 0, p => some p
  | n + 1, p => (move r m p).bind (moves r m n)

end Spec

mutual
/-- The addresses of all nodes. -/
def TNode.addrs : TNode α → List Nat
  | .mk a _ _ _ _ ks => a :: TNode.addrsAll ks
def TNode.addrsAll : List (TNode α) → List Nat
  | [] => []
  | k :: ks => TNode.addrs k ++ TNode.addrsAll ks
end

/-- What C30 says of every tree: the links are right and no two nodes share an address. -/
structure WellLinked (t : TNode α) : Prop where
  linked : Linked t.addr t
  unique : t.addrs.Nodup

/-- The code's moves, by name. -/
def Cursor.move (t : TNode α) : Spec.Move → Nat → Cursor → Res Cursor
  | .up => Cursor.up t
  | .down => Cursor.down t
  | .next => Cursor.next t
  | .prev => Cursor.prev t

/-- The questions, by name. -/
def Cursor.has (t : TNode α) : Spec.Move → Cursor → Res Bool
  | .up => Cursor.hasUp t
  | .down => Cursor.hasDown t
  | .next => Cursor.hasNext t
  | .prev => Cursor.hasPrev t

/-- The cursor is at the node with path `p`. -/
def At (r : Spec.Rose α) (p : List Nat) (c : Cursor) : Prop :=
  ∃ x, r.at p = some x ∧ c = some (.node x.handle)

/-- The cursor is at a node of the tree. -/
def On (t : TNode α) (c : Cursor) : Prop := ∃ n ∈ t.addrs, c = some (.node n)

end Tr
end FLPR
