import Verif.Procedure.Spec
import Verif.Base
/-!
# Specification: the procedures of a program

Written for a program tree by itself: where its procedures are, how many procedures are around each, and
whether it is in a module.
-/

namespace FLPR
namespace Spec
open PP

/-- A procedure: its place in the tree, the number of procedures around it, and whether it is in a module
or submodule. -/
structure Found where
  path : List Nat
  depth : Nat
  inModule : Bool
deriving DecidableEq

/-- The tags of modules. -/
def moduleTags : List Int := [Tag.PG_MODULE, Tag.PG_SUBMODULE]

mutual
/-- The procedures of a tree at place `p`, inside of `d` procedures, from first to last. -/
def procsIn (p : List Nat) (d : Nat) (m : Bool) : PNode → List Found
  | .node t _ _ ks =>
    if t ∈ procTags then ⟨p, d, m⟩ :: procsInAll p 0 (d + 1) m ks
    else procsInAll p 0 d (m || decide (t ∈ moduleTags)) ks
/-- The same for the branches from index `i` on of the node at place `p`. -/
def procsInAll (p : List Nat) (i d : Nat) (m : Bool) : List PNode → List Found
  | [] => []
  | k :: ks => procsIn (p ++ [i]) d m k ++ procsInAll p (i + 1) d m ks
end

/-- The procedures of a program. -/
def procsOf (t : PNode) : List Found := procsIn [] 0 false t

/-- The tags of the nodes above the end of a path. -/
def above : PNode → List Nat → List Int
  | _, [] => []
  | t, i :: p =>
    t.tag ::
      match t.kids[i]? with
      | some k => above k p
      | none => []

/-- The number of procedures among some tags. -/
abbrev around (ts : List Int) : Nat := (ts.filter (fun t => decide (t ∈ procTags))).length

/-- A module is among some tags. -/
abbrev inside (ts : List Int) : Bool := ts.any (fun t => decide (t ∈ moduleTags))

/-- Call `act` for each of the procedures, one after the other, as an internal one if it is inside of
another; the results are or'ed. -/
def callAll {σ : Type} (act : σ → List Nat → Bool → Bool → Res (σ × Bool)) : List Found → σ × Bool → Res (σ × Bool)
  | [], r => .ok r
  | f :: fs, r => do
    let v ← act r.1 f.path (decide (0 < f.depth)) f.inModule
    callAll act fs (v.1, r.2 || v.2)

end Spec
end FLPR
