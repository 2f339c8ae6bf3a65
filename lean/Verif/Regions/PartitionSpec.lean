import Verif.Regions.Partition
/-!
# What a partition into regions is (specification for C33)

Elements are addresses.  A list is given by its elements, the last of which stands for the hidden end
element of a `Safe_List`; so every position, the end included, has an address.
-/

namespace FLPR
namespace Spec
open Reg

/-- The iterators `b`, `e` delimit the elements `xs` of the list `l`. -/
def Delimits (l : List Nat) (b e : It) (xs : List Nat) : Prop :=
  ∃ pre post, l = pre ++ xs ++ post ∧ post ≠ [] ∧ b = (xs ++ post).head? ∧ e = post.head?

/-- What a user does with a partition: append the next elements to a region, or look at a region
through the functions `begin(idx)`, `end(idx)` that are not const. -/
inductive ROp where
  | app (i : Nat) (xs : List Nat)
  | look (i : Nat)

/-- The elements an operation appends. -/
def ROp.elems : ROp → List Nat
  | .app _ xs => xs
  | .look _ => []

/-- All elements appended to region `i`. -/
def regionOf (ops : List ROp) (i : Nat) : List Nat :=
  ops.flatMap (fun o => match o with
    | .app j xs => if j = i then xs else []
    | .look _ => [])

/-- The region an operation makes active. -/
def ROp.touches : ROp → List Nat
  | .app _ [] => []
  | .app i _ => [i]
  | .look i => [i]

/-- Histories of a partition with `n` regions in which elements are appended in region order and no
region is looked at through `begin(idx)`, `end(idx)` that are not const as long as fewer than two
are active.  `seen` are the regions active so far. -/
def Orderly (n : Nat) : List Nat → List ROp → Prop
  | _, [] => True
  | seen, .app i xs :: ops =>
    i < n ∧ (xs ≠ [] → ∀ a ∈ seen, a ≤ i) ∧ Orderly n (seen ++ ROp.touches (.app i xs)) ops
  | seen, .look i :: ops =>
    i < n ∧ (∃ a ∈ seen, ∃ b ∈ seen, a ≠ b) ∧ Orderly n (seen ++ [i]) ops

/-- Running a history; `rest` are the elements from the next one to append on. -/
def runOps {T : Type} (r : RP T) : List Nat → List ROp → Res (RP T)
  | _, [] => .ok r
  | rest, .app i xs :: ops => do
    let r' ← r.append i rest.head? (rest.drop xs.length).head?
    runOps r' (rest.drop xs.length) ops
  | rest, .look i :: ops => do
    let p ← r.mbegin i
    let q ← p.2.mend i
    runOps q.2 rest ops

end Spec
end FLPR
