import Verif.Program.Eval
/-!
# Specification for program trees

Written for a tree by itself: which statements it has as leaves, and what its ranges have to be.
-/

namespace FLPR
namespace Spec
open PP
open SP (R SNode Rng Strm)

mutual
/-- The statements at the leaves of a tree, from left to right. -/
def leavesOf : PNode → List Nat
  | .node _ _ (some i) _ => [i]
  | .node _ _ none ks => stmtsOfAll ks
/-- The same for some trees. -/
def stmtsOfAll : List PNode → List Nat
  | [] => []
  | k :: ks => leavesOf k ++ stmtsOfAll ks
end

/-- Put an element in front of a list, unless the list starts with it. -/
def consNew (a : Nat) : List Nat → List Nat
  | [] => [a]
  | b :: l => if a = b then b :: l else a :: b :: l

/-- A list with neighbours that are equal written once. -/
def squash : List Nat → List Nat
  | [] => []
  | a :: l => consNew a (squash l)

/-- The range `r` is the one of the statements `l`: empty if there are none, and otherwise from the
first to the last of them, with none left out. -/
def RangeOf (r : Rng) (l : List Nat) : Prop :=
  (l = [] ∧ r.isEmpty = true) ∨ ∃ b e, b < e ∧ r = some (b, e) ∧ squash l = List.range' b (e - b)

mutual
/-- Every node of the tree has the range of its leaves, a node for a statement has no branches, and
below the root there are no nodes left that are to be hoisted. -/
def TreeOk : PNode → Prop
  | .node t r i ks => RangeOf r (leavesOf (.node t r i ks)) ∧ (i.isSome → ks = []) ∧ TreesOk ks
/-- The same for the branches of a node. -/
def TreesOk : List PNode → Prop
  | [] => True
  | k :: ks => k.tag ≠ Tag.HOIST ∧ TreeOk k ∧ TreesOk ks
end

/-- The statements of a tree that may not be there. -/
def leavesOfOpt : Option PNode → List Nat
  | none => []
  | some t => leavesOf t

/-- The statement parsers in `c` never return a tree that is to be hoisted. -/
def NoHoist (c : R → Bool) (sp : StmtP) : Prop :=
  ∀ r, c r = true → ∀ s t q, sp r s = .ok (some t, q) → t.tag ≠ Tag.HOIST

/-- What the statement parsers of the library do, with the extensions `x` registered: the result that
they come to, whatever bound is given. -/
def Library (x : SP.Exts) (sp : R → Strm → Res (Option SNode × Strm)) : Prop :=
  ∀ r s, ∃ N, ∀ n, N ≤ n → SP.evalRule SP.R.body x n r s = SP.up (sp r s)

/-- A state over the whole list of statements. -/
def Full (s : PState) : Prop := s.hi = s.stmts.length ∧ s.pos ≤ s.hi

/-- The call `r(state)` of a program level parser ends with `res`. -/
def PReturns (x : SP.Exts) (r : PR) (s : PState) (res : Res POut) : Prop :=
  ∃ N, ∀ n, N ≤ n → run x n r s = SP.up res

end Spec

namespace PP
open SP (R)

mutual
/-- All the statement parsers that a term calls directly satisfy `c`. -/
def T.only (c : R → Bool) : T → Bool
  | .alts _ ps => T.onlyAll c ps
  | .endStream => true
  | .opt p => p.only c
  | .optSeq _ ps => T.onlyAll c ps
  | .plus _ p => p.only c
  | .seq _ ps => T.onlyAll c ps
  | .seqIf _ p ps => p.only c && T.onlyAll c ps
  | .star p => p.only c
  | .stmt r => c r
  | .tagIf _ p => p.only c
  | .rule _ => true
/-- The same for some terms. -/
def T.onlyAll (c : R → Bool) : List T → Bool
  | [] => true
  | p :: ps => p.only c && T.onlyAll c ps
end

/-- All the statement parsers that a parser function calls directly satisfy `c`. -/
def PBody.only (c : R → Bool) : PBody → Bool
  | .comb p => p.only c
  | .exec p => p.only c
  | .legacyDo => c .do_stmt && c .end_do_stmt && c .action_stmt && c .end_do

end PP
end FLPR
