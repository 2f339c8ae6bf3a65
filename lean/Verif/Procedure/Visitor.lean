import Verif.Procedure.Model
/-!
# Model of `Procedure_Visitor` (src/flpr/Procedure_Visitor.hh)

A cursor into the program tree is given by the path from the root and, where the branches next to the node
matter, the node and the branches behind it.  The action has a state of its own (the file it edits, say);
it is given the path of the cursor and the two flags.  The structure of the tree is taken to stay as it is
while the visitor runs, which holds for the edits of `Procedure` and `Logical_File`.
-/

namespace FLPR
namespace Vis
open PP
open Proc (Path)

/-- Procedure_Visitor.hh:21-32: the action, with what it returns. -/
abbrev Act (σ : Type) := σ → Path → Bool → Bool → Res (σ × Bool)

/-- A branch: its index, the node, and the branches behind it. -/
structure Sib where
  idx : Nat
  node : PNode
  rest : List PNode

/-- Tree.hh:374-380 `down`. -/
def down (n : PNode) : Res Sib :=
  match n.kids with
  | [] => .error .assertion
  | k :: ks => .ok ⟨0, k, ks⟩

/-- Tree.hh:361-367 `try_next`. -/
def Sib.tryNext (c : Sib) : Option Sib :=
  match c.rest with
  | [] => none
  | k :: ks => some ⟨c.idx + 1, k, ks⟩

/-- Tree.hh:353-359 `next`. -/
def Sib.next (c : Sib) : Res Sib :=
  match c.tryNext with
  | none => .error .assertion
  | some c' => .ok c'

/-- Procedure_Visitor.hh:109-116, 136-139: past a part that may be there, `none` when the function returns
because nothing follows. -/
def Sib.past (tag : Int) (c : Sib) : Option Sib :=
  if c.node.tag = tag then c.tryNext else some c

variable {σ : Type}

/-- Procedure_Visitor.hh:121-123: the loop over the internal subprograms, the first of them being branch
`i` of the node at `p`.  With `internal` set, `visit_procedure_` calls the action and returns (89-93). -/
def eachInternal (act : Act σ) (module : Bool) (p : Path) : Nat → List PNode → σ × Bool → Res (σ × Bool)
  | _, [], r => .ok r
  | i, k :: ks, r =>
    match k.kids with
    | [] => .error .assertion
    | _ :: _ => do
      let v ← act r.1 (p ++ [i, 0]) true module
      eachInternal act module p (i + 1) ks (v.1, r.2 || v.2)

/-- Procedure_Visitor.hh:117-124: the internal subprograms. -/
def internals (act : Act σ) (module : Bool) (p : Path) (c : Sib) (r : σ × Bool) : Res (σ × Bool) :=
  if c.node.tag = Tag.PG_INTERNAL_SUBPROGRAM_PART then
    match c.node.kids with
    | [] => .ok r
    | k :: ks => if k.tag = Tag.SG_CONTAINS_STMT then eachInternal act module (p ++ [c.idx]) 1 ks r else .error .assertion
  else .ok r

/-- Procedure_Visitor.hh:95-108: to the branch behind the first statement. -/
def pastFirst (n : PNode) : Res Sib := do
  let c ← down n
  if n.tag = Tag.PG_MAIN_PROGRAM then
    if c.node.tag = Tag.SG_PROGRAM_STMT then c.next else .ok c
  else c.next

/-- Procedure_Visitor.hh:85-126 `visit_procedure_` for a procedure that is not internal. -/
def visitProc (act : Act σ) (module : Bool) (p : Path) (n : PNode) (s : σ) : Res (σ × Bool) := do
  let r ← act s p false module
  let c ← pastFirst n
  match c.past Tag.PG_SPECIFICATION_PART with
  | none => .ok r
  | some c1 =>
    match c1.past Tag.PG_EXECUTION_PART with
    | none => .ok r
    | some c2 => internals act module p c2 r

/-- Procedure_Visitor.hh:143-151: the loop over the module subprograms. -/
def eachModule (act : Act σ) (p : Path) : Nat → List PNode → σ × Bool → Res (σ × Bool)
  | _, [], r => .ok r
  | i, k :: ks, r =>
    match k.kids with
    | [] => .error .assertion
    | m :: _ =>
      if m.tag = Tag.PG_FUNCTION_SUBPROGRAM ∨ m.tag = Tag.PG_SUBROUTINE_SUBPROGRAM ∨
          m.tag = Tag.PG_SEPARATE_MODULE_SUBPROGRAM then do
        let v ← visitProc act true (p ++ [i, 0]) m r.1
        eachModule act p (i + 1) ks (v.1, r.2 || v.2)
      else eachModule act p (i + 1) ks r

/-- Procedure_Visitor.hh:128-154 `visit_module_`. -/
def visitModule (act : Act σ) (p : Path) (n : PNode) (s : σ) : Res (σ × Bool) := do
  let c ← down n
  if c.node.tag = Tag.SG_MODULE_STMT then do
    let c1 ← c.next
    match c1.past Tag.PG_SPECIFICATION_PART with
    | none => .ok (s, false)
    | some c2 =>
      if c2.node.tag = Tag.PG_MODULE_SUBPROGRAM_PART then
        match c2.node.kids with
        | [] => .error .assertion
        | k :: ks => if k.tag = Tag.SG_CONTAINS_STMT then eachModule act (p ++ [c2.idx]) 1 ks (s, false) else .error .assertion
      else .ok (s, false)
  else .error .assertion

/-- Procedure_Visitor.hh:66-79: one kind of program unit, `m` being the branch at `p`. -/
def visitUnit (act : Act σ) (p : Path) (m : PNode) (s : σ) : Res (σ × Bool) :=
  if m.tag = Tag.PG_EXTERNAL_SUBPROGRAM then do
    let c ← down m
    visitProc act false (p ++ [0]) c.node s
  else if m.tag = Tag.PG_MODULE then visitModule act p m s
  else if m.tag = Tag.PG_MAIN_PROGRAM then visitProc act false p m s
  else if m.tag = Tag.PG_SUBMODULE then visitModule act p m s
  else .ok (s, false)

/-- Procedure_Visitor.hh:61-81: the loop over the program units. -/
def eachUnit (act : Act σ) : Nat → List PNode → σ × Bool → Res (σ × Bool)
  | _, [], r => .ok r
  | i, k :: ks, r =>
    if k.tag = Tag.PG_PROGRAM_UNIT then do
      let c ← down k
      let v ← visitUnit act [i, 0] c.node r.1
      eachUnit act (i + 1) ks (v.1, r.2 || v.2)
    else .error .assertion

/-- Procedure_Visitor.hh:52-83 `visit`, on the tree of the file (`none`: an empty tree). -/
def visit (act : Act σ) (tree : Option PNode) (s : σ) : Res (σ × Bool) :=
  match tree with
  | none => .ok (s, false)
  | some t =>
    if t.tag = Tag.PG_PROGRAM then
      match t.kids with
      | [] => .error .assertion
      | k :: ks => eachUnit act 0 (k :: ks) (s, false)
    else .error .assertion

end Vis
end FLPR
