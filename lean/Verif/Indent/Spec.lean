import Verif.Procedure.Spec
import Verif.Indent.Model
/-!
# Specification of the indentation

For a program tree and a table by themselves: the constructs around a leaf are the nodes on the path to it.
-/

namespace FLPR
namespace Spec
open PP

/-- The constructs whose first and last branch are not indented. -/
def endedTags : List Int := [Tag.PG_DERIVED_TYPE_DEF, Tag.PG_ENUM_DEF, Tag.PG_CASE_CONSTRUCT]

/-- What a node with the tag `tag` and `n` branches adds to the indentation of its branch `i`. -/
def addedBy (off : Int → Int) (tag : Int) (n i : Nat) : Int :=
  if tag ∈ endedTags ∧ (i = 0 ∨ i + 1 = n) then 0 else off tag

/-- The indentation of what is at the end of the path: the sum of what the nodes on the way add. -/
def indentOf (off : Int → Int) : PNode → List Nat → Int
  | _, [] => 0
  | t, i :: p =>
    addedBy off t.tag t.kids.length i +
      match t.kids[i]? with
      | some k => indentOf off k p
      | none => 0

mutual
/-- The paths to the leaves that are statements, from left to right. -/
def leafPaths : PNode → List (List Nat)
  | .node _ _ (some _) [] => [[]]
  | .node _ _ none [] => []
  | .node _ _ _ (k :: ks) => (leafPaths k).map (0 :: ·) ++ leafPathsFrom 1 ks
/-- The same for the branches from number `i` on. -/
def leafPathsFrom (i : Nat) : List PNode → List (List Nat)
  | [] => []
  | k :: ks => (leafPaths k).map (i :: ·) ++ leafPathsFrom (i + 1) ks
end

/-- The lines that are moved with a statement: those before it that are no statements, and its own.  Only
the first statement of a line moves it. -/
def linesOf (s : LLStmt) : List Nat := if s.compound < 2 then s.pre ++ s.line.toList else []

/-- The lines that belong to the leaf at the end of a path. -/
def linesAt (stmts : List LLStmt) (t : PNode) (p : List Nat) : List Nat :=
  match nodeAt t p with
  | some (.node _ _ (some i) _) =>
    match stmts[i]? with
    | some s => linesOf s
    | none => []
  | _ => []

/-- The moves of lines that indenting a tree makes, in order: each line that belongs to a leaf, with the
indentation of the leaf. -/
def moves (off : Int → Int) (stmts : List LLStmt) (t : PNode) : List (Nat × Int) :=
  (leafPaths t).flatMap (fun p => (linesAt stmts t p).map (fun j => (j, indentOf off t p)))

/-- The indentations that line `j` gets, in order. -/
def movesFor (off : Int → Int) (stmts : List LLStmt) (t : PNode) (j : Nat) : List Int :=
  ((moves off stmts t).filter (fun m => m.1 == j)).map (·.2)

/-- The physical lines `fs'` are `fs` with each moved to its column: the first to `n`, the others to `m`
(what moving one physical line does is the subject of C11). -/
def Moved (n m : Int) (fs fs' : List FileLine) : Prop :=
  ∃ f f' rs rs', fs = f :: rs ∧ fs' = f' :: rs' ∧ (∃ b, Ind.setLeading f n = .ok (f', b)) ∧
    List.Forall₂ (fun a a' => ∃ b, Ind.setLeading a m = .ok (a', b)) rs rs'

/-- Line `l'` is `l` indented by `n`: only the layout is different; the continuation lines of a statement
are moved by a further `cont`. -/
def IndentedBy (cont n : Int) (l l' : LLine) : Prop :=
  l' = { l with layout := l'.layout } ∧ Moved n (n + if l.hasFortran then cont else 0) l.layout l'.layout

/-- The line `l` indented by each of the numbers in turn. -/
inductive IndentedByAll (cont : Int) : List Int → LLine → LLine → Prop
  | nil {l} : IndentedByAll cont [] l l
  | cons {n ns l l1 l2} : IndentedBy cont n l l1 → IndentedByAll cont ns l1 l2 → IndentedByAll cont (n :: ns) l l2

/-- A physical line that starts a free-format statement, with a label or without. -/
structure StmtLine (f : FileLine) : Prop where
  fortran : f.isFortran = true
  free : f.bits.fixed_format = false
  text : f.main_txt ≠ []
  left : f.left_txt ≠ [] → f.bits.label = true

/-- The column (from 0) that a statement line should have when the indentation is `n`: a label keeps its
place, with a blank behind it. -/
def columnFor (f : FileLine) (n : Int) : Int := if f.left_txt = [] then n else max n (f.left_txt.length + 1)

/-- A physical line that can be moved to the left and to the right without trouble: a comment, or a free-format
line that has nothing but a label or a leading ampersand in front of its text, and on which nothing comes
between the text and a trailing comment. -/
def Movable (f : FileLine) : Prop :=
  f.bits.comment = true ∨ f.isFortran = false ∨
    (f.bits.fixed_format = false ∧ (f.left_txt ≠ [] → f.bits.label = true ∨ f.bits.continuation = true) ∧
      (f.left_txt ≠ [] → ∃ c ∈ f.left_txt, c ≠ ' ') ∧ ('!' ∉ f.right_txt ∨ ∃ t, f.right_txt = '!' :: t))

/-- The logical lines that can be moved. -/
def MovableLine (l : LLine) : Prop := l.layout ≠ [] ∧ ∀ f ∈ l.layout, Movable f

mutual
/-- The tree is one the table knows: the tags of the nodes with branches are those of the program grammar,
and a construct with a first and a last statement has both. -/
def Known : PNode → Prop
  | .node _ _ _ [] => True
  | .node tag _ _ (k :: ks) => (Tag.PG_000_LB < tag ∧ tag < Tag.PG_ZZZ_UB) ∧ (tag ∈ endedTags → ks ≠ []) ∧ Known k ∧ KnownAll ks
/-- The same for some trees. -/
def KnownAll : List PNode → Prop
  | [] => True
  | k :: ks => Known k ∧ KnownAll ks
end

mutual
/-- The largest indentation in a tree. -/
def deepest (off : Int → Int) : PNode → Int
  | .node _ _ _ [] => 0
  | .node tag _ _ (k :: ks) => off tag + max (deepest off k) (deepestOf off ks)
/-- The same for some trees. -/
def deepestOf (off : Int → Int) : List PNode → Int
  | [] => 0
  | k :: ks => max (deepest off k) (deepestOf off ks)
end

/-- A physical line for which moving it tells whether it was changed: a statement with nothing but a label in front
of it, a comment that is all in the left field, or something that is neither a statement nor a comment. -/
def Telling (f : FileLine) : Prop :=
  (f.isFortran = true → f.left_txt ≠ [] → f.bits.label = true) ∧
  (f.bits.comment = true → f.left_space = [] ∧ f.main_txt = [] ∧ f.right_space = [] ∧ f.right_txt = [])

/-- The constructs that the standard tables indent. -/
def indentedTags : List Int :=
  [Tag.PG_BLOCK, Tag.PG_EXECUTION_PART, Tag.PG_INTERFACE_SPECIFICATION, Tag.PG_INTERNAL_SUBPROGRAM, Tag.PG_MODULE_SUBPROGRAM,
    Tag.PG_SPECIFICATION_PART, Tag.PG_WHERE_BODY_CONSTRUCT] ++ endedTags

/-- The number of indented constructs on a path, without those of which the path takes the first or the last branch
where these are not indented. -/
def depthOf : PNode → List Nat → Nat
  | _, [] => 0
  | t, i :: p =>
    (if t.tag ∈ indentedTags ∧ ¬ (t.tag ∈ endedTags ∧ (i = 0 ∨ i + 1 = t.kids.length)) then 1 else 0) +
      match t.kids[i]? with
      | some k => depthOf k p
      | none => 0

end Spec
end FLPR
