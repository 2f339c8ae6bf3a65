import Verif.Containers.SafeList
/-!
# `Safe_List`: specification (C28)

The specification is a machine of plain sequences.  Every element has a handle (what an iterator
to it is), and so has the end of the sequence.  A command that the interface does not allow, for
example erasing `end()` or using an iterator of another list, has no result.
-/

namespace FLPR
namespace SL

variable {α : Type}

namespace Spec

/-- A sequence: its elements with their handles, and the handle of its end. -/
structure Seq (α : Type) where
  items : List (Nat × α)
  stop : Nat

/-- All handles of a sequence. -/
def Seq.handles (s : Seq α) : List Nat := s.items.map (·.1) ++ [s.stop]

/-- Where a handle points: an index, or the length for the end. -/
def Seq.index (s : Seq α) (h : Nat) : Option Nat :=
  if h = s.stop then some s.items.length else s.items.findIdx? (fun x => x.1 == h)

/-- Elements with new handles. -/
def label (k : Nat) (vs : List α) : List (Nat × α) := vs.zipIdx.map fun p => (k + p.2, p.1)

/-- One operation on a sequence; `k` is the next unused handle, `d` the default element. -/
def Seq.step (d : α) (s : Seq α) (k : Nat) : Op α → Option (Seq α × Nat)
  | .pushBack v => some ({ s with items := s.items ++ [(k, v)] }, k + 1)
  | .pushFront v => some ({ s with items := (k, v) :: s.items }, k + 1)
  | .insert h v => (s.index h).map fun n =>
      ({ s with items := s.items.take n ++ (k, v) :: s.items.drop n }, k + 1)
  | .insertRange h vs => (s.index h).map fun n =>
      ({ s with items := s.items.take n ++ label k vs ++ s.items.drop n }, k + vs.length)
  | .erase h =>
      if h = s.stop then none
      else (s.index h).map fun n => ({ s with items := s.items.eraseIdx n }, k)
  | .eraseRange h g =>
      match s.index h, s.index g with
      | some n, some m =>
        if n ≤ m then some ({ s with items := s.items.take n ++ s.items.drop m }, k) else none
      | _, _ => none
  | .popBack => if s.items = [] then none else some ({ s with items := s.items.dropLast }, k)
  | .clear => some ({ items := [], stop := k }, k + 1)
  | .removeIf p =>
      if p d then none else some ({ s with items := s.items.filter (fun x => !p x.2) }, k)

/-- The sequences of a program; `none` is a list that has been moved from. -/
structure World (α : Type) where
  seqs : List (Option (Seq α))
  fresh : Nat

/-- A new sequence with the given elements. -/
def fill (k : Nat) (vs : List α) : Seq α := { items := label k vs, stop := k + vs.length }

/-- The list `i`, unless it does not exist or has been moved from. -/
def World.live (w : World α) (i : Nat) : Option (Seq α) := (w.seqs[i]?).join

/-- One command. -/
def World.step (d : α) (w : World α) : Cmd α → Option (World α)
  | .new vs => some { seqs := w.seqs ++ [some (fill w.fresh vs)],
                      fresh := w.fresh + vs.length + 1 }
  | .op i o => (w.live i).bind fun s => (s.step d w.fresh o).map fun r =>
      { seqs := w.seqs.set i (some r.1), fresh := r.2 }
  | .copy i => (w.live i).map fun s =>
      { seqs := w.seqs ++ [some (fill w.fresh (s.items.map (·.2)))],
        fresh := w.fresh + s.items.length + 1 }
  | .move i => (w.live i).map fun s => { w with seqs := w.seqs.set i none ++ [some s] }
  | .assign i j =>
      match w.seqs[i]?, w.live j with
      | some _, some s =>
        if i = j then some w
        else some { seqs := w.seqs.set i (some (fill w.fresh (s.items.map (·.2)))),
                    fresh := w.fresh + s.items.length + 1 }
      | _, _ => none
  | .moveAssign i j =>
      match w.seqs[i]?, w.live j with
      | some _, some s =>
        if i = j then some w else some { w with seqs := (w.seqs.set i (some s)).set j none }
      | _, _ => none

/-- A history of commands. -/
def World.run (d : α) : World α → List (Cmd α) → Option (World α)
  | w, [] => some w
  | w, c :: cs => (w.step d c).bind fun w' => World.run d w' cs

/-- The handles that a command may end: those of the elements it removes, and for `clear` and
the assignments those of everything in the target, the end included. -/
def World.ended (w : World α) : Cmd α → List Nat
  | .op i o =>
      match w.live i with
      | none => []
      | some s =>
        match o with
        | .erase h => [h]
        | .eraseRange h g =>
          match s.index h, s.index g with
          | some n, some m => ((s.items.take m).drop n).map (·.1)
          | _, _ => []
        | .popBack => (s.items.getLast?.map (·.1)).toList
        | .clear => s.handles
        | .removeIf p => (s.items.filter (fun x => p x.2)).map (·.1)
        | _ => []
  | .assign i j => if i = j then [] else ((w.live i).map Seq.handles).getD []
  | .moveAssign i j => if i = j then [] else ((w.live i).map Seq.handles).getD []
  | _ => []

end Spec

/-- Walk from a node with `++` until the iterator equals `e`; the elements passed. -/
def walk (e : Nat) : Nodes α → Res (Nodes α)
  | [] => .error .ub
  | x :: l => if x.1 = e then .ok [] else (walk e l).map (x :: ·)

/-- What a user sees of a list that holds the sequence `s`. -/
structure Shows (l : SList α) (s : Spec.Seq α) : Prop where
  /-- `for (it = begin(); it != end(); ++it)` -/
  items : walk l.myEnd l.nodes = .ok s.items
  /-- `end()` -/
  stop : l.myEnd = s.stop
  /-- `begin()` -/
  begin : l.begin = some (s.handles.headD 0)
  /-- `size()`; a list of 2^64 elements or more cannot exist -/
  size : l.size = s.items.length % 2 ^ 64
  empty : l.empty = s.items.isEmpty
  front : s.items ≠ [] → (l.front.toOption = s.items.head?.map (·.2))
  back : s.items ≠ [] → (l.back.toOption = s.items.getLast?.map (·.2))
  /-- dereferencing an iterator -/
  deref : ∀ h v, (h, v) ∈ s.items → derefAt l.nodes h = .ok v

/-- The lists of the program hold the sequences of the specification. -/
structure Matches (w : World α) (v : Spec.World α) : Prop where
  fresh : w.fresh = v.fresh
  count : w.lists.length = v.seqs.length
  shows : ∀ (i : Nat) (l : SList α) (s : Spec.Seq α), w.lists[i]? = some l → v.seqs[i]? = some (some s) → Shows l s

end SL
end FLPR
