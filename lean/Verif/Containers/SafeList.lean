import Verif.FileLine.Lemmas
/-!
# `Safe_List` (src/flpr/Safe_List.hh:49-154): model

A `std::list` is modelled as the sequence of its nodes, each node with its address and its
element.  Addresses come from a counter, so that two nodes never have the same address, also
when they are in different lists or one of them is already gone.  An iterator is the address of
a node; the past-the-end iterator of the hidden `std::list`, which users of `Safe_List` are not
meant to see, is `none`.  Using an iterator on a list that does not hold its node is undefined.

Simplifications.  Allocation never fails.  A moved-from `std::list` is empty, and a moved list
keeps its nodes: the standard says the first for no list and the second for the move
constructor only, but it is what the library implementations do with `std::allocator`.  The
elements are plain values.  Copy assignment gives all elements new nodes (the standard gives no
promise for the old iterators).
-/

namespace FLPR
namespace SL

variable {α : Type}

/-- The nodes of a `std::list`, in order: address and element. -/
abbrev Nodes (α : Type) := List (Nat × α)

/-- The nodes before the node `n`, and those from `n` on; `none` when `n` is not in the list. -/
def cut (n : Nat) : Nodes α → Option (Nodes α × Nodes α)
  | [] => none
  | x :: l => if x.1 = n then some ([], x :: l)
              else (cut n l).map fun p => (x :: p.1, p.2)

/-- `Safe_List` (Safe_List.hh:147-148): `list_` and the address held by `my_end_`. -/
structure SList (α : Type) where
  nodes : Nodes α
  myEnd : Nat
  deriving Repr, DecidableEq

/-- New nodes with the given elements, from address `k` on. -/
def mkNodes (k : Nat) : List α → Nodes α
  | [] => []
  | v :: vs => (k, v) :: mkNodes (k + 1) vs

/-- `list_.insert(pos, …)`, `list_.emplace(pos, …)` before the node `pos`. -/
def insertAt (l : Nodes α) (pos : Nat) (new : Nodes α) : Res (Nodes α) :=
  match cut pos l with
  | none => .error .ub
  | some (a, b) => .ok (a ++ new ++ b)

/-- `list_.erase(pos)`: the list and the iterator that follows. -/
def eraseAt (l : Nodes α) (pos : Nat) : Res (Nodes α × Option Nat) :=
  match cut pos l with
  | some (a, _ :: b) => .ok (a ++ b, b.head?.map (·.1))
  | _ => .error .ub

/-- `list_.erase(first, last)`; `last` must be reachable from `first`. -/
def eraseBetween (l : Nodes α) (first last : Nat) : Res (Nodes α × Option Nat) :=
  match cut first l with
  | none => .error .ub
  | some (a, b) =>
    match cut last b with
    | none => .error .ub
    | some (_, c) => .ok (a ++ c, c.head?.map (·.1))

/-- `std::prev(it)`: undefined at the first node. -/
def prevOf (l : Nodes α) (n : Nat) : Res Nat :=
  match cut n l with
  | none => .error .ub
  | some (a, _) =>
    match a.getLast? with
    | none => .error .ub
    | some x => .ok x.1

/-- `*it`. -/
def derefAt (l : Nodes α) (n : Nat) : Res α :=
  match cut n l with
  | some (_, x :: _) => .ok x.2
  | _ => .error .ub

namespace SList

/-- Safe_List.hh:62-71, 151-153: the constructors from elements; `append_sentry_` adds a
default-constructed element `d` at the end. -/
def ofList (d : α) (k : Nat) (vs : List α) : SList α × Nat :=
  ({ nodes := mkNodes k vs ++ [(k + vs.length, d)], myEnd := k + vs.length }, k + vs.length + 1)

/-- Safe_List.hh:92-93 `back`: `*(std::prev(my_end_))`. -/
def back (s : SList α) : Res α := prevOf s.nodes s.myEnd >>= derefAt s.nodes

/-- Safe_List.hh:118 `front`: undefined on a `std::list` without nodes. -/
def front (s : SList α) : Res α :=
  match s.nodes with
  | [] => .error .ub
  | x :: _ => .ok x.2

/-- Safe_List.hh:120 `begin`. -/
def begin (s : SList α) : Option Nat := s.nodes.head?.map (·.1)

/-- Safe_List.hh:101 `size`: `list_.size() - 1` in `size_t`. -/
def size (s : SList α) : Nat := (s.nodes.length + (2 ^ 64 - 1)) % 2 ^ 64

/-- Safe_List.hh:102 `empty`. -/
def empty (s : SList α) : Bool := s.nodes.length < 2

end SList

/-- The member functions that change one list.  `pushBack` stands for `push_back` and
`emplace_back`, `pushFront` for `emplace_front`, `insert` for `insert` and `emplace`. -/
inductive Op (α : Type) where
  | pushBack (v : α)
  | pushFront (v : α)
  | insert (pos : Nat) (v : α)
  | insertRange (pos : Nat) (vs : List α)
  | erase (pos : Nat)
  | eraseRange (first last : Nat)
  | popBack
  | clear
  | removeIf (p : α → Bool)

/-- Safe_List.hh:97-144: one member function; `k` is the next free address. -/
def SList.step (d : α) (s : SList α) (k : Nat) : Op α → Res (SList α × Nat)
  | .pushBack v => do
    let l ← insertAt s.nodes s.myEnd [(k, v)]
    .ok ({ s with nodes := l }, k + 1)
  | .pushFront v => .ok ({ s with nodes := (k, v) :: s.nodes }, k + 1)
  | .insert pos v => do
    let l ← insertAt s.nodes pos [(k, v)]
    .ok ({ s with nodes := l }, k + 1)
  | .insertRange pos vs => do
    let l ← insertAt s.nodes pos (mkNodes k vs)
    .ok ({ s with nodes := l }, k + vs.length)
  | .erase pos => do
    let (l, _) ← eraseAt s.nodes pos
    .ok ({ s with nodes := l }, k)
  | .eraseRange first last => do
    let (l, _) ← eraseBetween s.nodes first last
    .ok ({ s with nodes := l }, k)
  | .popBack => do
    let p ← prevOf s.nodes s.myEnd
    let (l, _) ← eraseAt s.nodes p
    .ok ({ s with nodes := l }, k)
  | .clear => .ok ({ nodes := [(k, d)], myEnd := k }, k + 1)
  | .removeIf p =>
    let l := s.nodes.filter (fun x => !p x.2)
    -- lines 108-112: on an empty list `std::prev(list_.end())` is undefined
    if l.isEmpty then .error .ub else .ok ({ s with nodes := l }, k)

/-- Several lists, as objects in a program. -/
structure World (α : Type) where
  lists : List (SList α)
  fresh : Nat
  deriving Repr, DecidableEq

/-- What a program does with its lists; a list is named by its index. -/
inductive Cmd (α : Type) where
  /-- a new list with the given elements -/
  | new (vs : List α)
  | op (i : Nat) (o : Op α)
  /-- a new list, copied from list `i` -/
  | copy (i : Nat)
  /-- a new list, moved from list `i` -/
  | move (i : Nat)
  /-- list `i` = list `j` -/
  | assign (i j : Nat)
  /-- list `i` = std::move(list `j`) -/
  | moveAssign (i j : Nat)

/-- `std::prev(list_.end())`, undefined on an empty `std::list`. -/
def lastNode (l : Nodes α) : Res Nat :=
  match l.getLast? with
  | none => .error .ub
  | some x => .ok x.1

/-- Safe_List.hh:72-89, 97-144: one command; an index out of range is no program. -/
def World.step (d : α) (w : World α) : Cmd α → Res (World α)
  | .new vs =>
    let (s, k) := SList.ofList d w.fresh vs
    .ok { lists := w.lists ++ [s], fresh := k }
  | .op i o =>
    match w.lists[i]? with
    | none => .error .ub
    | some s => do
      let (s', k) ← s.step d w.fresh o
      .ok { lists := w.lists.set i s', fresh := k }
  | .copy i =>
    match w.lists[i]? with
    | none => .error .ub
    | some s => do
      let l := mkNodes w.fresh (s.nodes.map (·.2))
      let e ← lastNode l
      .ok { lists := w.lists ++ [{ nodes := l, myEnd := e }], fresh := w.fresh + l.length }
  | .move i =>
    match w.lists[i]? with
    | none => .error .ub
    | some s => do
      let e ← lastNode s.nodes
      .ok { w with lists := w.lists.set i { s with nodes := [] } ++
                              [{ nodes := s.nodes, myEnd := e }] }
  | .assign i j =>
    match w.lists[i]?, w.lists[j]? with
    | some _, some s => do
      if i = j then
        let e ← lastNode s.nodes
        .ok { w with lists := w.lists.set i { s with myEnd := e } }
      else
        let l := mkNodes w.fresh (s.nodes.map (·.2))
        let e ← lastNode l
        .ok { lists := w.lists.set i { nodes := l, myEnd := e }, fresh := w.fresh + l.length }
    | _, _ => .error .ub
  | .moveAssign i j =>
    match w.lists[i]?, w.lists[j]? with
    | some _, some s => do
      if i = j then .ok w
      else
        let e ← lastNode s.nodes
        .ok { w with lists := (w.lists.set i { nodes := s.nodes, myEnd := e }).set j
                                { s with nodes := [] } }
    | _, _ => .error .ub

/-- A history of commands. -/
def World.run (d : α) : World α → List (Cmd α) → Res (World α)
  | w, [] => .ok w
  | w, c :: cs => do
    let w' ← w.step d c
    World.run d w' cs

end SL
end FLPR
