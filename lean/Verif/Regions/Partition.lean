import Verif.Base
/-!
# Model of `Range_Partition` (src/flpr/Range_Partition.hh)

A partition of a sequence of list elements into consecutive regions.  An element is an address (`Nat`),
an iterator is `some` address or, default constructed, `none`; the type of the change tracker is a
parameter.  Its `update_*` functions have no effect (Procedure.hh:467-478), so calls of them are left
out.  `size_t` wrap-around occurs once, in `idx - 1` for `idx = 0` (line 148), and makes the test there
false, as in the model.
-/

namespace FLPR
namespace Reg

/-- An iterator: default constructed, or at the element with some address. -/
abbrev It := Option Nat

/-- Range_Partition.hh:162-178 `Partition`. -/
structure Part (T : Type) where
  begin : It
  pred : Nat
  succ : Nat
  trk : Option T

/-- Range_Partition.hh:180-181: the data members. -/
structure RP (T : Type) where
  parts : List (Part T)
  endIdx : Nat

variable {T : Type}

/-- Range_Partition.hh:163 `bad_idx`. -/
def badIdx : Nat := 20000000

namespace Part

/-- Range_Partition.hh:164 `Partition()`. -/
def fresh : Part T := ⟨none, badIdx, badIdx, none⟩

/-- Range_Partition.hh:170 `active()`. -/
def active (p : Part T) : Bool := p.pred != p.succ

/-- Range_Partition.hh:171-174 `deactivate(my_idx)`. -/
def deactivate (p : Part T) (i : Nat) : Part T := { p with pred := i, succ := i }

/-- Range_Partition.hh:175-177 `okay()`. -/
def okay (p : Part T) : Bool := p.pred != badIdx && p.succ != badIdx

end Part

namespace RP

/-- `parts_[i]`; undefined behind the end of the vector. -/
def part (r : RP T) (i : Nat) : Res (Part T) :=
  match r.parts[i]? with
  | some p => .ok p
  | none => .error .ub

/-- A change of `parts_[i]`; undefined behind the end of the vector. -/
def modify (r : RP T) (i : Nat) (f : Part T → Part T) : Res (RP T) := do
  let p ← r.part i
  .ok { r with parts := r.parts.set i (f p) }

/-- `parts_.back()`; the vector is never empty. -/
def back (r : RP T) : Res (Part T) :=
  match r.parts.getLast? with
  | some p => .ok p
  | none => .error .ub

/-- Range_Partition.hh:31-37: the constructor. -/
def make (count : Nat) : Res (RP T) :=
  if count > 0 then
    .ok ⟨(List.range (count + 1)).map (fun i => Part.fresh.deactivate i), count⟩
  else .error .assertion

/-- Range_Partition.hh:39-44 `clear_partitions`. -/
def clear (r : RP T) : RP T :=
  { r with parts := r.parts.mapIdx (fun i p => { p.deactivate i with trk := none }) }

/-- Range_Partition.hh:184-186 `valid_idx_`. -/
def validIdx (r : RP T) (i : Nat) : Res Bool :=
  if i < r.endIdx then do
    let p ← r.part i
    .ok p.okay
  else .ok false

/-- Range_Partition.hh:187-189 `active_idx_`. -/
def activeIdx (r : RP T) (i : Nat) : Res Bool := do
  let v ← r.validIdx i
  if v then do
    let p ← r.part i
    .ok p.active
  else .ok false

/-- Range_Partition.hh:193-195 `last_active_idx_`. -/
def lastActive (r : RP T) : Res Nat := do
  let p ← r.back
  .ok p.pred

/-- Range_Partition.hh:196-198 `active_empty_`. -/
def activeEmpty (r : RP T) : Res Bool := do
  let p ← r.back
  .ok (p.pred == r.endIdx)

/-- The loop of Range_Partition.hh:202-204.  Every turn increases `idx`, and at `end_idx_` the loop
ends, so `endIdx + 1` turns are enough. -/
def nextLoop (r : RP T) : Nat → Nat → Res Nat
  | 0, _ => .error .ub
  | n + 1, i => do
    let v ← r.validIdx (i + 1)
    if v then do
      let p ← r.part (i + 1)
      if p.active then .ok (i + 1) else nextLoop r n (i + 1)
    else .ok (i + 1)

/-- Range_Partition.hh:199-207 `next_active_idx_`. -/
def nextActive (r : RP T) (i : Nat) : Res Nat := do
  let p ← r.part i
  if p.active then .ok p.succ else nextLoop r (r.endIdx + 1) i

/-- Range_Partition.hh:223-233 `activate_`. -/
def activate (r : RP T) (i : Nat) : Res (RP T) := do
  let p ← r.part i
  if p.active then .ok r
  else do
    let succ ← r.nextActive i
    let s ← r.part succ
    let pred := s.pred
    let r1 ← r.modify pred (fun q => { q with succ := i })
    let r2 ← r1.modify succ (fun q => { q with pred := i })
    let s' ← r2.part succ
    r2.modify i (fun q => { q with begin := s'.begin, pred := pred, succ := succ })

/-- Range_Partition.hh:46 `empty()`. -/
def emptyAll (r : RP T) : Res Bool := r.activeEmpty

/-- Range_Partition.hh:47-53 `begin()`, `cbegin()`. -/
def beginAll (r : RP T) : Res It := do
  let e ← r.part r.endIdx
  let s ← r.part e.succ
  .ok s.begin

/-- Range_Partition.hh:54-60 `end()`, `cend()`. -/
def endAll (r : RP T) : Res It := do
  let e ← r.part r.endIdx
  .ok e.begin

/-- `assert(valid_idx_(idx))`. -/
def checkValid (r : RP T) (i : Nat) : Res Unit := do
  let v ← r.validIdx i
  if v then .ok () else .error .assertion

/-- Range_Partition.hh:71-78 `begin(idx) const`, `cbegin(idx)`. -/
def cbegin (r : RP T) (i : Nat) : Res It := do
  let _ ← r.checkValid i
  let p ← r.part i
  .ok p.begin

/-- Range_Partition.hh:84-91 `end(idx) const`, `cend(idx)`. -/
def cend (r : RP T) (i : Nat) : Res It := do
  let _ ← r.checkValid i
  let p ← r.part i
  let s ← r.part p.succ
  .ok s.begin

/-- Range_Partition.hh:62-65 `empty(idx)`. -/
def empty (r : RP T) (i : Nat) : Res Bool := do
  let b ← r.cbegin i
  let e ← r.cend i
  .ok (b == e)

/-- Range_Partition.hh:66-70 `begin(idx)` of a partition that is not const: it activates. -/
def mbegin (r : RP T) (i : Nat) : Res (It × RP T) := do
  let _ ← r.checkValid i
  let r' ← r.activate i
  let p ← r'.part i
  .ok (p.begin, r')

/-- Range_Partition.hh:79-83 `end(idx)` of a partition that is not const: it activates. -/
def mend (r : RP T) (i : Nat) : Res (It × RP T) := do
  let _ ← r.checkValid i
  let r' ← r.activate i
  let p ← r'.part i
  let s ← r'.part p.succ
  .ok (s.begin, r')

/-- Range_Partition.hh:93-100 `set_tracker`. -/
def setTracker (r : RP T) (i : Nat) (t : T) : Res (RP T) := do
  let _ ← r.checkValid i
  r.modify i (fun q => { q with trk := some t })

/-- Range_Partition.hh:102-105 `has_tracker`. -/
def hasTracker (r : RP T) (i : Nat) : Res Bool := do
  let _ ← r.checkValid i
  let p ← r.part i
  .ok p.trk.isSome

/-- Range_Partition.hh:107-114 `get_tracker`; an empty `std::optional` must not be dereferenced. -/
def getTracker (r : RP T) (i : Nat) : Res T := do
  let _ ← r.checkValid i
  let p ← r.part i
  match p.trk with
  | some t => .ok t
  | none => .error .ub

/-- Range_Partition.hh:135: `parts_.back().begin = range_end`. -/
def setBack (r : RP T) (e : It) : Res (RP T) := r.modify (r.parts.length - 1) (fun q => { q with begin := e })

/-- Range_Partition.hh:121-136 `append(idx, range_begin, range_end)`. -/
def append (r : RP T) (i : Nat) (b e : It) : Res (RP T) := do
  let _ ← r.checkValid i
  if b = e then .ok r
  else do
    let em ← r.activeEmpty
    let en ← r.endAll
    if em || b == en then do
      let l ← r.lastActive
      if em || decide (l < i) then do
        let r1 ← r.activate i
        let r2 ← r1.modify i (fun q => { q with begin := b })
        r2.setBack e
      else if l = i then r.setBack e
      else .error .assertion
    else .error .assertion

/-- `std::distance(b, e)` in a list with the elements `xs`, the last of which stands for the end; only
whether it is defined matters: `e` must be reachable from `b` by increments. -/
def reaches (xs : List Nat) (b e : It) : Bool :=
  match b, e with
  | some b, some e => (xs.dropWhile (fun x => x != b)).contains e
  | _, _ => false

/-- Range_Partition.hh:138-157 `insert(idx, new_begin, insert_pos)`, in a list with the elements `xs`. -/
def insert (r : RP T) (xs : List Nat) (i : Nat) (newBegin insertPos : It) : Res (RP T) := do
  let a ← r.activeIdx i
  if a then
    if reaches xs newBegin insertPos then do
      let old ← r.beginAll
      if insertPos = old then r.modify i (fun q => { q with begin := newBegin }) else .ok r
    else .error .ub
  else .error .assertion

/-- The loop of Range_Partition.hh:255-270, from index `i`, with `n` indices to go. -/
def validateLoop (r : RP T) : Nat → Nat → Nat → Nat → Res Unit
  | 0, _, _, _ => .ok ()
  | n + 1, i, last, next => do
    let v ← r.validIdx i
    if v then do
      let p ← r.part i
      if p.succ = i ∧ p.pred = i then
        if p.active then .error .assertion else validateLoop r n (i + 1) last next
      else do
        let a ← r.activeIdx i
        if a && decide (i = next) && decide (p.pred = last) && decide (p.succ > i) then
          validateLoop r n (i + 1) i p.succ
        else .error .assertion
    else .error .assertion

/-- Range_Partition.hh:245-272 `validate()`; it returns true or fails an assertion. -/
def validate (r : RP T) : Res Unit :=
  if r.endIdx + 1 = r.parts.length then do
    let e ← r.part r.endIdx
    validateLoop r r.endIdx 0 r.endIdx e.succ
  else .error .assertion

end RP
end Reg
end FLPR
