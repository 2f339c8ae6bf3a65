import Verif.LogicalFile.SplitStmtMore
/-! # Splitting the compound lines of a file: examples, and where it goes wrong (C20) -/

namespace FLPR
open Spec

/-- The file that a free-format text gives. -/
def fileOf (raws : List String) : Res (Option LFile) := do
  let o ← stmtsOfText raws
  .ok (o.map (fun x => .made x.1 x.2))

/-- What a user sees of a file: the printed lines, and per statement the line, the tokens, the number in the
compound line, the label, the prefix, and what `empty()` gives (`none` when it is undefined). -/
structure StmtSeen where
  line : Option Nat
  toks : Option (List String)
  compound : Int
  label : Int
  pre : List Nat
  empty : Option Bool
  deriving DecidableEq, Repr

structure FileSeen where
  lines : List String
  stmts : List StmtSeen
  deriving DecidableEq, Repr

def LFile.seen (fl : LFile) : FileSeen :=
  ⟨fl.lines.flatMap (fun l => l.layout.map (fun f => String.ofList f.print)),
   fl.stmts.map (fun x => ⟨x.s.line, (stmtToks fl x).map (·.map (fun t => String.ofList t.text)), x.s.compound, x.s.label, x.s.pre, x.empty.toOption⟩)⟩

/-- Splitting before the statements at the given positions, one after the other. -/
def LFile.splits (fl : LFile) : List Nat → Res (List Bool × LFile)
  | [] => .ok ([], fl)
  | p :: ps => do
    let a ← fl.splitBefore p
    let b ← a.2.splits ps
    .ok (a.1 :: b.1, b.2)

def seenSplits (raws : List String) (ps : List Nat) : Res (Option (List Bool × FileSeen)) := do
  match ← fileOf raws with
  | none => .ok none
  | some fl =>
    let r ← fl.splits ps
    .ok (some (r.1, r.2.seen))

def seenIsolate (raws : List String) (p : Nat) : Res (Option (Bool × FileSeen)) := do
  match ← fileOf raws with
  | none => .ok none
  | some fl =>
    let r ← fl.isolate p
    .ok (some (r.1, r.2.seen))

/-- A file that meets the hypotheses, and of which a line is split. -/
example : ∃ fl x, fileOf ["! a", "10 a=b; c=d; e=f", "! z", "g=h"] = .ok (some fl) ∧ Consistent fl ∧
    fl.stmts[1]? = some x ∧ x.s.compound = 2 ∧ ∃ fl', fl.splitBefore 1 = .ok (true, fl') := by
  obtain ⟨ls, ss, h1, h2⟩ : ∃ ls ss, stmtsOfText ["! a", "10 a=b; c=d; e=f", "! z", "g=h"] = .ok (some (ls, ss)) ∧
      fileOf ["! a", "10 a=b; c=d; e=f", "! z", "g=h"] = .ok (some (.made ls ss)) := ⟨_, _, rfl, rfl⟩
  have hc : Consistent (.made ls ss) := by
    unfold stmtsOfText at h1
    rbind h1 with o ho
    cases o with
    | none => simp at h1
    | some gs =>
      dsimp only at h1
      rbind h1 with r hr
      rbind h1 with o2 ho2
      obtain ⟨ss', h3, h4⟩ := C20_scanned_free _ gs {} r.2 r.1 ho hr
      rw [h3] at ho2
      injection ho2 with ho2
      subst ho2
      simp only [Option.map_some, Except.ok.injEq, Option.some.injEq, Prod.mk.injEq] at h1
      obtain ⟨rfl, rfl⟩ := h1
      exact h4
  refine ⟨_, (LFile.made ls ss).stmts[1]'?_, h2, hc, List.getElem?_eq_getElem _, ?_, ?_⟩
  · have : (fileOf ["! a", "10 a=b; c=d; e=f", "! z", "g=h"]).map (Option.map (fun f => decide (1 < f.stmts.length))) = .ok (some true) := by
      decide +kernel
    rw [h2] at this
    simpa [Except.map] using this
  · have : (fileOf ["! a", "10 a=b; c=d; e=f", "! z", "g=h"]).map (Option.map (fun f => (f.stmts[1]?).map (fun x => x.s.compound))) = .ok (some (some 2)) := by
      decide +kernel
    rw [h2] at this
    simp only [Except.map, Option.map_some, Except.ok.injEq, Option.some.injEq] at this
    rw [Option.map_eq_some_iff] at this
    obtain ⟨x, hx, h3⟩ := this
    rw [List.getElem?_eq_some_iff] at hx
    obtain ⟨_, hx⟩ := hx
    rw [hx]
    exact h3
  · have : (fileOf ["! a", "10 a=b; c=d; e=f", "! z", "g=h"]).bind (fun o => match o with
        | none => .ok false
        | some f => (f.splitBefore 1).map (·.1)) = .ok true := by
      decide +kernel
    rw [h2] at this
    simp only [Except.bind] at this
    cases hh : (LFile.made ls ss).splitBefore 1 with
    | error e => rw [hh] at this; simp [Except.map] at this
    | ok v =>
      obtain ⟨v1, v2⟩ := v
      rw [hh] at this
      simp only [Except.map, Except.ok.injEq] at this
      exact ⟨v2, by rw [this]⟩

/-- What becomes of it: the statement goes to a line of its own; the prefixes stay with the comments … -/
example : seenSplits ["! a", "10 a=b; c=d; e=f", "! z", "g=h"] [2, 1] = .ok (some ([true, true],
    ⟨["! a", "10 a=b", "   c=d", "   e=f", "! z", "g=h"],
     [⟨some 1, some ["a", "=", "b"], 1, 10, [0], none⟩, ⟨some 2, some ["c", "=", "d"], 0, 0, [], some false⟩,
      ⟨some 3, some ["e", "=", "f"], 0, 0, [], some false⟩, ⟨some 5, some ["g", "=", "h"], 0, 0, [4], some false⟩]⟩)) := by
  decide +kernel

/-- … and isolating the second statement takes two splits. -/
example : seenIsolate ["! a", "10 a=b; c=d; e=f", "! z", "g=h"] 1 = .ok (some (true,
    ⟨["! a", "10 a=b", "   c=d", "   e=f", "! z", "g=h"],
     [⟨some 1, some ["a", "=", "b"], 1, 10, [0], none⟩, ⟨some 2, some ["c", "=", "d"], 1, 0, [], none⟩,
      ⟨some 3, some ["e", "=", "f"], 0, 0, [], some false⟩, ⟨some 5, some ["g", "=", "h"], 0, 0, [4], some false⟩]⟩)) := by
  decide +kernel

/-! ## Violations -/

/-- **C20** The statement in front of the split is not updated: the end of its range is the erased semicolon, so
that `empty()` – and with it `front()`, `linenum()` and printing – is undefined, and it still counts as the
first statement of a compound line although it is alone. -/
theorem C20_violation_stale : seenSplits ["a=b; c=d"] [1] = .ok (some ([true],
    ⟨["a=b", "c=d"], [⟨some 0, some ["a", "=", "b"], 1, 0, [], none⟩, ⟨some 1, some ["c", "=", "d"], 0, 0, [], some false⟩]⟩)) := by
  decide +kernel

/-- **C20** At the end of the file `split_compound_before` returns false, but `isolate_stmt` is undefined. -/
theorem C20_violation_isolate_end : seenSplits ["a=b"] [1] = .ok (some ([false],
      ⟨["a=b"], [⟨some 0, some ["a", "=", "b"], 0, 0, [], some false⟩]⟩)) ∧
    seenIsolate ["a=b"] 1 = .error .ub := by
  constructor <;> decide +kernel

/-- **C20** A compound line of a file just read that cannot be split: a comment between its continued lines. -/
theorem C20_violation_file_throws : seenSplits ["a=b &", "! note", "+c; d=e"] [1] = .error .exc := by
  decide +kernel

end FLPR
