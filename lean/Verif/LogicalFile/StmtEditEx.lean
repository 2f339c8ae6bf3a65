import Verif.LogicalFile.StmtEditSet
import Verif.LogicalFile.SplitStmtEx
/-! # Inserting, changing and labelling statements: files just read, examples, and where it goes wrong (C64) -/

namespace FLPR
open Spec

theorem label_read_of_builds (st st' : Flex.State) (gs : List Group) (lines : List LLine)
    (h : buildLines st gs = .ok (lines, st')) : ∀ l ∈ lines, LabelRead l := by
  induction gs generalizing st lines with
  | nil =>
    simp only [buildLines, Except.ok.injEq, Prod.mk.injEq] at h
    rw [← h.1]
    intro l hl
    simp at hl
  | cons g gs ih =>
    unfold buildLines at h
    rbind h with r hr
    rbind h with rs hrs
    simp only [Except.ok.injEq, Prod.mk.injEq] at h
    have := ih r.2 rs.1 (by rw [hrs, ← h.2])
    rw [← h.1]
    intro l hl
    rcases List.mem_cons.mp hl with rfl | hl
    · unfold buildLine at hr
      rbind hr with r1 hr1
      injection hr with hr
      rw [← hr]
      exact (init_label_read hr1).1
    · exact this l hl

/-- **C64** (free format) A file just read is as the theorems want it. -/
theorem C64_scanned_free (raws : List Str) (gs : List Group) (st st' : Flex.State) (lines : List LLine)
    (h : scanFree raws = .ok (some gs)) (hb : buildLines st gs = .ok (lines, st')) :
    ∃ ss, makeStmts lines = .ok (some ss) ∧ Tidy (.made lines ss) ∧ ∀ l ∈ lines, LabelRead l :=
  ⟨_, C19_scanned_free raws gs st st' lines h hb, C64_made lines (initStmts_of_builds st st' gs lines hb),
    label_read_of_builds st st' gs lines hb⟩

/-- **C64** (fixed format) -/
theorem C64_scanned_fixed (raws : List Str) (lastCol : Int) (gs : List Group) (st st' : Flex.State)
    (lines : List LLine) (h : scanFixed raws lastCol = .ok (some gs))
    (hb : buildLines st gs = .ok (lines, st')) :
    ∃ ss, makeStmts lines = .ok (some ss) ∧ Tidy (.made lines ss) ∧ ∀ l ∈ lines, LabelRead l :=
  ⟨_, C19_scanned_fixed raws lastCol gs st st' lines h hb, C64_made lines (initStmts_of_builds st st' gs lines hb),
    label_read_of_builds st st' gs lines hb⟩

theorem fileOf_tidy {raws : List String} {fl : LFile} (h : fileOf raws = .ok (some fl)) :
    Tidy fl ∧ ∀ l ∈ fl.lines, LabelRead l := by
  unfold fileOf stmtsOfText at h
  rbind h with o ho
  rbind ho with g hg
  cases g with
  | none =>
    simp only [Except.ok.injEq] at ho
    rw [← ho] at h
    simp at h
  | some gs =>
    dsimp only at ho
    rbind ho with r hr
    rbind ho with o2 ho2
    obtain ⟨ss, h3, h4, h5⟩ := C64_scanned_free _ gs {} r.2 r.1 hg hr
    rw [h3] at ho2
    injection ho2 with ho2
    subst ho2
    injection ho with ho
    subst ho
    simp only [Option.map_some, Except.ok.injEq, Option.some.injEq] at h
    subst h
    exact ⟨h4, h5⟩

/-- The functions, for texts. -/
inductive FEdit where
  | text (pos : Nat) (new : List String) (tag : Int)
  | substr (pos i j : Nat) (new : String)
  | after (pos i : Nat) (new : String)
  | append (pos : Nat) (new : String)
  | label (pos : Nat) (n : Int)
  | emplace (pos : Nat) (raw : String) (tag : Int)
  | emplaceAfter (pos : Nat) (raw : String) (tag : Int)

def LFile.edit (fl : LFile) : FEdit → Res LFile
  | .text pos new tag => do .ok (← fl.replaceStmtText {} pos (new.map (·.toList)) tag).1
  | .substr pos i j new => do .ok (← fl.replaceStmtSubstr {} pos i j new.toList).1
  | .after pos i new => do .ok (← fl.insertTextAfter {} pos i new.toList).1
  | .append pos new => do .ok (← fl.appendStmtText {} pos new.toList).1
  | .label pos n => do .ok (← fl.setStmtLabel pos n).2
  | .emplace pos raw tag => do
    let l ← LLine.ofFree {} raw.toList
    fl.emplace pos l.1 tag
  | .emplaceAfter pos raw tag => do
    let l ← LLine.ofFree {} raw.toList
    fl.emplaceAfterPrefix pos l.1 tag

/-- The printed lines, and the lines, tokens, labels and prefixes of the statements, after a change. -/
def seenEdit (raws : List String) (e : FEdit) : Res (Option FileSeen) := do
  match ← fileOf raws with
  | none => .ok none
  | some fl =>
    let r ← fl.edit e
    .ok (some r.seen)

def noLabels (fl : LFile) : Bool := fl.lines.all (fun l => l.layout.all (fun f => !f.bits.label))

theorem labelSafe_of {fl : LFile} (h : ∀ l ∈ fl.lines, LabelRead l) (hn : noLabels fl = true) (pos : Nat) :
    LabelSafe fl pos := by
  intro x p r l _ _ _ hl
  have hm := List.mem_of_getElem? hl
  refine ⟨h l hm, Or.inr ?_⟩
  intro f hf
  have := List.all_eq_true.mp (List.all_eq_true.mp hn l hm) f hf
  simpa using this

/-- Three statements, two of them on one line, with prefixes. -/
def threeStmts : List String := ["! a", "a=b; c=d", "! z", "g=h"]

/-- A file that meets the hypotheses, and the second statement of which can be changed in all ways. -/
example : ∃ fl, fileOf threeStmts = .ok (some fl) ∧ Tidy fl ∧ LabelSafe fl 1 ∧ fl.stmts.length = 3 ∧
    (∃ r, fl.replaceStmtText {} 1 ["x=y".toList] 7 = .ok r) ∧ (∃ r, fl.replaceStmtSubstr {} 1 6 7 "q".toList = .ok r) ∧
    (∃ r, fl.insertTextAfter {} 1 6 "+q".toList = .ok r) ∧ (∃ r, fl.appendStmtText {} 1 "+q".toList = .ok r) ∧
    (∃ r, fl.setStmtLabel 1 20 = .ok r) ∧ ∃ r, fl.splitBefore 1 = .ok r := by
  have h : (fileOf threeStmts).map (Option.map (fun fl => noLabels fl && decide (fl.stmts.length = 3) &&
      (fl.replaceStmtText {} 1 ["x=y".toList] 7).isOk && (fl.replaceStmtSubstr {} 1 6 7 "q".toList).isOk &&
      (fl.insertTextAfter {} 1 6 "+q".toList).isOk && (fl.appendStmtText {} 1 "+q".toList).isOk &&
      (fl.setStmtLabel 1 20).isOk && (fl.splitBefore 1).isOk)) = .ok (some true) := by decide +kernel
  have hok : ∀ {α : Type} (r : Res α), r.isOk = true → ∃ a, r = .ok a := by
    intro α r hr
    cases r with
    | error e => simp [Except.isOk, Except.toBool] at hr
    | ok a => exact ⟨a, rfl⟩
  cases hf : fileOf threeStmts with
  | error e => rw [hf] at h; simp [Except.map] at h
  | ok o =>
    cases o with
    | none => rw [hf] at h; simp [Except.map] at h
    | some fl =>
      rw [hf] at h
      simp only [Except.map, Option.map_some, Except.ok.injEq, Option.some.injEq, Bool.and_eq_true, decide_eq_true_eq] at h
      obtain ⟨⟨⟨⟨⟨⟨⟨h1, h2⟩, h3⟩, h4⟩, h5⟩, h6⟩, h7⟩, h8⟩ := h
      obtain ⟨t1, t2⟩ := fileOf_tidy hf
      exact ⟨fl, rfl, t1, labelSafe_of t2 h1 1, h2, hok _ h3, hok _ h4, hok _ h5, hok _ h6, hok _ h7, hok _ h8⟩

/-- A statement to insert. -/
example : ∃ ll st, LLine.ofFree {} "x=y".toList = .ok (ll, st) ∧ OneStmt ll (0, 3) := by
  refine ⟨_, _, rfl, ⟨rfl, rfl, rfl, by decide⟩⟩

/-! ## What becomes of it -/

example : seenEdit threeStmts (.text 1 ["x=y"] 7) = .ok (some ⟨["! a", "a=b", "x=y", "! z", "g=h"],
    [⟨some 1, some ["a", "=", "b"], 1, 0, [0], none⟩, ⟨some 2, some ["x", "=", "y"], 0, 0, [], some false⟩,
     ⟨some 4, some ["g", "=", "h"], 0, 0, [3], some false⟩]⟩) := by decide +kernel

example : seenEdit threeStmts (.substr 1 6 7 "q") = .ok (some ⟨["! a", "a=b", "c=q", "! z", "g=h"],
    [⟨some 1, some ["a", "=", "b"], 1, 0, [0], none⟩, ⟨some 2, some ["c", "=", "q"], 0, 0, [], some false⟩,
     ⟨some 4, some ["g", "=", "h"], 0, 0, [3], some false⟩]⟩) := by decide +kernel

example : seenEdit threeStmts (.append 1 "+q") = .ok (some ⟨["! a", "a=b", "c=d+q", "! z", "g=h"],
    [⟨some 1, some ["a", "=", "b"], 1, 0, [0], none⟩, ⟨some 2, some ["c", "=", "d", "+", "q"], 0, 0, [], some false⟩,
     ⟨some 4, some ["g", "=", "h"], 0, 0, [3], some false⟩]⟩) := by decide +kernel

example : seenEdit threeStmts (.label 1 20) = .ok (some ⟨["! a", "a=b", "20 c=d", "! z", "g=h"],
    [⟨some 1, some ["a", "=", "b"], 1, 0, [0], none⟩, ⟨some 2, some ["c", "=", "d"], 0, 20, [], some false⟩,
     ⟨some 4, some ["g", "=", "h"], 0, 0, [3], some false⟩]⟩) := by decide +kernel

example : seenEdit threeStmts (.emplace 1 "x=y" 5) = .ok (some ⟨["! a", "a=b", "x=y", "c=d", "! z", "g=h"],
    [⟨some 1, some ["a", "=", "b"], 1, 0, [0], none⟩, ⟨some 2, some ["x", "=", "y"], 0, 0, [], some false⟩,
     ⟨some 3, some ["c", "=", "d"], 0, 0, [], some false⟩,
     ⟨some 5, some ["g", "=", "h"], 0, 0, [4], some false⟩]⟩) := by decide +kernel

example : seenEdit threeStmts (.emplace 2 "x=y" 5) = .ok (some ⟨["! a", "a=b; c=d", "x=y", "! z", "g=h"],
    [⟨some 1, some ["a", "=", "b"], 1, 0, [0], some false⟩, ⟨some 1, some ["c", "=", "d"], 2, 0, [], some false⟩,
     ⟨some 2, some ["x", "=", "y"], 0, 0, [], some false⟩,
     ⟨some 4, some ["g", "=", "h"], 0, 0, [3], some false⟩]⟩) := by decide +kernel

example : seenEdit threeStmts (.emplaceAfter 2 "x=y" 5) = .ok (some ⟨["! a", "a=b; c=d", "! z", "x=y", "g=h"],
    [⟨some 1, some ["a", "=", "b"], 1, 0, [0], some false⟩, ⟨some 1, some ["c", "=", "d"], 2, 0, [], some false⟩,
     ⟨some 3, some ["x", "=", "y"], 0, 0, [2], some false⟩,
     ⟨some 4, some ["g", "=", "h"], 0, 0, [], some false⟩]⟩) := by decide +kernel

/-! ## Violations -/

/-- **C64** Changing a statement behind a labelled one fails: the line that the split makes is still flagged as having
a label, which is missing. -/
theorem C64_violation_label : seenEdit ["10 a=b; c=d"] (.text 1 ["x=y"] 0) = .error .assertion := by decide +kernel

/-- **C64** Appending to a statement that is followed by another one on its line is undefined: its end is that of the
erased semicolon. -/
theorem C64_violation_append : seenEdit ["a=b; c=d"] (.append 0 "+1") = .error .ub := by decide +kernel

/-- **C64** When the line begins with a semicolon, other tokens than the given ones are replaced. -/
theorem C64_violation_semicolon : seenEdit ["; a=b"] (.substr 0 3 4 "q") =
    .ok (some ⟨["; aqb"], [⟨some 0, some ["aqb"], 0, 0, [], some false⟩]⟩) := by decide +kernel

/-- **C64** `insert_text_after` accepts a text with a further statement, which is then in the text of the file but not
in its list of statements; `append_stmt_text` fails. -/
theorem C64_violation_second : seenEdit ["a=b"] (.after 0 2 "; c=d") =
      .ok (some ⟨["a=b; c=d"], [⟨some 0, some ["a", "=", "b"], 0, 0, [], some false⟩]⟩) ∧
    seenEdit ["a=b"] (.append 0 "; c=d") = .error .assertion := by constructor <;> decide +kernel

/-- **C64** `set_stmt_label` with 0 does not remove the label from the text. -/
theorem C64_violation_unlabel : seenEdit ["10 a=b"] (.label 0 0) =
    .ok (some ⟨["0  a=b"], [⟨some 0, some ["a", "=", "b"], 0, 0, [], some false⟩]⟩) := by decide +kernel

/-- **C64** A statement cannot be inserted at the end of the file. -/
theorem C64_violation_end : seenEdit ["a=b"] (.emplace 1 "x=y" 0) = .error .assertion := by decide +kernel

/-- **C64** A statement that is continued over more lines than the new text has cannot be replaced. -/
theorem C64_violation_shorter : seenEdit ["a=b &", "  +q"] (.text 0 ["x=y"] 0) = .error .assertion := by decide +kernel

end FLPR
