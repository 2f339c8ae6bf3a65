import Verif.Indent.Known
import Verif.Indent.Defined
import Verif.Indent.Stable
import Verif.Indent.Tables
/-!
# C34: indentation (Parsed_File.hh `indent`, Indent_Table.{hh,cc})
-/

namespace FLPR
namespace Ind
open Spec PP
open SP (Exts)

/-! ### Files for the examples -/

/-- A line with one statement, `n` blanks in front of it. -/
def xline (n : Nat) (w : String) : LLine := { layout := [{ left_space := blanks n, main_txt := w.toList }], stmts := [(0, 1)] }

/-- The numbers of blanks in front of the physical lines. -/
def xcols (ls : List LLine) : List (List Nat) := ls.map (fun l => l.layout.map (fun f => f.left_txt.length + f.left_space.length))

/-- The lines of a program as they come out, with a standard table. -/
def xout (tab : Res Table) (ls : List LLine) (t : PNode) : Option (List (List Nat)) :=
  match tab with
  | .error _ => none
  | .ok tab =>
    match indent tab (stmtsOf ls) (some t) ls with
    | .error _ => none
    | .ok r => some (xcols r.1)

def xlines : List LLine :=
  [xline 7 "subroutine s", xline 0 "do i=1,2", xline 9 "x=1", xline 1 "end do", xline 3 "end"]

/-! ### The indentation of each line -/

/-- C34: indenting, when it succeeds, keeps the number and the order of the lines, and moves each line to the columns
that the constructs around the statements it belongs to add up to - the continuation lines by the offset for
these further.  No line is moved to a negative column. -/
theorem C34_indent (tab : Table) (stmts : List LLStmt) (t : PNode) (ls : List LLine) (r : List LLine × Bool)
    (h : indent tab stmts (some t) ls = .ok r) :
    r.1.length = ls.length ∧ (∀ m ∈ moves tab.offset stmts t, 0 ≤ m.2) ∧
    ∀ j l, ls[j]? = some l → ∃ l', r.1[j]? = some l' ∧ IndentedByAll tab.continued (movesFor tab.offset stmts t j) l l' := by
  have ha := indentNode_spec tab stmts t 0 ls r h
  rw [shift_zero] at ha
  exact ⟨ha.length, ha.nonneg, fun j l hl => ha.at j l hl⟩

/-- C34: without a tree nothing happens. -/
theorem C34_empty (tab : Table) (stmts : List LLStmt) (ls : List LLine) : indent tab stmts none ls = .ok (ls, false) := rfl

theorem all_first {cont : Int} {ns : List Int} {l l' : LLine} (h : IndentedByAll cont ns l l') : ∀ {f : FileLine} {fs : List FileLine},
    l.layout = f :: fs → StmtLine f → (∀ n ∈ ns, 0 ≤ n) →
    ∃ f' fs', l'.layout = f' :: fs' ∧ fs'.length = fs.length ∧ StmtLine f' ∧ f'.left_txt = f.left_txt ∧ f'.main_txt = f.main_txt ∧
      (∀ n, ns.getLast? = some n → f'.getLeadingSpaces = columnFor f n) := by
  induction h with
  | nil => intro f fs hl hf _; exact ⟨f, fs, hl, rfl, hf, rfl, rfl, by simp⟩
  | @cons n ns l l1 l2 hi _ ih =>
    intro f fs hl hf hn
    obtain ⟨_, g, g', rs, rs', h1, h2, ⟨b, h3⟩, h4⟩ := hi
    rw [hl] at h1
    injection h1 with h1 h1'
    subst h1 h1'
    obtain ⟨k1, k2, k3, k4⟩ := stmtLine_moved (hn n (by simp)) hf h3
    obtain ⟨f', fs', q1, q2, q3, q4, q5, q6⟩ := ih h2 k1 (fun m hm => hn m (by simp [hm]))
    refine ⟨f', fs', q1, by rw [q2, h4.length_eq], q3, by rw [q4, k2], by rw [q5, k3.2.1], fun m hm => ?_⟩
    cases ns with
    | nil =>
      simp only [List.getLast?_singleton, Option.some.injEq] at hm
      subst hm
      rename_i h5
      cases h5
      rw [h2] at q1
      injection q1 with q1 _
      rw [← q1]
      exact k4
    | cons a as =>
      rw [List.getLast?_cons_cons] at hm
      rw [q6 m hm]
      unfold columnFor
      rw [k2]

/-- C34: a statement begins in the column that the constructs around it add up to (behind its label, if that is
longer); when it ends several loops, those of the last one count. -/
theorem C34_column (tab : Table) (stmts : List LLStmt) (t : PNode) (ls : List LLine) (r : List LLine × Bool)
    (h : indent tab stmts (some t) ls = .ok r) (j : Nat) (l : LLine) (hl : ls[j]? = some l) (f : FileLine) (fs : List FileLine)
    (hf : l.layout = f :: fs) (hs : StmtLine f) (n : Int) (hn : (movesFor tab.offset stmts t j).getLast? = some n) :
    ∃ l' f' fs', r.1[j]? = some l' ∧ l'.layout = f' :: fs' ∧ f'.main_txt = f.main_txt ∧ f'.getLeadingSpaces = columnFor f n := by
  obtain ⟨_, h2, h3⟩ := C34_indent tab stmts t ls r h
  obtain ⟨l', h4, h5⟩ := h3 j l hl
  have hnn : ∀ n ∈ movesFor tab.offset stmts t j, 0 ≤ n := by
    intro n hn
    unfold movesFor at hn
    obtain ⟨m, hm, rfl⟩ := List.mem_map.mp hn
    exact h2 m (List.mem_filter.mp hm).1
  obtain ⟨f', fs', q1, _, _, _, q5, q6⟩ := all_first h5 hf hs hnn
  exact ⟨l', f', fs', h4, q1, q5, q6 n hn⟩

theorem setLeading_same {f g : FileLine} {n : Int} {b : Bool} (h : setLeading f n = .ok (g, b)) :
    g.bits = f.bits ∧ (f.bits.comment = false → SameStatement f g) := by
  refine ⟨setLeading_bits h, fun hc => ?_⟩
  unfold setLeading at h
  split at h
  · exact (C11_text_kept f g _ b hc h).1
  · rw [if_neg (by simp [hc])] at h
    split at h
    · simp at h
    · exact (C11_text_kept f g _ b hc h).1

/-- What indenting keeps of a physical line. -/
def KeepsText (f g : FileLine) : Prop := g.bits = f.bits ∧ (f.bits.comment = false → SameStatement f g)

theorem KeepsText.refl (f : FileLine) : KeepsText f f := ⟨rfl, fun _ => .rfl' f⟩

theorem KeepsText.trans {f g k : FileLine} (h1 : KeepsText f g) (h2 : KeepsText g k) : KeepsText f k := by
  refine ⟨h2.1.trans h1.1, fun hc => ?_⟩
  obtain ⟨a1, a2, a3, a4, a5, a6⟩ := h1.2 hc
  obtain ⟨b1, b2, b3, b4, b5, b6⟩ := h2.2 (by rw [h1.1]; exact hc)
  exact ⟨b1.trans a1, b2.trans a2, b3.trans a3, b4.trans a4, b5.trans a5, b6.trans a6⟩

theorem forall2_refl {α : Type} {R : α → α → Prop} (h : ∀ a, R a a) : ∀ l : List α, List.Forall₂ R l l
  | [] => .nil
  | a :: l => .cons (h a) (forall2_refl h l)

theorem forall2_trans {α : Type} {R : α → α → Prop} (h : ∀ a b c, R a b → R b c → R a c) : ∀ {l m n : List α}, List.Forall₂ R l m →
    List.Forall₂ R m n → List.Forall₂ R l n
  | _, _, _, .nil, .nil => .nil
  | _, _, _, .cons h1 h2, .cons h3 h4 => .cons (h _ _ _ h1 h3) (forall2_trans h h2 h4)

theorem all_text {cont : Int} {ns : List Int} {l l' : LLine} (h : IndentedByAll cont ns l l') :
    l' = { l with layout := l'.layout } ∧ List.Forall₂ KeepsText l.layout l'.layout := by
  induction h with
  | nil => exact ⟨rfl, forall2_refl KeepsText.refl _⟩
  | cons hi _ ih =>
    obtain ⟨h0, g, g', rs, rs', h1, h2, ⟨b, h3⟩, h4⟩ := hi
    obtain ⟨i1, i2⟩ := ih
    refine ⟨?_, forall2_trans (R := KeepsText) (fun _ _ _ h h2 => h.trans h2) ?_ i2⟩
    · rw [i1, h0]
    · rw [h1, h2]
      exact .cons (setLeading_same h3) (h4.imp (fun _ _ ⟨_, h⟩ => setLeading_same h))

/-- C34: indenting changes nothing but blanks: the statements, labels, trailing comments and kinds of all physical
lines, and everything else that is known of a line, are as before. -/
theorem C34_text (tab : Table) (stmts : List LLStmt) (t : PNode) (ls : List LLine) (r : List LLine × Bool)
    (h : indent tab stmts (some t) ls = .ok r) (j : Nat) (l : LLine) (hl : ls[j]? = some l) :
    ∃ l', r.1[j]? = some l' ∧ l' = { l with layout := l'.layout } ∧ List.Forall₂ KeepsText l.layout l'.layout := by
  obtain ⟨_, _, h3⟩ := C34_indent tab stmts t ls r h
  obtain ⟨l', h4, h5⟩ := h3 j l hl
  exact ⟨l', h4, all_text h5⟩

/-- C34: a line that does not belong to a statement of the tree stays as it is. -/
theorem C34_other (tab : Table) (stmts : List LLStmt) (t : PNode) (ls : List LLine) (r : List LLine × Bool)
    (h : indent tab stmts (some t) ls = .ok r) (j : Nat) (hj : j ∉ (moves tab.offset stmts t).map (·.1)) : r.1[j]? = ls[j]? := by
  have ha := indentNode_spec tab stmts t 0 ls r h
  rw [shift_zero] at ha
  exact ha.other hj

/-! ### Once, and again -/

/-- C34: where no statement is in the tree twice, no line is moved twice. -/
theorem C34_once (off : Int → Int) (lines : List LLine) (t : PNode) (ht : TreeOk t) (hl : (leavesOf t).Nodup) :
    ((moves off (stmtsOf lines) t).map (·.1)).Nodup := by
  rw [moves_lines off _ t ht]
  exact nodup_pick linesOf _ _ (stmtsOf_nodup lines) hl

/-- C34: where no statement is in the tree twice, indenting once more changes no line.  Missing: trees of programs
in which one statement ends several loops. -/
theorem C34_idempotent_partial (tab : Table) (lines ls : List LLine) (t : PNode) (ht : TreeOk t) (hl : (leavesOf t).Nodup)
    (r : List LLine × Bool) (h : indent tab (stmtsOf lines) (some t) ls = .ok r) :
    ∃ b, indent tab (stmtsOf lines) (some t) r.1 = .ok (r.1, b) := by
  have ha := indentNode_spec tab _ t 0 ls r h
  refine indentNode_stable tab _ t 0 ls r r.1 h (ha.stable ?_)
  rw [shift_zero]
  exact C34_once tab.offset lines t ht hl

/-- C34: when `false` is returned nothing was changed, if all the physical lines are statements with nothing but a
label in front, comments that fill their line, or neither.  Missing: other comments, and leading ampersands
(`C11_return_violation`). -/
theorem C34_return_partial (tab : Table) (hc : 0 ≤ tab.continued) (stmts : List LLStmt) (t : Option PNode) (ls ls' : List LLine)
    (hl : ∀ l ∈ ls, ∀ f ∈ l.layout, Telling f) (h : indent tab stmts t ls = .ok (ls', false)) : ls' = ls := by
  cases t with
  | none =>
    rw [C34_empty] at h
    injection h with h
    injection h with h _
    exact h.symm
  | some t => exact indentNode_same hc stmts t 0 ls ls' hl h

/-! ### It is defined -/

/-- C34: indenting a parsed file is defined, for every table without negative numbers, if the statements are those of the
lines, all lines can be moved, and the columns fit into an `int`.  Missing: lines that cannot be moved
(`C11_violation_throw`, `C11_violation_uninitialised`). -/
theorem C34_defined_partial (x : Exts) (hx : x.Forward) (hn : NeedToken x) (s : PState) (hs : Full s) (o : POut) (t : PNode)
    (h : PReturns x .program s (.ok o)) (ho : o.ok = true) (ht : o.tree = some t) (lines ls : List LLine)
    (hlen : s.stmts.length = (stmtsOf lines).length) (hll : ls.length = lines.length) (hm : ∀ l ∈ ls, MovableLine l) (tab : Table)
    (hoff : ∀ tag, 0 ≤ tab.offset tag) (hc : 0 ≤ tab.continued) (hd : deepest tab.offset t + tab.continued ≤ 2147483647) :
    ∃ r, indent tab (stmtsOf lines) (some t) ls = .ok r ∧ ∀ l ∈ r.1, MovableLine l := by
  have hk := program_known x hx hn s hs o t h ho ht
  obtain ⟨h1, _⟩ := (C39_tree_partial x hx hn .program s hs o h).2.2.2 t ht
  have h2 := C40_leaves x hx hn .program s hs o t h ht
  obtain ⟨r, h3, h4⟩ := indentNode_defined hoff hc (stmtsOf_hasLines lines) t 0 ls hk h1 (fun i hi => by rw [← hlen]; exact h2 i hi)
    (le_refl _) (by omega) ⟨hll, hm⟩
  exact ⟨r, h3, h4.2⟩

/-! ### The tables -/

/-- C34: what `apply_constant_indent`, `apply_emacs_indent` and `apply_constant_fixed_indent` put into a new table, for
every tag. -/
theorem C34_tables (n : Int) :
    (∃ t, Table.new.constant n = .ok t ∧ t.continued = 5 ∧ ∀ g, t.offset g = if g ∈ indentedTags then n else 0) ∧
    (∃ t, Table.new.emacs = .ok t ∧ t.continued = 5 ∧ ∀ g, t.offset g =
      if g ∈ [Tag.PG_EXECUTION_PART, Tag.PG_SPECIFICATION_PART, Tag.PG_INTERNAL_SUBPROGRAM, Tag.PG_MODULE_SUBPROGRAM] then 2
      else if g ∈ indentedTags then 3 else 0) ∧
    (∃ t, Table.new.fixed n = .ok t ∧ t.continued = 5 ∧ ∀ g, t.offset g =
      if g ∈ [Tag.PG_EXECUTION_PART, Tag.PG_SPECIFICATION_PART] then 0 else if g ∈ indentedTags then n else 0) := by
  refine ⟨?_, ?_, ?_⟩
  · obtain ⟨t', h1, h2⟩ := standard_offset Table.new n n n
    refine ⟨{ t' with continued := 5 }, ?_, rfl, fun g => ?_⟩
    · unfold Table.constant; rw [h1]; rfl
    · show t'.offset g = _
      rw [h2]
      have e0 : Table.new.offset g = 0 := rfl
      rw [e0]
      by_cases g1 : g ∈ [Tag.PG_EXECUTION_PART, Tag.PG_SPECIFICATION_PART]
      · have : g ∈ indentedTags := by
          simp only [List.mem_cons, List.not_mem_nil, or_false] at g1
          rcases g1 with rfl | rfl <;> decide
        rw [if_pos g1, if_pos this]
      · rw [if_neg g1]
        by_cases g2 : g ∈ [Tag.PG_INTERNAL_SUBPROGRAM, Tag.PG_MODULE_SUBPROGRAM]
        · have : g ∈ indentedTags := by
            simp only [List.mem_cons, List.not_mem_nil, or_false] at g2
            rcases g2 with rfl | rfl <;> decide
          rw [if_pos g2, if_pos this]
        · rw [if_neg g2]
  · obtain ⟨t', h1, h2⟩ := standard_offset Table.new 3 2 2
    refine ⟨{ t' with continued := 5 }, ?_, rfl, fun g => ?_⟩
    · unfold Table.emacs; rw [h1]; rfl
    · show t'.offset g = _
      rw [h2]
      have e0 : Table.new.offset g = 0 := rfl
      rw [e0]
      by_cases g1 : g ∈ [Tag.PG_EXECUTION_PART, Tag.PG_SPECIFICATION_PART]
      · rw [if_pos g1, if_pos (by simp only [List.mem_cons, List.not_mem_nil, or_false] at g1 ⊢; tauto)]
      · rw [if_neg g1]
        by_cases g2 : g ∈ [Tag.PG_INTERNAL_SUBPROGRAM, Tag.PG_MODULE_SUBPROGRAM]
        · rw [if_pos g2, if_pos (by simp only [List.mem_cons, List.not_mem_nil, or_false] at g2 ⊢; tauto)]
        · rw [if_neg g2, if_neg (show ¬ g ∈ [Tag.PG_EXECUTION_PART, Tag.PG_SPECIFICATION_PART, Tag.PG_INTERNAL_SUBPROGRAM,
            Tag.PG_MODULE_SUBPROGRAM] by simp only [List.mem_cons, List.not_mem_nil, or_false] at g1 g2 ⊢; tauto)]
  · obtain ⟨t', h1, h2⟩ := standard_offset Table.new n 0 n
    refine ⟨{ t' with continued := 5 }, ?_, rfl, fun g => ?_⟩
    · unfold Table.fixed; rw [h1]; rfl
    · show t'.offset g = _
      rw [h2]
      have e0 : Table.new.offset g = 0 := rfl
      rw [e0]
      by_cases g1 : g ∈ [Tag.PG_EXECUTION_PART, Tag.PG_SPECIFICATION_PART]
      · rw [if_pos g1, if_pos g1]
      · rw [if_neg g1, if_neg g1]
        by_cases g2 : g ∈ [Tag.PG_INTERNAL_SUBPROGRAM, Tag.PG_MODULE_SUBPROGRAM]
        · have : g ∈ indentedTags := by
            simp only [List.mem_cons, List.not_mem_nil, or_false] at g2
            rcases g2 with rfl | rfl <;> decide
          rw [if_pos g2, if_pos this]
        · rw [if_neg g2]

/-- C34: with the constant table, the indentation is so many times the constant as there are indented constructs
around. -/
theorem C34_constant (n : Int) (tab : Table) (h : Table.new.constant n = .ok tab) : ∀ (t : PNode) (p : List Nat),
    indentOf tab.offset t p = n * depthOf t p := by
  obtain ⟨t0, h1, _, h2⟩ := (C34_tables n).1
  rw [h] at h1
  injection h1 with h1
  subst h1
  intro t p
  induction p generalizing t with
  | nil => simp [indentOf, depthOf]
  | cons i p ih =>
    have hadd : addedBy tab.offset t.tag t.kids.length i = n * ((if t.tag ∈ indentedTags ∧
        ¬ (t.tag ∈ endedTags ∧ (i = 0 ∨ i + 1 = t.kids.length)) then 1 else 0 : Nat) : Int) := by
      unfold addedBy
      rw [h2]
      by_cases g1 : t.tag ∈ endedTags ∧ (i = 0 ∨ i + 1 = t.kids.length)
      · rw [if_pos g1, if_neg (fun h => h.2 g1)]; simp
      · rw [if_neg g1]
        by_cases g2 : t.tag ∈ indentedTags
        · rw [if_pos g2, if_pos ⟨g2, g1⟩]; simp
        · rw [if_neg g2, if_neg (fun h => g2 h.1)]; simp
    rw [indentOf, depthOf, hadd]
    cases hk : t.kids[i]? with
    | none => simp
    | some k =>
      simp only [ih k]
      push_cast
      rw [Int.mul_add]

/-! ### Examples -/

/-- The hypotheses can be met: a subroutine with a loop, as it comes out with the table for emacs. -/
example : ∃ o t, PReturns noExts .program (xstate [xSub, xDo, xAssign 0, xEndDo 0, xEnd]) (.ok o) ∧ o.ok = true ∧ o.tree = some t ∧
    xout Table.new.emacs xlines t = some [[0], [2], [5], [2], [0]] ∧ (leavesOf t).Nodup ∧
    (xstate [xSub, xDo, xAssign 0, xEndDo 0, xEnd]).stmts.length = (stmtsOf xlines).length := by
  obtain ⟨o, h1, h2⟩ := returns_of (x := noExts) (r := .program) (s := xstate [xSub, xDo, xAssign 0, xEndDo 0, xEnd])
    (q := fun o => o.ok && o.tree.any (fun t => xout Table.new.emacs xlines t == some [[0], [2], [5], [2], [0]] &&
      leavesOf t == [0, 1, 2, 3, 4])) 40 (by decide +kernel)
  simp only [Bool.and_eq_true, beq_iff_eq, Option.any_eq_true] at h2
  obtain ⟨h2, t, h4, h5, h6⟩ := h2
  exact ⟨o, t, h1, h2, h4, h5, by rw [h6]; decide, by decide⟩

example : ∀ l ∈ xlines, MovableLine l := by
  intro l hl
  simp only [xlines, List.mem_cons, List.not_mem_nil, or_false] at hl
  rcases hl with rfl | rfl | rfl | rfl | rfl
  all_goals
    refine ⟨by simp [xline], fun f hf => ?_⟩
    simp only [xline, List.mem_singleton] at hf
    subst hf
    exact .inr (.inr ⟨rfl, fun h => absurd rfl h, fun h => absurd rfl h, .inl (by simp)⟩)

example : StmtLine { left_txt := "10".toList, left_space := [' '], main_txt := "x=1".toList, bits := { label := true } } :=
  ⟨rfl, rfl, by simp, fun _ => rfl⟩

example : ∀ l ∈ xlines, ∀ f ∈ l.layout, Telling f := by
  intro l hl f hf
  simp only [xlines, List.mem_cons, List.not_mem_nil, or_false] at hl
  rcases hl with rfl | rfl | rfl | rfl | rfl
  all_goals
    simp only [xline, List.mem_singleton] at hf
    subst hf
    exact ⟨fun _ h => absurd rfl h, fun h => by simp at h⟩

/-! ### Violations -/

/-- C34 fails for a table with a negative number: an assertion fails. -/
theorem C34_violation_negative : indent ⟨fun _ => -1, 5⟩ (stmtsOf xlines) (some (.node Tag.PG_PROGRAM none none [.node 0 none (some 0) []]))
    xlines = .error .assertion := by rfl

/-- C34 fails in the body of a loop that ends with a labelled statement: the standard tables do not indent it. -/
theorem C34_violation_labelled : ∃ o t, PReturns noExts .program (xstate [xSub, xDo10, xAssign 0, xAssign 10, xEnd]) (.ok o) ∧
    o.ok = true ∧ o.tree = some t ∧ xout (Table.new.constant 4) xlines t = some [[0], [4], [4], [4], [0]] := by
  obtain ⟨o, h1, h2⟩ := returns_of (x := noExts) (r := .program) (s := xstate [xSub, xDo10, xAssign 0, xAssign 10, xEnd])
    (q := fun o => o.ok && o.tree.any (fun t => xout (Table.new.constant 4) xlines t == some [[0], [4], [4], [4], [0]])) 40
    (by decide +kernel)
  simp only [Bool.and_eq_true, beq_iff_eq, Option.any_eq_true] at h2
  obtain ⟨h2, t, h4, h5⟩ := h2
  exact ⟨o, t, h1, h2, h4, h5⟩

/-- `integer :: x` -/
def xInteger : LStmt := xstmt 0 [xtok Tag.KW_INTEGER, xtok Tag.TK_DBL_COLON, xtok Tag.TK_NAME]
/-- `end block` -/
def xEndBlock : LStmt := xstmt 0 [xtok Tag.KW_END, xtok Tag.KW_BLOCK]

/-- C34 fails for the declarations in a block construct: the standard tables do not indent them. -/
theorem C34_violation_block : ∃ o t, PReturns noExts .program (xstate [xSub, xBlock, xInteger, xEndBlock, xEnd]) (.ok o) ∧
    o.ok = true ∧ o.tree = some t ∧ xout (Table.new.constant 4) xlines t = some [[0], [4], [4], [4], [0]] := by
  obtain ⟨o, h1, h2⟩ := returns_of (x := noExts) (r := .program) (s := xstate [xSub, xBlock, xInteger, xEndBlock, xEnd])
    (q := fun o => o.ok && o.tree.any (fun t => xout (Table.new.constant 4) xlines t == some [[0], [4], [4], [4], [0]])) 40
    (by decide +kernel)
  simp only [Bool.and_eq_true, beq_iff_eq, Option.any_eq_true] at h2
  obtain ⟨h2, t, h4, h5⟩ := h2
  exact ⟨o, t, h1, h2, h4, h5⟩

/-- C34 fails on a continued line with a comment behind the ampersand: moving it to the left throws. -/
theorem C34_violation_throw : ∃ f g, analyzeFree 1 "   x = & ! note".toList NUL false false = .ok (f, false) ∧
    analyzeFree 2 "   1".toList NUL true false = .ok (g, false) ∧
    indent ⟨fun _ => 0, 5⟩ (stmtsOf [{ layout := [f, g], stmts := [(0, 1)] }])
      (some (.node Tag.PG_PROGRAM none none [.node 0 none (some 0) []])) [{ layout := [f, g], stmts := [(0, 1)] }] = .error .exc :=
  ⟨_, _, rfl, rfl, by decide⟩

end Ind
end FLPR
