import Verif.Format.Props
import Verif.LogicalFile.StmtSrcProps
/-! # C71: examples -/

namespace FLPR
namespace FlprFormat
open Spec

/-- A test that a line is as the theorems want it. -/
def readyOk (l : LLine) : Bool :=
  decide (l = l.initStmts) &&
  (!l.hasFortran || (match l.layout with
    | [] => false
    | f :: fs => f.isFortran && (f :: fs).all (fun f => !f.bits.blank && (f.bits.comment || f.isFortran)) && decide (leftWidth f < 74))) &&
  l.frags.all (fun t => t.text.head? != some '&') && l.frags.all (fun t => t.token != Tag.TK_SEMICOLON || !t.text.isEmpty) &&
  (statementsOf l.frags).all (fun s => s.tail.all (fun t => t.pre.isSome)) && (l.hasFortran || l.frags.isEmpty)

theorem of_readyOk {l : LLine} (h : readyOk l = true) : Ready l ∧ Roomy l ∧ (l.hasFortran = false → l.frags = []) := by
  simp only [readyOk, Bool.and_eq_true, decide_eq_true_eq] at h
  obtain ⟨⟨⟨⟨⟨h1, h2⟩, h3⟩, h4⟩, h5⟩, h6⟩ := h
  have lay : l.hasFortran = true → StatementLayout l.layout ∧ ∀ f, l.layout.head? = some f → leftWidth f < 74 := by
    intro hf
    rw [hf] at h2
    simp only [Bool.not_true, Bool.false_or] at h2
    cases hl : l.layout with
    | nil => rw [hl] at h2; cases h2
    | cons f fs =>
      rw [hl] at h2
      simp only [Bool.and_eq_true, decide_eq_true_eq] at h2
      obtain ⟨⟨a, b⟩, c⟩ := h2
      refine ⟨⟨⟨f, fs, rfl, a⟩, fun g hg => ?_⟩, ?_⟩
      · have := List.all_eq_true.mp b g hg
        simpa using this
      · intro g hg
        obtain rfl := Option.some.inj hg
        exact c
  refine ⟨⟨h1, fun hf => (lay hf).1, ?_, ?_⟩, fun hf => ⟨(lay hf).2, ?_⟩, ?_⟩
  · intro t ht
    simpa using List.all_eq_true.mp h3 t ht
  · intro t ht hs
    have := List.all_eq_true.mp h4 t ht
    simp [hs] at this
    exact this
  · intro s hs t ht
    have := List.all_eq_true.mp (List.all_eq_true.mp h5 s hs) t ht
    rw [Option.isSome_iff_ne_none] at this
    exact this
  · intro hf
    rw [hf] at h6
    simpa using h6

/-- The lines of a text. -/
def linesOf (raws : List String) : List LLine :=
  match stmtsOfText raws with
  | .ok (some r) => r.1
  | _ => []

def shown (ls : List LLine) : List String := ls.flatMap (fun l => l.layout.map (fun f => String.ofList f.print))

/-- The printed lines of a text after `split_compound_stmts`. -/
def splitText (raws : List String) : Res (Option (List String × Bool)) := do
  let r ← splitCompound (linesOf raws)
  .ok (r.map (fun r => (shown r.1, r.2)))

def sampleText : List String := ["! z", ";a=1;; c='x;y' &", "  // d ! c", "x=1;", "y=2; endif"]

/-- C71 applies to a text with a line over two lines, with empty statements, a comment and a fused keyword. -/
example : ∃ out b, splitCompound (linesOf sampleText) = .ok (some (out, b)) ∧ b = true ∧ (∀ l ∈ linesOf sampleText, Ready l) ∧
    out.flatMap (fun l => statementsOf l.frags) = (linesOf sampleText).flatMap (fun l => statementsOf l.frags) ∧ out.length = 6 ∧
    shown out = ["! z", "a=1", "   ! c", "c='x;y'  // d", "   ! c", "x=1", "y=2", "end if"] := by
  have h : ∀ l ∈ linesOf sampleText, Ready l ∧ Roomy l ∧ (l.hasFortran = false → l.frags = []) :=
    fun l hl => of_readyOk (List.all_eq_true.mp (show (linesOf sampleText).all readyOk = true by decide +kernel) l hl)
  obtain ⟨out, b, h1⟩ := C71_split_returns _ (fun l hl => (h l hl).1) (fun l hl => (h l hl).2.1)
  have hv : ((splitCompound (linesOf sampleText)).map (Option.map (fun r => (shown r.1, r.1.length, r.2)))) =
    .ok (some (["! z", "a=1", "   ! c", "c='x;y'  // d", "   ! c", "x=1", "y=2", "end if"], 6, true)) := by decide +kernel
  rw [h1] at hv
  simp only [Except.map, Option.map_some, Except.ok.injEq, Option.some.injEq, Prod.mk.injEq] at hv
  exact ⟨out, b, h1, hv.2.2, fun l hl => (h l hl).1, (C71_statements_partial _ out b (fun l hl => (h l hl).1) h1).1, hv.2.1, hv.1⟩

/-- **C71** Splitting a labelled line labels all of its statements. -/
theorem C71_violation_label : splitText ["10 a=1; b=2 ! c"] = .ok (some (["10 a=1 ! c", "10 b=2 ! c"], true)) := by decide +kernel

/-- It is a case of `C71_violation_labels`. -/
example : ∃ l ∈ linesOf ["10 a=1; b=2 ! c"], Ready l ∧ l.hasFortran = true ∧ 2 ≤ (statementsOf l.frags).length ∧ l.label = 10 := by
  have h : (linesOf ["10 a=1; b=2 ! c"]).any (fun l => readyOk l && l.hasFortran && decide (2 ≤ (statementsOf l.frags).length) && decide (l.label = 10)) = true := by
    decide +kernel
  obtain ⟨l, hl, h⟩ := List.any_eq_true.mp h
  simp only [Bool.and_eq_true, decide_eq_true_eq] at h
  exact ⟨l, hl, (of_readyOk h.1.1.1).1, h.1.1.2, h.1.2, h.2⟩

/-- **C71** A fused keyword behind another token of its statement: the spaces before it are read uninitialised. -/
theorem C71_violation_fused : splitText ["x=1; if (y) goto 10"] = .error .ub := by decide +kernel

/-- `C71_violation_remove` applies to a line with an empty statement. -/
example : removeEmptyStmts (linesOf ["! z", "a=1;; b=2;"]) = .ok (linesOf ["! z", "a=1;; b=2;"], false) ∧
    ∃ l ∈ linesOf ["! z", "a=1;; b=2;"], HasEmpty l.frags := by
  have h : ∀ l ∈ linesOf ["! z", "a=1;; b=2;"], Ready l ∧ Roomy l ∧ (l.hasFortran = false → l.frags = []) :=
    fun l hl => of_readyOk (List.all_eq_true.mp (show (linesOf ["! z", "a=1;; b=2;"]).all readyOk = true by decide +kernel) l hl)
  refine ⟨C71_violation_remove _ (fun l hl => ⟨(h l hl).1.now, (h l hl).2.2⟩), ?_⟩
  have hh : (linesOf ["! z", "a=1;; b=2;"]).any (fun l => decide (l.hasEmptyStatements = .ok true)) = true := by decide +kernel
  obtain ⟨l, hl, h2⟩ := List.any_eq_true.mp hh
  exact ⟨l, hl, (empty_of (h l hl).1.now (of_decide_eq_true h2)).mp rfl⟩

end FlprFormat
end FLPR
