import Verif.Program.AlikeLemmas
import Verif.Program.Props
/-!
# What the parsers find depends on tags and texts only (C75)
-/

namespace FLPR
open Spec PP
open SP (R SNode Strm PRes Exts Le up)

/-- A result that does not change any more has a counterpart that does not change any more. -/
theorem limit_eqv {α β : Type} {Q : α → β → Prop} {f : Nat → PRes α} {g : Nat → PRes β} (hg : ∀ n m, n ≤ m → Le (g n) (g m))
    (hfg : ∀ n, BothWays Q (f n) (g n)) {res : Res α} {N : Nat} (h : ∀ n, N ≤ n → f n = up res) :
    ∃ res', (∀ n, N ≤ n → g n = up res') ∧ BothWays Q res res' := by
  have h0 := hfg N
  rw [h N (le_refl _)] at h0
  cases res with
  | ok a =>
    cases hgN : g N with
    | ok b =>
      rw [hgN] at h0
      refine ⟨.ok b, fun n hn => ?_, h0⟩
      rcases hg N n hn with e | e
      · rw [hgN] at e; cases e
      · rw [← e, hgN]; rfl
    | error e => rw [hgN] at h0; exact h0.elim
  | error e =>
    cases hgN : g N with
    | ok b => rw [hgN] at h0; exact h0.elim
    | error e' =>
      rw [hgN] at h0
      have he : e' = .fail e := h0
      subst he
      refine ⟨.error e, fun n hn => ?_, rfl⟩
      rcases hg N n hn with k | k
      · rw [hgN] at k; cases k
      · rw [← k, hgN]; rfl

/-- C75: a statement parser does the same on two lines that agree in the tags of their tokens and, but for the case of letters, in
their texts: it returns the same tree and leaves the stream at the same place, or it fails in the same way. -/
theorem C75_statement (x : Exts) (hx : Indifferent x) (r : R) (s s' : Strm) (h : EquivStrm s s') (res : Res (Option SNode × Strm))
    (hr : Returns x r s res) : ∃ res', Returns x r s' res' ∧ BothWays SameFind res res' := by
  obtain ⟨N, hN⟩ := hr
  obtain ⟨res', h1, h2⟩ := limit_eqv (f := fun n => SP.evalRule R.body x n r s) (g := fun n => SP.evalRule R.body x n r s')
    (fun n m hnm => SP.evalRule_le R.body x hnm r s') (fun n => SP.evalRule_eqv R.body hx n r h) hN
  exact ⟨res', ⟨N, h1⟩, h2⟩

/-- C75: the same for `parse_stmt_dispatch`. -/
theorem C75_dispatch (x : Exts) (hx : Indifferent x) (tag : Int) (s s' : Strm) (h : EquivStrm s s') (res : Res (Option SNode × Strm))
    (hr : DispatchReturns x tag s res) : ∃ res', DispatchReturns x tag s' res' ∧ BothWays SameFind res res' := by
  obtain ⟨N, hN⟩ := hr
  have hg : ∀ n m, n ≤ m → Le (SP.dispatch x n tag s') (SP.dispatch x m tag s') := by
    intro n m hnm
    unfold SP.dispatch
    cases SP.dispatchTable.find? (fun q => q.1 == tag) with
    | none => exact Le.refl _
    | some q => exact SP.evalRule_le R.body x hnm q.2 s'
  have hfg : ∀ n, BothWays SameFind (SP.dispatch x n tag s) (SP.dispatch x n tag s') := by
    intro n
    unfold SP.dispatch
    cases SP.dispatchTable.find? (fun q => q.1 == tag) with
    | none => exact SP.BW.ok ⟨rfl, h⟩
    | some q => exact SP.evalRule_eqv R.body hx n q.2 h
  obtain ⟨res', h1, h2⟩ := limit_eqv (f := fun n => SP.dispatch x n tag s) (g := fun n => SP.dispatch x n tag s') hg hfg hN
  exact ⟨res', ⟨N, h1⟩, h2⟩

/-- C75: a program parser does the same on two sequences of statements that agree in the labels, in the tags of the tokens and, but
for the case of letters, in their texts: the same tree, the same trees attached to the statements, the same messages and the same
statements taken, or the same failure. -/
theorem C75_program (x : Exts) (hx : Indifferent x) (r : PR) (s s' : PState) (h : EquivState s s') (res : Res POut)
    (hr : PReturns x r s res) : ∃ res', PReturns x r s' res' ∧ BothWays SameResult res res' := by
  obtain ⟨N, hN⟩ := hr
  obtain ⟨res', h1, h2⟩ := limit_eqv (f := fun n => run x n r s) (g := fun n => run x n r s')
    (fun n m hnm => run_le hnm r s') (fun n => run_eqv hx n r h) hN
  exact ⟨res', ⟨N, h1⟩, h2⟩

/-! ### Examples -/

/-- Without extensions there is nothing to be asked of them. -/
theorem indifferent_none : Indifferent noExts := by
  intro e he
  cases he

/-- An extension that looks at the tag of the next token. -/
def xBegin : SP.Ext := fun s => do
  let t ← s.peek
  if t = Tag.TK_NAME then .ok (some (.node Tag.TK_NAME (some (s.pos, s.pos + 1)) []), s.pos + 1) else .ok (none, s.pos)

/-- Such an extension is indifferent. -/
example : Indifferent ⟨[xBegin], []⟩ := by
  intro e he s s' h
  simp only [List.append_nil, List.mem_singleton] at he
  subst he
  unfold xBegin
  rw [SP.peek_eqv h, h.pos]

/-- `Subroutine S` a few columns and lines further on. -/
def xSubAway : LStmt := xstmt 0 [{ token := Tag.KW_SUBROUTINE, line := 7, pos := 4, text := "Subroutine".toList, pre := some 3 },
  { token := Tag.TK_NAME, line := 8, pos := 1, text := "S".toList, lower := "s".toList }]

def xSubHere : LStmt := xstmt 0 [xtok Tag.KW_SUBROUTINE "subroutine", xtok Tag.TK_NAME "s"]

/-- The hypotheses can be met: two programs written differently, and the tree of the first is found. -/
example : EquivState (xstate [xSubHere, xEnd]) (xstate [xSubAway, xEnd]) ∧
    ∃ o t, PReturns noExts .program (xstate [xSubHere, xEnd]) (.ok o) ∧ o.ok = true ∧ o.tree = some t := by
  refine ⟨⟨?_, rfl⟩, ?_⟩
  · refine .cons ⟨rfl, ⟨.cons ⟨rfl, by decide +kernel, by decide +kernel⟩ (.cons ⟨rfl, by decide +kernel, by decide +kernel⟩ .nil), rfl, rfl, rfl⟩⟩ (.cons ?_ .nil)
    exact ⟨rfl, ⟨.cons ⟨rfl, rfl, rfl⟩ .nil, rfl, rfl, rfl⟩⟩
  · obtain ⟨o, h1, h2⟩ := returns_of (x := noExts) (r := .program) (s := xstate [xSubHere, xEnd])
      (q := fun o => o.ok && o.tree.isSome) 40 (by decide +kernel)
    simp only [Bool.and_eq_true, Option.isSome_iff_exists] at h2
    exact ⟨o, _, h1, h2.1, h2.2.choose_spec⟩

end FLPR
