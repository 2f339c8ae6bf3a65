import Verif.Program.Shape
import Verif.Program.Props
/-!
# C65: program trees are derivations of the grammar
-/

namespace FLPR
namespace PP
open Spec
open SP (R SNode Rng Strm PRes PFail up up_ok Exts)

/-- What the statement parsers of the library say, the hidden end element included. -/
theorem says_library (x : Exts) (l : List LStmt) (n : Nat) :
    Says (fun r i tag => Matched x l r i tag ∨ l.length ≤ i) l (SP.evalRule SP.R.body x n) where
  yes := by
    intro r s st t q hs hc h
    by_cases hlt : s.pos < l.length
    · refine .inl ⟨st, t, q, ?_, .of_eval n h, rfl⟩
      rw [PState.cur, hs, List.getElem?_eq_getElem hlt] at hc
      injection hc with hc
      rw [List.getElem?_eq_getElem hlt, hc]
    · exact .inr (by omega)
  back := restoresEndDo x n

/-- C65: when a parser of the library matches on a whole list of statements, its tree is a derivation of
its grammar rule, and each leaf is a statement that the statement parser at that place of the grammar
matches, with the tag it gives. -/
theorem C65_derives (x : Exts) (hx : x.Forward) (hn : NeedToken x) (r : PR) (s : PState) (hs : Full s) (o : POut)
    (h : PReturns x r s (.ok o)) (ho : o.ok = true) : Derives (Matched x s.stmts) PR.body (.rule r) (branchesOf o.tree) := by
  have hl : ∀ i ∈ leavesOfOpt o.tree, i < s.stmts.length := by
    intro i hi
    cases ht : o.tree with
    | none => rw [ht] at hi; cases hi
    | some t => rw [ht] at hi; exact C40_leaves x hx hn r s hs o t h ht i hi
  obtain ⟨n, h⟩ := h.run
  have hd := eval_conf (noHoist x n) pgrammar_only (says_library x s.stmts n) n (.rule r) s o rfl rfl h ho
  refine derives_mono (P := (· < s.stmts.length)) (fun r i t h1 h2 => h1.resolve_right (by omega)) hd ?_
  intro i hi
  refine hl i ?_
  cases ht : o.tree with
  | none => rw [ht] at hi; simp [branchesOf, Sh.stmtsAll] at hi
  | some t =>
    rw [ht, branchesOf] at hi
    rw [leavesOfOpt]
    split at hi
    · rename_i hh
      rw [eraseAll_stmts] at hi
      obtain ⟨tt, rr, ii, ks⟩ := t
      cases ii with
      | none => rw [leavesOf]; exact hi
      | some j =>
        have := ((run_inv h).donor _ ht).leaf rfl
        exact absurd hh this
    · simp only [Sh.stmtsAll, List.append_nil, erase_stmts] at hi
      exact hi

/-- A subroutine with a loop that ends with an action. -/
example : ∃ o, PReturns noExts .program (xstate [xSub, xDo10, xAssign 10, xEnd]) (.ok o) ∧ o.ok = true ∧
    Derives (Matched noExts [xSub, xDo10, xAssign 10, xEnd]) PR.body (.rule .program) (branchesOf o.tree) := by
  obtain ⟨o, h1, h2⟩ := returns_of (x := noExts) (r := .program) (s := xstate [xSub, xDo10, xAssign 10, xEnd])
    (q := fun o => o.ok) 40 (by decide +kernel)
  exact ⟨o, h1, h2, C65_derives noExts SP.forward_none needToken_none .program _ (xstate_full _) o h1 h2⟩

/-- C65: a leaf carries the tag of the statement parser at its place. -/
theorem C65_leaf_tag {x : Exts} {l : List LStmt} {r : R} {i : Nat} {tag : Int} (h : Matched x l r i tag) : tag = r.rootTag := by
  obtain ⟨st, t, q, _, h2, rfl⟩ := h
  obtain ⟨n, h2⟩ := h2.eval
  exact SP.runBody_tag (SP.eval_tag (x := x) SP.grammar_rootTag n) (SP.grammar_rootTag r) h2 rfl

end PP
end FLPR
