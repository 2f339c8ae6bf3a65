import Verif.Program.Attach
import Verif.Program.ShapeProps
/-!
# C68: the statement trees of a parsed program
-/

namespace FLPR
namespace PP
open Spec
open SP (R SNode Rng Strm PRes PFail up up_ok Exts)

/-- The parsers that `stmtRules` lists. -/
def inRules (r : R) : Bool := decide (r ∈ stmtRules)

theorem pgrammar_rules (r : PR) : (PR.body r).only inRules = true :=
  PR.forall_of (q := fun r => (PR.body r).only inRules) (by decide +kernel) r

theorem inRules_used {r : R} (h : inRules r = true) : usedStmts r = true := by
  have := SP.R.forall_of (q := fun r => !inRules r || usedStmts r) (by decide +kernel) r
  rw [h] at this
  simpa using this

/-- What the statement parsers of the library give, the hidden end element included. -/
theorem gives_library (x : Exts) (l : List LStmt) (n : Nat) :
    Gives (fun e => Made x l e.1 e.2 ∨ l.length ≤ e.1) inRules l (SP.evalRule SP.R.body x n) where
  yes := by
    intro r hr s st t q hs hc h
    by_cases hlt : s.pos < l.length
    · refine .inl ⟨r, of_decide_eq_true hr, st, q, ?_, .of_eval n h⟩
      rw [PState.cur, hs, List.getElem?_eq_getElem hlt] at hc
      injection hc with hc
      rw [List.getElem?_eq_getElem hlt, hc]
    · exact .inr (by omega)
  back := restoresEndDo x n
  act := fun s t q h => SP.runBody_tag (SP.eval_tag (x := x) SP.grammar_rootTag n) (SP.grammar_rootTag .action_stmt) h rfl

theorem run_atts {x : Exts} {r : PR} {s : PState} {o : POut} (h : PReturns x r s (.ok o)) :
    Atts (fun e => Made x s.stmts e.1 e.2 ∨ s.stmts.length ≤ e.1) s o := by
  obtain ⟨n, h⟩ := h.run
  exact eval_atts (fun r hr => noHoist x n r (inRules_used hr)) pgrammar_rules (gives_library x s.stmts n) n (.rule r) s o rfl rfl h

theorem treeOf_mem {s : PState} {i : Nat} {n : SNode} (h : s.treeOf i = some n) : (i, n) ∈ s.attached := by
  rw [PState.treeOf] at h
  cases hf : s.attached.find? (fun e => e.1 == i) with
  | none => rw [hf] at h; cases h
  | some e =>
    rw [hf] at h
    have h1 := List.mem_of_find?_eq_some hf
    have h2 := List.find?_some hf
    obtain ⟨e1, e2⟩ := e
    simp only [beq_iff_eq] at h2
    simp only [Option.map_some, Option.some.injEq] at h
    rw [← h2, ← h]
    exact h1

/-- C68: whatever the outcome of a parser of the library, it gives no tree to a statement before the current one, and
any tree that it gives to a statement is the one that a statement parser makes of that statement. -/
theorem C68_only (x : Exts) (r : PR) (s : PState) (o : POut) (h : PReturns x r s (.ok o)) (h0 : s.attached = []) (i : Nat) (n : SNode)
    (hi : i < s.stmts.length) (ht : o.s.treeOf i = some n) : s.pos ≤ i ∧ Made x s.stmts i n := by
  have hk := (run_atts h).1
  constructor
  · by_contra hlt
    rw [hk.trees i (by omega), PState.treeOf, h0] at ht
    cases ht
  · rcases hk.good _ (treeOf_mem ht) with hm | hm
    · rw [h0] at hm; cases hm
    · exact hm.resolve_right (by simp only; omega)

/-- A subroutine without an end: the parse fails, and the statements have their trees all the same. -/
example : ∃ o n, PReturns noExts .program (xstate [xSub, xAssign 0]) (.ok o) ∧ o.ok = false ∧ o.s.treeOf 1 = some n ∧
    Made noExts [xSub, xAssign 0] 1 n := by
  obtain ⟨o, h1, h2⟩ := returns_of (x := noExts) (r := .program) (s := xstate [xSub, xAssign 0])
    (q := fun o => o.ok == false && (o.s.treeOf 1).isSome) 40 (by decide +kernel)
  simp only [Bool.and_eq_true, beq_iff_eq] at h2
  obtain ⟨n, hn⟩ := Option.isSome_iff_exists.mp h2.2
  exact ⟨o, n, h1, h2.1, hn, (C68_only noExts .program _ o h1 rfl 1 n (by decide) hn).2⟩

mutual
theorem own_stmts (b : Bool) : ∀ (k : Sh), ∀ e ∈ Sh.own b k, e.1 ∈ Sh.stmts k
  | .leaf i t, e, h => by
    simp only [Sh.own, List.mem_singleton] at h
    rw [h]; simp [Sh.stmts]
  | .inner t ks, e, h => by
    rw [Sh.own] at h
    rw [Sh.stmts]
    split at h
    · exact ownAll_stmts _ ks e (List.mem_filter.mp h).1
    · exact ownAll_stmts _ ks e h
theorem ownAll_stmts (b : Bool) : ∀ (ks : List Sh), ∀ e ∈ Sh.ownAll b ks, e.1 ∈ Sh.stmtsAll ks
  | [], e, h => by cases h
  | k :: ks, e, h => by
    rw [Sh.ownAll] at h
    rw [Sh.stmtsAll]
    rcases List.mem_append.mp h with h | h
    · exact List.mem_append_left _ (own_stmts b k e h)
    · exact List.mem_append_right _ (ownAll_stmts b ks e h)
end

theorem own_branches {t : PNode} (ht : t.tag = Tag.HOIST → t.stmt = none) : ∀ e ∈ ownLeaves t, e ∈ Sh.ownAll false (branchesOf (some t)) := by
  intro e he
  rw [branchesOf]
  rw [ownLeaves] at he
  split
  · rename_i hh
    obtain ⟨tt, rr, ii, ks⟩ := t
    cases ii with
    | some j => cases ht hh
    | none =>
      rw [erase, Sh.own, if_neg (by simp)] at he
      cases hb : decide (tt = Tag.PG_INNER_SHARED_DO_CONSTRUCT) with
      | true => rw [hb] at he; exact ownAll_true _ e he
      | false => rw [hb] at he; exact he
  · simpa [Sh.ownAll] using he

/-- C68: when a parser of the library gives a tree, each statement of this tree carries the statement tree that its leaf
was made from: one of the statement parsers that the program parsers call makes it of this statement, and its tag is the one of the leaf.  Left out: the leaves
that end the inner ones of do loops with a shared last statement. -/
theorem C68_trees_partial (x : Exts) (hx : x.Forward) (hn : NeedToken x) (r : PR) (s : PState) (hs : Full s) (o : POut) (t : PNode)
    (h : PReturns x r s (.ok o)) (ht : o.tree = some t) (e : Nat × Int) (he : e ∈ ownLeaves t) :
    ∃ n, ∃ r' ∈ stmtRules, ∃ st q, o.s.treeOf e.1 = some n ∧ n.tag = e.2 ∧ s.stmts[e.1]? = some st ∧ Returns x r' st.strm (.ok (some n, q)) ∧
      e.2 = r'.rootTag := by
  have hat := run_atts h
  have hlt : e.1 < s.stmts.length := by
    refine C40_leaves x hx hn r s hs o t h ht e.1 ?_
    rw [← erase_stmts]
    exact own_stmts false _ e he
  have hleaf : LeafAt (fun e => Made x s.stmts e.1 e.2 ∨ s.stmts.length ≤ e.1) o.s e := by
    refine hat.2 e ?_
    rw [ht]
    refine own_branches ?_ e he
    intro hh
    obtain ⟨n, h⟩ := h.run
    cases hst : t.stmt with
    | none => rfl
    | some j => exact absurd hh (((run_inv h).donor _ ht).leaf (by rw [hst]; rfl))
  rcases hleaf with hl | ⟨_, n, h1, h2, h3⟩
  · rw [hat.1.hi, hs.1] at hl; omega
  · obtain ⟨r', hr', st, q, h4, h5⟩ := h3.resolve_right (by simp only; omega)
    exact ⟨n, r', hr', st, q, h1, h2, h4, h5, C65_leaf_tag ⟨st, n, q, h4, h5, h2⟩⟩

/-- A subroutine with two loops that share their last statement: all five statements are there. -/
def xShared : List LStmt := [xSub, xDo10, xDo10, xAssign 10, xEnd]

theorem xShared_parsed : ∃ o t, PReturns noExts .program (xstate xShared) (.ok o) ∧ o.tree = some t ∧
    (ownLeaves t).map Prod.fst = [0, 1, 2, 3, 4] ∧ (3, Tag.SG_ACTION_STMT) ∈ ownLeaves t ∧ leavesOf t = [0, 1, 2, 3, 3, 4] := by
  obtain ⟨o, h1, h2⟩ := returns_of (x := noExts) (r := .program) (s := xstate xShared)
    (q := fun o => match o.tree with
      | some t => decide ((ownLeaves t).map Prod.fst = [0, 1, 2, 3, 4] ∧ (3, Tag.SG_ACTION_STMT) ∈ ownLeaves t ∧ leavesOf t = [0, 1, 2, 3, 3, 4])
      | none => false) 40 (by decide +kernel)
  cases ht : o.tree with
  | none => simp only [ht] at h2; cases h2
  | some t =>
    simp only [ht] at h2
    exact ⟨o, t, h1, ht, of_decide_eq_true h2⟩

example : ∃ o t n, PReturns noExts .program (xstate xShared) (.ok o) ∧ o.tree = some t ∧ o.s.treeOf 3 = some n ∧ n.tag = Tag.SG_ACTION_STMT := by
  obtain ⟨o, t, h1, h2, _, h4, _⟩ := xShared_parsed
  obtain ⟨n, _, _, _, _, a, b, _⟩ := C68_trees_partial noExts SP.forward_none needToken_none .program _ (xstate_full _) o t h1 h2 _ h4
  exact ⟨o, t, n, h1, h2, a, b⟩

theorem actionTag_only {r : R} (h : r.rootTag = Tag.SG_ACTION_STMT) : r = .action_stmt := by
  have := SP.R.forall_of (q := fun r => decide (r.rootTag = Tag.SG_ACTION_STMT → r = .action_stmt)) (by decide +kernel) r
  exact of_decide_eq_true this h

/-- C68: without extensions, `syntax_tag()` of each of these statements becomes the tag of its leaf, except that for an
action statement it becomes the tag of the statement below, which is one that `is_action_stmt` says yes to; the assertion
of `extract_tree_tag_` holds. -/
theorem C68_syntag_partial (r : PR) (s : PState) (hs : Full s) (o : POut) (t : PNode) (h : PReturns noExts r s (.ok o)) (ht : o.tree = some t)
    (e : Nat × Int) (he : e ∈ ownLeaves t) :
    ∃ u, treeTag (o.s.treeOf e.1) = .ok u ∧ (e.2 ≠ Tag.SG_ACTION_STMT → u = e.2) ∧ (e.2 = Tag.SG_ACTION_STMT → SP.isActionStmt u = true) := by
  obtain ⟨n, r', _, st, q, h1, h2, _, h4, h5⟩ := C68_trees_partial noExts SP.forward_none needToken_none r s hs o t h ht e he
  rw [h1]
  by_cases ha : n.tag = Tag.SG_ACTION_STMT
  · have hr := actionTag_only (by rw [← h5, ← h2]; exact ha)
    subst hr
    obtain ⟨_, k, hk, hka⟩ := SP.C56_action_tree _ _ _ h4
    refine ⟨k.tag, ?_, fun hne => absurd (h2.symm.trans ha) hne, fun _ => hka⟩
    simp only [treeTag, if_pos ha, Cur.down, hk]
    rfl
  · refine ⟨n.tag, ?_, fun _ => h2, fun hh => absurd (h2.trans hh) ha⟩
    simp only [treeTag, if_neg ha]
    rfl

example : ∃ o t u, PReturns noExts .program (xstate xShared) (.ok o) ∧ o.tree = some t ∧ treeTag (o.s.treeOf 3) = .ok u ∧
    SP.isActionStmt u = true := by
  obtain ⟨o, t, h1, h2, _, h4, _⟩ := xShared_parsed
  obtain ⟨u, a, _, c⟩ := C68_syntag_partial .program _ (xstate_full _) o t h1 h2 _ h4
  exact ⟨o, t, u, h1, h2, a, c rfl⟩

end PP
end FLPR
