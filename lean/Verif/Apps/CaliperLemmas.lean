import Verif.Apps.CaliperPrefix
import Verif.Apps.ModuleProps
/-!
# Lemmas for C80: counting returns
-/

namespace FLPR
namespace Apps
open PP Reg Proc Spec
open SP (SNode R Exts Strm)

/-- The loop, when it is known what each statement is. -/
theorem tallyLoop_counts {s : PState} {hooked : Nat → Bool} {I P : Nat → Prop} [DecidablePred I] [DecidablePred P] :
    ∀ (js : List Nat) (n : Tally), (∀ j ∈ js, hooked j = true ∧ ∃ tag, stmtTagIn s j = .ok tag ∧
      (I j ↔ tag = -Tag.SG_RETURN_STMT) ∧ (P j ↔ tag = Tag.SG_RETURN_STMT)) →
    tallyLoop s hooked js n = .ok ⟨n.inIf + js.countP (fun j => decide (I j)), n.inner + js.dropLast.countP (fun j => decide (P j)),
      n.final + js.getLast?.toList.countP (fun j => decide (P j))⟩
  | [], n, _ => rfl
  | j :: js, n, h => by
    obtain ⟨h1, tag, h2, h3, h4⟩ := h j (by simp)
    have hr : (0 : Int) < Tag.SG_RETURN_STMT := by decide
    rw [tallyLoop, if_neg (by rw [h1]; simp), h2, Res.ok_bind, tallyLoop_counts js _ (fun i hi => h i (by simp [hi]))]
    have hi : ((j :: js).countP (fun j => decide (I j))) = (if tag = -Tag.SG_RETURN_STMT then 1 else 0) + js.countP (fun j => decide (I j)) := by
      rw [List.countP_cons, Nat.add_comm]
      simp only [decide_eq_true_eq, h3]
    have hp1 : ((j :: js).dropLast.countP (fun j => decide (P j))) =
        (if tag = Tag.SG_RETURN_STMT ∧ js ≠ [] then 1 else 0) + js.dropLast.countP (fun j => decide (P j)) := by
      cases js with
      | nil => simp
      | cons i js =>
        rw [List.dropLast_cons_cons, List.countP_cons, Nat.add_comm]
        simp [h4]
    have hp2 : ((j :: js).getLast?.toList.countP (fun j => decide (P j))) =
        (if tag = Tag.SG_RETURN_STMT ∧ js = [] then 1 else 0) + js.getLast?.toList.countP (fun j => decide (P j)) := by
      cases js with
      | nil => simp [h4, List.countP_cons]
      | cons i js => simp
    rw [hi, hp1, hp2]
    by_cases c1 : tag < 0
    · have c3 : tag ≠ Tag.SG_RETURN_STMT := by omega
      by_cases c2 : Tag.SG_RETURN_STMT = -tag
      · have c4 : tag = -Tag.SG_RETURN_STMT := by omega
        simp only [if_pos c1, if_pos c2, if_pos c4, c3, false_and, if_false]
        congr 2 <;> omega
      · have c4 : tag ≠ -Tag.SG_RETURN_STMT := by omega
        simp only [if_pos c1, if_neg c2, if_neg c4, c3, false_and, if_false]
        congr 2 <;> omega
    · have c4 : tag ≠ -Tag.SG_RETURN_STMT := by omega
      by_cases c2 : Tag.SG_RETURN_STMT = tag
      · subst c2
        by_cases c5 : js = []
        · simp only [if_neg c1, if_neg c4, c5, true_and, ne_eq, not_true, if_true, if_false]
          congr 2
        · simp only [if_neg c1, if_neg c4, c5, true_and, ne_eq, not_false_eq_true, if_true, if_false]
          congr 2 <;> omega
      · simp only [if_neg c1, if_neg c2, if_neg c4, Ne.symm c2, false_and, if_false]
        congr 2 <;> omega

/-- What `stmt_tag(true)` is on a statement with the tree that a statement parser made of it. -/
theorem stmtTag_made {s' : PState} {j : Nat} {st : LStmt} {r : R} {n : SNode} {q : Strm} (hst : s'.stmts[j]? = some st)
    (ht : s'.treeOf j = some n) (hr : r ∈ stmtRules) (h : Returns noExts r st.strm (.ok (some n, q))) (hg : GoodStmt st.strm) :
    ∃ tag, stmtTagIn s' j = .ok tag ∧ (tag = -Tag.SG_RETURN_STMT ↔ r = .action_stmt ∧ IfReturn st.strm) ∧
      (tag = Tag.SG_RETURN_STMT ↔ r = .action_stmt ∧ Action st.strm Tag.SG_RETURN_STMT) := by
  have pos : ∀ r : R, 0 < r.rootTag := by
    intro r
    have := SP.R.forall_of (q := fun r => decide (0 < r.rootTag)) (by decide +kernel) r
    exact of_decide_eq_true this
  have hret : (0 : Int) < Tag.SG_RETURN_STMT := by decide
  by_cases ha : r = .action_stmt
  · subst ha
    obtain ⟨r', hr', k, h1, h2, h3, h4⟩ := SP.action_alt h
    have hu := treeTag_action h1 h2
    have hact : Action st.strm k.tag := ⟨n, q, k, h, h2, rfl⟩
    by_cases hi : k.tag = Tag.SG_IF_STMT
    · obtain rfl := SP.alt_if hr' (h3.symm.trans hi)
      obtain ⟨i, w, x, y, z, ta, k1, q', d1, d2, d3, d4, d5, d6⟩ := SP.if_parts hg h4
      obtain ⟨r'', hr'', k', e1, e2, e3, e4⟩ := SP.action_alt d6
      have hact' : Action (st.strm.goto i) k'.tag := ⟨ta, q', k', d6, e2, rfl⟩
      have hto : toAction Tag.SG_IF_STMT n = .ok (ta, []) := by
        rw [toAction, if_pos rfl, need_ok h1, Res.ok_bind, Cur.down]
        simp only [h2]
        rw [Res.ok_bind, need_ok hi, Res.ok_bind, Cur.down]
        simp only [d1]
        rw [Res.ok_bind, need_leaf, Res.ok_bind]
        rfl
      have hp := pos r''
      rw [← e3] at hp
      refine ⟨-k'.tag, ?_, ?_, ?_⟩
      · rw [stmtTagIn, ht, hu, Res.ok_bind, if_pos hi, stmtTree, hst, ht]
        simp only [Res.ok_bind]
        rw [hi, hto, Res.ok_bind, need_ok e1, Res.ok_bind, Cur.down]
        simp only [e2]
        rfl
      · constructor
        · intro hh
          have hk' : k'.tag = Tag.SG_RETURN_STMT := by omega
          exact ⟨rfl, by rw [← hi]; exact hact, i, w, d3, d4, d5, by rw [← hk']; exact hact'⟩
        · rintro ⟨_, _, i', w', g0, g1, g2, g3⟩
          have hl := SP.ifHead_unique d5 g2 (d4.symm.trans g1)
          have hrest : restOf (st.strm.goto i') = restOf (st.strm.goto i) := by
            rw [d4] at g1
            exact (List.append_inj g1 hl).2.symm
          have hlen := congrArg List.length hrest
          have hh := hg.hi_len
          simp only [restOf, List.length_drop, List.length_take, SP.Strm.goto] at hlen
          obtain rfl : i' = i := by omega
          rw [action_unique hact' g3]
      · refine iff_of_false (by omega) ?_
        rintro ⟨_, hh⟩
        have := action_unique hh hact
        rw [hi] at this
        exact absurd this (by decide)
    · refine ⟨k.tag, by rw [stmtTagIn, ht, hu, Res.ok_bind, if_neg hi], ?_, ?_⟩
      · have hp := pos r'
        rw [← h3] at hp
        refine iff_of_false (by omega) ?_
        rintro ⟨_, hh, _⟩
        exact hi (action_unique hact hh)
      · exact ⟨fun hh => ⟨rfl, by rw [← hh]; exact hact⟩, fun hh => action_unique hact hh.2⟩
  · have htag := root_tag h
    have hn : n.tag ≠ Tag.SG_ACTION_STMT := fun hh => ha (actionTag_only (htag.symm.trans hh))
    have hp := pos r
    have hnr : r.rootTag ≠ Tag.SG_RETURN_STMT := by
      have : stmtRules.all (fun r => decide (r.rootTag ≠ Tag.SG_RETURN_STMT)) = true := by decide +kernel
      exact of_decide_eq_true (List.all_eq_true.mp this r hr)
    refine ⟨n.tag, ?_, iff_of_false (by rw [htag]; omega) (fun hh => ha hh.1), iff_of_false (by rw [htag]; exact hnr) (fun hh => ha hh.1)⟩
    rw [stmtTagIn, ht, treeTag_other hn, Res.ok_bind, if_neg (by rw [htag]; exact (call_if_tags hr).2)]

end Apps
end FLPR
