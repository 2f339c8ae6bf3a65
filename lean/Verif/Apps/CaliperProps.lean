import Verif.Apps.CaliperLemmas
/-!
# C80: the application `caliper`
-/

namespace FLPR
namespace Spec
open PP Proc

/-- Statement `j` has a leaf of its own in the tree of the program, as an action statement, and is a return. -/
def ReturnAt (s : PState) (t : PNode) (j : Nat) : Prop :=
  (j, Tag.SG_ACTION_STMT) ∈ ownLeaves t ∧ ∃ st, s.stmts[j]? = some st ∧ Action st.strm Tag.SG_RETURN_STMT

/-- The same for an if statement with a return. -/
def IfReturnAt (s : PState) (t : PNode) (j : Nat) : Prop :=
  (j, Tag.SG_ACTION_STMT) ∈ ownLeaves t ∧ ∃ st, s.stmts[j]? = some st ∧ IfReturn st.strm

end Spec

namespace Apps
open PP Reg Proc Spec
open SP (SNode R Exts Strm)

/-- C80: `exclude_procedure` returns, and it is true just for the procedures that are declared pure or elemental: `pure` or
`elemental` is one of the parts of the prefix, and not, say, the name of a type. -/
theorem C80_exclude (s : PState) (o : POut) (t n : PNode) (p : Procd) (h : OfFresh s o t n p) :
    ∃ b, excluded o.s p = .ok b ∧ (b = true ↔ PureProc s n) := by
  have hstm := h.of.stmts
  rcases h.of.ends.first with ⟨h1, h2, h3⟩ | ⟨h1, k, j, k1, k2, k3, kp, k4, st, tr, r', q, a1, a2, a3, a4⟩
  · refine ⟨false, by rw [excluded, h3, Res.ok_bind, if_pos rfl], iff_of_false (by simp) ?_⟩
    rintro ⟨hh, _⟩
    rw [h1] at hh
    exact absurd hh (by decide)
  · have a1' := a1
    rw [hstm] at a1
    obtain ⟨m, hev⟩ := a3.eval
    rw [a4] at k3
    obtain ⟨b, b1, b2⟩ := exclude_begin (beginRules_only k3) (h.good j st a1) hev
    have htag : r'.rootTag ∈ [Tag.SG_FUNCTION_STMT, Tag.SG_SUBROUTINE_STMT] ↔ n.tag ∈ [Tag.PG_FUNCTION_SUBPROGRAM, Tag.PG_SUBROUTINE_SUBPROGRAM] := by
      rw [← a4]
      have : beginPairs.all (fun e => decide (e.2 ∈ [Tag.SG_FUNCTION_STMT, Tag.SG_SUBROUTINE_STMT] ↔ e.1 ∈ [Tag.PG_FUNCTION_SUBPROGRAM, Tag.PG_SUBROUTINE_SUBPROGRAM])) = true := by
        decide +kernel
      exact of_decide_eq_true (List.all_eq_true.mp this _ kp)
    refine ⟨b, ?_, ?_⟩
    · rw [excluded, h1, Res.ok_bind, if_neg (by simp), k4, Res.ok_bind, stmtTree, a1', a2]
      exact b1
    · rw [b2]
      constructor
      · exact fun hh => ⟨htag.mp hh.1, k, j, st, k1, k2, a1, hh.2⟩
      · rintro ⟨e0, k', j', st', e1, e2, e3, e5⟩
        rw [k1] at e1
        injection e1 with e1; subst e1
        rw [k2] at e2
        injection e2 with e2; subst e2
        rw [a1] at e3
        injection e3 with e3; subst e3
        exact ⟨htag.mpr e0, e5⟩

theorem region_leaves {t n : PNode} (ht : TreeOk t) {i j : Nat} (hn : n ∈ nodesOf t) (h : j ∈ regionStmts n i) : j ∈ leavesOf t := by
  rw [regionStmts, List.mem_flatMap] at h
  obtain ⟨k, hk, hj⟩ := h
  have hk := (List.mem_filter.mp hk).1
  rw [regionNodes, List.mem_flatMap] at hk
  obtain ⟨m, hm, hkm⟩ := hk
  have hmt := nodes_kids hm t hn
  have hkt : k ∈ nodesOf t := by
    split at hkm
    · exact nodes_kids hkm t hmt
    · rw [List.mem_singleton] at hkm
      rw [hkm]
      exact hmt
  exact leaves_sub ht hkt j (mem_squash.mp hj)

theorem node_of {s : PState} {o : POut} {t n : PNode} {p : Procd} (h : OfFresh s o t n p) : TreeOk t ∧ n ∈ nodesOf t := by
  obtain ⟨r, hr⟩ := h.of.parse
  obtain ⟨t', h1, h2⟩ := h.of.node
  rw [h.tree] at h1
  injection h1 with h1
  subst h1
  exact ⟨((C39_tree_partial noExts h.of.fwd h.of.need r s h.of.full o hr).2.2.2 t h.tree).1, h2⟩

/-- `count_return_stmts` from what is known of the statements. -/
theorem tally_of {s : PState} {o : POut} {t n : PNode} {p : Procd} (h : OfFresh s o t n p) {hooked : Nat → Bool}
    (hh : ∀ j ∈ leavesOf t, hooked j = true) (hne : regionStmts n 5 ≠ []) {I P : Nat → Prop} [DecidablePred I] [DecidablePred P]
    (hs : ∀ j ∈ regionStmts n 5, ∃ tag, stmtTagIn o.s j = .ok tag ∧ (I j ↔ tag = -Tag.SG_RETURN_STMT) ∧ (P j ↔ tag = Tag.SG_RETURN_STMT)) :
    tally o.s hooked p = .ok ⟨(regionStmts n 5).countP (fun j => decide (I j)), (regionStmts n 5).dropLast.countP (fun j => decide (P j)),
      (regionStmts n 5).getLast?.toList.countP (fun j => decide (P j))⟩ := by
  obtain ⟨bb, ee, k1, k2, k3⟩ := h.of.regions.2.2.2.1.here EXECUTION_PART (by decide) hne
  obtain ⟨ht, hn⟩ := node_of h
  rw [tally, k1, Res.ok_bind, k2, Res.ok_bind, between_of k3, Res.ok_bind, show regionStmts n EXECUTION_PART = regionStmts n 5 from rfl,
    tallyLoop_counts (I := I) (P := P) _ _ (fun j hj => ⟨hh j (region_leaves ht hn hj), hs j hj⟩), Res.ok_bind, if_pos]
  · simp only [Nat.zero_add]
  · cases (regionStmts n 5).getLast? with
    | none => exact .inl rfl
    | some j =>
      simp only [Option.toList_some, Nat.zero_add]
      by_cases hp : P j
      · exact .inr (by simp [hp])
      · exact .inl (by simp [hp])

theorem tags_known {s : PState} {o : POut} {t n : PNode} {p : Procd} (h : OfFresh s o t n p) {j : Nat} (hj : j ∈ regionStmts n 5) :
    ∃ tag, stmtTagIn o.s j = .ok tag := by
  obtain ⟨r, hr⟩ := h.of.parse
  cases htr : o.s.treeOf j with
  | none => exact ⟨_, by rw [stmtTagIn, htr, treeTag, Res.ok_bind, if_neg (by decide)]⟩
  | some tr =>
    obtain ⟨_, r', hr', st, q, a1, a2⟩ := C68_only noExts r s o hr h.fresh j tr (region_lt h (by omega) hj) htr
    obtain ⟨tag, h1, _⟩ := stmtTag_made (s' := o.s) (by rw [h.of.stmts]; exact a1) htr hr' a2 (h.good j st a1)
    exact ⟨tag, h1⟩

/-- C80: `count_return_stmts` returns: none of its assertions fails. -/
theorem C80_counts (s : PState) (o : POut) (t n : PNode) (p : Procd) (h : OfFresh s o t n p) (hooked : Nat → Bool)
    (hh : ∀ j ∈ leavesOf t, hooked j = true) (hne : regionStmts n 5 ≠ []) : ∃ c, tally o.s hooked p = .ok c ∧ c.final ≤ 1 := by
  classical
  have := tally_of h hh hne (I := fun j => stmtTagIn o.s j = .ok (-Tag.SG_RETURN_STMT)) (P := fun j => stmtTagIn o.s j = .ok Tag.SG_RETURN_STMT) (by
    intro j hj
    obtain ⟨tag, ht⟩ := tags_known h hj
    exact ⟨tag, ht, by rw [ht]; simp, by rw [ht]; simp⟩)
  refine ⟨_, this, ?_⟩
  refine Nat.le_trans List.countP_le_length ?_
  cases (regionStmts n 5).getLast? <;> simp

open Classical in
/-- C80: the numbers that `count_return_stmts` gives: the if statements with a return in them, the returns in front of the
last statement of the execution part, and 1 or 0 for a return as the last statement.  Missing: execution parts with a
statement at which several loops end. -/
theorem C80_count_partial (s : PState) (o : POut) (t n : PNode) (p : Procd) (h : OfFresh s o t n p) (hooked : Nat → Bool)
    (hh : ∀ j ∈ leavesOf t, hooked j = true) (hne : regionStmts n 5 ≠ [])
    (hown : ∀ j ∈ regionStmts n 5, ∃ tag, (j, tag) ∈ ownLeaves t) :
    tally o.s hooked p = .ok ⟨(regionStmts n 5).countP (fun j => decide (IfReturnAt s t j)),
      (regionStmts n 5).dropLast.countP (fun j => decide (ReturnAt s t j)),
      (regionStmts n 5).getLast?.toList.countP (fun j => decide (ReturnAt s t j))⟩ := by
  obtain ⟨r, hr⟩ := h.of.parse
  refine tally_of h hh hne ?_
  intro j hj
  obtain ⟨u, hu⟩ := hown j hj
  obtain ⟨tr, r', hr', st, q, a1, a2, a3, a4, a5⟩ := C68_trees_partial noExts SP.forward_none needToken_none r s h.of.full o t hr h.tree _ hu
  obtain ⟨tag, h1, h2, h3⟩ := stmtTag_made (s' := o.s) (by rw [h.of.stmts]; exact a3) a1 hr' a4 (h.good j st a3)
  have hact : (j, Tag.SG_ACTION_STMT) ∈ ownLeaves t ↔ r' = .action_stmt := by
    constructor
    · intro hm
      obtain ⟨tr', r'', _, _, _, b1, b2, _, _, _⟩ := C68_trees_partial noExts SP.forward_none needToken_none r s h.of.full o t hr h.tree _ hm
      rw [a1] at b1
      injection b1 with b1
      subst b1
      exact actionTag_only ((root_tag a4).symm.trans b2)
    · rintro rfl
      have : u = Tag.SG_ACTION_STMT := by
        rw [show u = _ from a5]; decide +kernel
      rw [← this]
      exact hu
  refine ⟨tag, h1, ?_, ?_⟩
  · rw [h2, IfReturnAt, hact]
    exact and_congr_right fun _ => ⟨fun ⟨st', e1, e2⟩ => by rw [show s.stmts[j]? = some st from a3] at e1; injection e1 with e1; rwa [e1],
      fun hh => ⟨st, a3, hh⟩⟩
  · rw [h3, ReturnAt, hact]
    exact and_congr_right fun _ => ⟨fun ⟨st', e1, e2⟩ => by rw [show s.stmts[j]? = some st from a3] at e1; injection e1 with e1; rwa [e1],
      fun hh => ⟨st, a3, hh⟩⟩

theorem name_ok {s : PState} {o : POut} {t n : PNode} {p : Procd} (h : OfFresh s o t n p) : ∃ nm, p.name o.s = .ok nm := by
  rcases first_of h.of with ⟨_, g, _⟩ | ⟨_, _, _, _, _, _, _, _, _, _, _, g, _⟩
  · exact ⟨_, g⟩
  · exact ⟨_, g⟩

/-- C80: an internal procedure is left alone. -/
theorem C80_internal (mk : Str → Res LLine) (s : PState) (hooked : Nat → Bool) (fl : LFile) (n : PNode) :
    caliper mk s hooked fl n true = .ok (false, fl) := rfl

/-- C80: a procedure without execution part, and one that is pure or elemental, is left alone. -/
theorem C80_left_alone (s : PState) (o : POut) (t n : PNode) (p : Procd) (h : OfFresh s o t n p) (mk : Str → Res LLine)
    (hooked : Nat → Bool) (fl : LFile) (hn : regionStmts n 5 = [] ∨ PureProc s n) :
    caliper mk o.s hooked fl n false = .ok (false, fl) := by
  obtain ⟨p0, h1, h2⟩ := h.new
  obtain ⟨nm, hnm⟩ := name_ok h
  have hright := h.of.regions.2.2.2.1
  rw [caliper, if_neg (by simp), h1, Res.ok_bind, h2, Res.ok_bind]
  simp only [Bool.true_eq_false, if_false]
  rw [hright.empty EXECUTION_PART (by decide), Res.ok_bind]
  by_cases he : regionStmts n 5 = []
  · rw [show regionStmts n EXECUTION_PART = [] from he, List.isEmpty_nil, if_pos rfl, hnm, Res.ok_bind]
  · rw [if_neg (by rw [List.isEmpty_iff]; exact he)]
    obtain ⟨b, b1, b2⟩ := C80_exclude s o t n p h
    rw [b1, Res.ok_bind, if_pos (b2.mpr (hn.resolve_left he)), hnm, Res.ok_bind]

/-- C80 fails for every other procedure, that is, where there is something to do: nothing comes back. -/
theorem C80_violation_emplace (s : PState) (o : POut) (t n : PNode) (p : Procd) (h : OfFresh s o t n p) (mk : Str → Res LLine)
    (hooked : Nat → Bool) (fl : LFile) (hne : regionStmts n 5 ≠ []) (hp : ¬ PureProc s n) (v : Bool × LFile) :
    caliper mk o.s hooked fl n false ≠ .ok v := by
  obtain ⟨p0, h1, h2⟩ := h.new
  have hright := h.of.regions.2.2.2.1
  intro hv
  rw [caliper, if_neg (by simp), h1, Res.ok_bind, h2, Res.ok_bind] at hv
  simp only [Bool.true_eq_false, if_false] at hv
  rw [hright.empty EXECUTION_PART (by decide), Res.ok_bind, if_neg (by rw [List.isEmpty_iff]; exact hne)] at hv
  obtain ⟨b, b1, b2⟩ := C80_exclude s o t n p h
  rw [b1, Res.ok_bind, if_neg (fun hb => hp (b2.mp hb))] at hv
  rbind hv with c hc
  rbind hv with nm hnm
  rbind hv with pos hpos
  rbind hv with ll hll
  split at hv
  · cases hv
  · rbind hv with w hw
    exact emplace_never _ _ _ _ _ _ _ hw

/-- The loop that looks for a label. -/
theorem pickLabel_spec (used : List Int) : ∀ m : Nat,
    (∃ k, pickLabel used m = .ok k ∧ 0 < k ∧ k ≤ m ∧ (k : Int) ∉ used ∧ ∀ i, k < i → i ≤ m → (i : Int) ∈ used) ∨
    (pickLabel used m = .error .assertion ∧ ∀ i : Nat, 0 < i → i ≤ m → (i : Int) ∈ used)
  | 0 => .inr ⟨rfl, fun i h1 h2 => by omega⟩
  | m + 1 => by
    rw [pickLabel]
    by_cases hm : ((m + 1 : Nat) : Int) ∈ used
    · rw [if_pos hm]
      rcases pickLabel_spec used m with ⟨k, h1, h2, h3, h4, h5⟩ | ⟨h1, h2⟩
      · refine .inl ⟨k, h1, h2, by omega, h4, fun i hi hi' => ?_⟩
        rcases Nat.lt_or_ge m i with hlt | hle
        · obtain rfl : i = m + 1 := by omega
          exact hm
        · exact h5 i hi hle
      · refine .inr ⟨h1, fun i hi hi' => ?_⟩
        rcases Nat.lt_or_ge m i with hlt | hle
        · obtain rfl : i = m + 1 := by omega
          exact hm
        · exact h2 i hi hle
    · rw [if_neg hm]
      exact .inl ⟨m + 1, rfl, by omega, Nat.le_refl _, hm, fun i _ _ => by omega⟩

/-- C80: the new label is the greatest one up to 9999 that no statement of the procedure has; the assertion fails just if
all of 1 to 9999 are labels in it. -/
theorem C80_label (s : PState) (o : POut) (t n : PNode) (p : Procd) (h : OfFresh s o t n p) :
    (∃ k, newLabel o.s p = .ok k ∧ 0 < k ∧ k ≤ 9999 ∧ (k : Int) ∉ labelsOf s.stmts (stmtsUnder n) ∧
      ∀ i, k < i → i ≤ 9999 → (i : Int) ∈ labelsOf s.stmts (stmtsUnder n)) ∨
    (newLabel o.s p = .error .assertion ∧ ∀ i : Nat, 0 < i → i ≤ 9999 → (i : Int) ∈ labelsOf s.stmts (stmtsUnder n)) := by
  obtain ⟨r, hr⟩ := h.of.parse
  have hl := C69_labels noExts h.of.fwd h.of.need r s h.of.full o hr t h.tree n (node_of h).2 p h.of.ends.root
  rw [newLabel, hl, Res.ok_bind]
  exact pickLabel_spec _ 9999

end Apps
end FLPR
