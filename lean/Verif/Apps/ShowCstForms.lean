import Verif.Apps.ShowCstProps
import Verif.StmtParser.DesigProps
/-!
# C87, continued: what flpr_show_cst prints for statements of the forms of the standard
-/

namespace FLPR
namespace Apps
open SP Spec

/-- C87: for the statements of C63 a tree of the statement is printed exactly if the statement has the form of the
standard. -/
theorem C87_form (x : Exts) (hx : GoodExts x) (hf : x.Forward) (s : Strm) (hs : GoodStmt s) (h0 : s.pos = s.lo)
    (tag : Int) (G : Form) (hG : (tag, G) ∈ Std.simpleForms ++ Std.arrayForms) (ht : tag ≠ Tag.SG_LOOP_CONTROL)
    (out : List ShowLine) (h : ShowStmt x s (.ok out)) :
    (∃ k t, .tree k t ∈ out ∧ Accepts x s tag t) ↔ G.Is (restOf s) := by
  rw [← C63_recognised x hx hf tag G hG s hs]
  constructor
  · rintro ⟨_, t, _, q, hq⟩
    exact ⟨t, q, hq⟩
  · rintro ⟨n, q, hq⟩
    obtain ⟨ts, ns, _, a2, a3, a4⟩ := C87_shown x hx hf s hs h0 out h
    have hd : tag ∈ dispatchTable.map (·.1) := by
      rw [dispatch_iff] at hq
      cases hc : dispatchTable.find? (fun q => q.1 == tag) with
      | none => rw [hc] at hq; cases hq
      | some p =>
        have h1 := List.mem_of_find?_eq_some hc
        have h2 := List.find?_some hc
        simp only [beq_iff_eq] at h2
        exact List.mem_map.mpr ⟨p, h1, h2⟩
    have hm : tag ∈ ts := (a2 tag).mpr ⟨hd, ht, n, q, hq⟩
    rw [if_neg (List.ne_nil_of_mem hm)] at a4
    obtain ⟨i, hi, rfl⟩ := List.getElem_of_mem hm
    have hl := a3.length_eq
    refine ⟨i + 1, ns[i]'(hl ▸ hi), ?_, ?_⟩
    · rw [a4]
      unfold numbered
      rw [List.mem_mapIdx]
      exact ⟨i, hl ▸ hi, rfl⟩
    · exact (List.forall₂_iff_get.mp a3).2 i hi (hl ▸ hi)

/-- C87: a statement that has one of these forms is never called unrecognized, alone or among others. -/
theorem C87_recognised (x : Exts) (hx : GoodExts x) (hf : x.Forward) (s : Strm) (hs : GoodStmt s) (h0 : s.pos = s.lo)
    (tag : Int) (G : Form) (hG : (tag, G) ∈ Std.simpleForms ++ Std.arrayForms) (ht : tag ≠ Tag.SG_LOOP_CONTROL)
    (hw : G.Is (restOf s)) (out : List ShowLine) (h : ShowStmt x s (.ok out)) : .unrecognized ∉ out := by
  obtain ⟨k, t, hk, _⟩ := (C87_form x hx hf s hs h0 tag G hG ht out h).mpr hw
  obtain ⟨ts, ns, _, _, _, a4⟩ := C87_shown x hx hf s hs h0 out h
  by_cases hts : ts = []
  · rw [if_pos hts] at a4
    subst a4
    simp at hk
  · rw [if_neg hts] at a4
    subst a4
    unfold numbered
    rw [List.mem_mapIdx]
    rintro ⟨i, hi, hc⟩
    cases hc

/-- C87: the program is undefined for every line that begins a where construct without a name (the last example of
`DesigProps.lean` has such a line). -/
theorem C87_violation_where_construct (x : Exts) (hx : GoodExts x) (hf : x.Forward) (s : Strm) (hs : WholeStmt s)
    (hn : NoImages s.all) (hm : Std.whereMask.Is (restOf s)) : ShowStmt x s (.error .ub) := by
  have hu := C78_violation_where x hx hf s hs hn hm
  exact (C87_undefined x hx hf s (whole_fresh hs).good (by cases hs; assumption)).2.mpr
    ⟨Tag.SG_WHERE_STMT, by decide +kernel, by decide +kernel, hu⟩

/-- The line `go to 10`. -/
def gotoLine : Strm := lineOf [Tag.KW_GO, Tag.KW_TO, Tag.SG_INT_LITERAL_CONSTANT]

/-- `go to 10` is shown, with a tree of the goto statement and nothing unrecognized. -/
example : GoodStmt gotoLine ∧ gotoLine.pos = gotoLine.lo ∧ (Tag.SG_GOTO_STMT, Std.gotoStmt) ∈ Std.simpleForms ++ Std.arrayForms ∧
    Tag.SG_GOTO_STMT ≠ Tag.SG_LOOP_CONTROL ∧ Std.gotoStmt.Is (restOf gotoLine) ∧ ∃ out, ShowStmt noExts gotoLine (.ok out) := by
  have hg : GoodStmt gotoLine := good_of (goodTags_of (by decide +kernel)) <|
    .plain ⟨by decide, by decide, by decide, by decide⟩ <| .plain ⟨by decide, by decide, by decide, by decide⟩ <|
      .plain ⟨by decide, by decide, by decide, by decide⟩ .nil
  have g1 : GoodExts noExts := by intro e he; cases he
  have g2 : noExts.Forward := by intro e he; cases he
  have hG : (Tag.SG_GOTO_STMT, Std.gotoStmt) ∈ Std.simpleForms ++ Std.arrayForms := by decide +kernel
  refine ⟨hg, rfl, hG, by decide, ?_, ?_⟩
  · refine (C63_recognised noExts g1 g2 _ _ hG _ hg).mp ?_
    obtain ⟨t, s', h1, h2⟩ := returns_of_holds (x := noExts) (r := .goto_stmt) (s := gotoLine)
      (q := fun t _ => t.isSome) 60 (by decide +kernel)
    cases t with
    | none => cases h2
    | some t =>
      refine ⟨t, s', ?_⟩
      rw [dispatch_iff, show dispatchTable.find? (fun q => q.1 == Tag.SG_GOTO_STMT) = some (Tag.SG_GOTO_STMT, .goto_stmt) by decide +kernel]
      exact h1
  · refine C87_defined noExts g1 g2 _ hg rfl ?_
    rintro ⟨_, h⟩
    revert h
    decide +kernel

end Apps
end FLPR
