import Verif.Indent.TreeLemmas
/-!
# The standard indentation tables, and what indenting returns: lemmas
-/

namespace FLPR
namespace Ind
open Spec PP

theorem setAll_defined : ∀ (l : List (Int × Int)) (t : Table), (∀ p ∈ l, inTable p.1 = true) →
    ∃ t', t.setAll l = .ok t' ∧ ∀ g, t'.offset g = l.foldl (fun a p => if g = p.1 then p.2 else a) (t.offset g)
  | [], t, _ => ⟨t, rfl, fun _ => rfl⟩
  | p :: l, t, h => by
    obtain ⟨t', h1, h2⟩ := setAll_defined l { t with offset := fun g => if g = p.1 then p.2 else t.offset g }
      (fun q hq => h q (by simp [hq]))
    refine ⟨t', ?_, fun g => ?_⟩
    · rw [Table.setAll, Table.set, if_pos (h p (by simp))]
      exact h1
    · rw [h2, List.foldl_cons]

theorem beginEndCalls_eq (n : Int) : beginEndCalls n =
    (((List.range (Tag.PG_ZZZ_UB - (Tag.PG_000_LB + 1)).toNat).map (fun k : Nat => Tag.PG_000_LB + 1 + (k : Int))).filter beginEnd).map
      (fun i => (i, n)) := by
  unfold beginEndCalls
  generalize ((List.range (Tag.PG_ZZZ_UB - (Tag.PG_000_LB + 1)).toNat).map (fun k : Nat => Tag.PG_000_LB + 1 + (k : Int))) = l
  induction l with
  | nil => rfl
  | cons a l ih =>
    rw [List.filterMap_cons, List.filter_cons]
    by_cases h : beginEnd a = true
    · simp [h, ih]
    · simp [h, ih]

theorem beginEndCalls_lit (n : Int) : beginEndCalls n =
    [(Tag.PG_CASE_CONSTRUCT, n), (Tag.PG_DERIVED_TYPE_DEF, n), (Tag.PG_ENUM_DEF, n)] := by
  rw [beginEndCalls_eq]
  have : ((List.range (Tag.PG_ZZZ_UB - (Tag.PG_000_LB + 1)).toNat).map (fun k : Nat => Tag.PG_000_LB + 1 + (k : Int))).filter beginEnd =
      [Tag.PG_CASE_CONSTRUCT, Tag.PG_DERIVED_TYPE_DEF, Tag.PG_ENUM_DEF] := by decide +kernel
  rw [this]
  rfl

theorem calls_inTable (n e p m : Int) : ∀ q ∈ partCalls n e p ++ beginEndCalls m, inTable q.1 = true := by
  rw [beginEndCalls_lit]
  simp only [partCalls, List.cons_append, List.nil_append, List.forall_mem_cons]
  decide

/-- What a table made by the calls has, for every tag. -/
theorem standard_offset (t : Table) (n e p : Int) : ∃ t', t.setAll (partCalls n e p ++ beginEndCalls n) = .ok t' ∧ ∀ g, t'.offset g =
    if g ∈ [Tag.PG_EXECUTION_PART, Tag.PG_SPECIFICATION_PART] then e
    else if g ∈ [Tag.PG_INTERNAL_SUBPROGRAM, Tag.PG_MODULE_SUBPROGRAM] then p
    else if g ∈ indentedTags then n else t.offset g := by
  obtain ⟨t', h1, h2⟩ := setAll_defined (partCalls n e p ++ beginEndCalls n) t (calls_inTable n e p n)
  refine ⟨t', h1, fun g => ?_⟩
  rw [h2, beginEndCalls_lit]
  simp only [partCalls, indentedTags, endedTags, List.cons_append, List.nil_append, List.foldl_cons, List.foldl_nil, List.mem_cons,
    List.not_mem_nil, or_false]
  by_cases g1 : g = Tag.PG_ENUM_DEF
  · subst g1; rfl
  by_cases g2 : g = Tag.PG_DERIVED_TYPE_DEF
  · subst g2; rfl
  by_cases g3 : g = Tag.PG_CASE_CONSTRUCT
  · subst g3; rfl
  by_cases g4 : g = Tag.PG_WHERE_BODY_CONSTRUCT
  · subst g4; rfl
  by_cases g5 : g = Tag.PG_SPECIFICATION_PART
  · subst g5; rfl
  by_cases g6 : g = Tag.PG_MODULE_SUBPROGRAM
  · subst g6; rfl
  by_cases g7 : g = Tag.PG_INTERNAL_SUBPROGRAM
  · subst g7; rfl
  by_cases g8 : g = Tag.PG_INTERFACE_SPECIFICATION
  · subst g8; rfl
  by_cases g9 : g = Tag.PG_EXECUTION_PART
  · subst g9; rfl
  by_cases g10 : g = Tag.PG_BLOCK
  · subst g10; rfl
  simp only [g1, g2, g3, g4, g5, g6, g7, g8, g9, g10, or_self, if_neg, not_false_eq_true]

/-! ### What is returned -/

theorem telling_same {f g : FileLine} {n : Int} (hn : 0 ≤ n) (hf : Telling f) (h : setLeading f n = .ok (g, false)) : g = f := by
  unfold setLeading at h
  rw [if_pos hn] at h
  by_cases hc : f.bits.comment = true
  · obtain ⟨h1, h2, h3, h4⟩ := hf.2 hc
    unfold FileLine.setLeadingSpaces at h
    rw [if_pos hc] at h
    simp only [Except.ok.injEq] at h
    unfold FileLine.setLeadingComment at h
    split at h
    · dsimp only at h
      split at h
      · injection h with h _
        rw [← h]
        cases f
        dsimp only at h1 h2 h3 h4
        subst h1 h2 h3 h4
        rfl
      · simp at h
    · rw [h2] at h
      rw [show findChar '!' [] = none from rfl] at h
      dsimp only at h
      injection h with h _
      exact h.symm
  · rw [Bool.not_eq_true] at hc
    by_cases hfo : f.isFortran = true
    · by_contra hne
      have := (C11_return_partial f g _ false hfo (hf.1 hfo) h).mpr hne
      cases this
    · exact ((C11_text_kept f g _ false hc h).2 (by simpa using hfo)).1

theorem setRest_same {n : Int} (hn : 0 ≤ n) : ∀ {fs gs : List FileLine}, (∀ f ∈ fs, Telling f) → setRest n fs = .ok (gs, false) → gs = fs
  | [], gs, _, h => by
    rw [setRest] at h
    injection h with h
    injection h with h _
    exact h.symm
  | f :: fs, gs, hf, h => by
    rw [setRest] at h
    rbind h with x hx
    rbind h with y hy
    injection h with h
    injection h with h hb
    rw [Bool.or_eq_false_iff] at hb
    obtain ⟨x1, x2⟩ := x
    obtain ⟨y1, y2⟩ := y
    dsimp only at hb h
    rw [hb.1] at hx
    rw [hb.2] at hy
    rw [← h, telling_same hn (hf f (by simp)) hx, setRest_same hn (fun a ha => hf a (by simp [ha])) hy]

theorem setLine_same {l l' : LLine} {n cont : Int} (hn : 0 ≤ n) (hc : 0 ≤ cont) (hl : ∀ f ∈ l.layout, Telling f)
    (h : setLine l n cont = .ok (l', false)) : l' = l := by
  unfold setLine at h
  cases hf : l.layout with
  | nil => rw [hf] at h; simp at h
  | cons f fs =>
    rw [hf] at h hl
    dsimp only at h
    rbind h with x hx
    rbind h with m hm
    rbind h with y hy
    injection h with h
    injection h with h hb
    rw [Bool.or_eq_false_iff] at hb
    obtain ⟨x1, x2⟩ := x
    obtain ⟨y1, y2⟩ := y
    dsimp only at hb h
    rw [hb.1] at hx
    rw [hb.2] at hy
    have hm0 : 0 ≤ m := by
      split at hm
      · injection hm with hm; omega
      · have := intAdd_eq hm
        split at this <;> omega
    rw [← h, telling_same hn (hl f (by simp)) hx, setRest_same hm0 (fun a ha => hl a (by simp [ha])) hy, ← hf]

/-- All the lines tell. -/
def AllTelling (ls : List LLine) : Prop := ∀ l ∈ ls, ∀ f ∈ l.layout, Telling f

theorem setAt_same {ls ls' : List LLine} {j : Nat} {n cont : Int} (hn : 0 ≤ n) (hc : 0 ≤ cont) (hl : AllTelling ls)
    (h : setAt ls j n cont = .ok (ls', false)) : ls' = ls := by
  unfold setAt at h
  split at h
  · simp at h
  · rename_i l hj
    rbind h with x hx
    injection h with h
    injection h with h hb
    obtain ⟨x1, x2⟩ := x
    dsimp only at hb h
    rw [hb] at hx
    rw [setLine_same hn hc (hl l (List.mem_of_getElem? hj)) hx] at h
    obtain ⟨h1, h2⟩ := List.getElem?_eq_some_iff.mp hj
    rw [← h, ← h2, List.set_getElem_self]

theorem setPrefix_same {n cont : Int} (hn : 0 ≤ n) (hc : 0 ≤ cont) : ∀ {js : List Nat} {ls ls' : List LLine}, AllTelling ls →
    setPrefix n cont js ls = .ok (ls', false) → ls' = ls
  | [], ls, ls', _, h => by
    rw [setPrefix] at h
    injection h with h
    injection h with h _
    exact h.symm
  | j :: js, ls, ls', hl, h => by
    rw [setPrefix] at h
    rbind h with x hx
    rbind h with y hy
    injection h with h
    injection h with h hb
    rw [Bool.or_eq_false_iff] at hb
    obtain ⟨x1, x2⟩ := x
    obtain ⟨y1, y2⟩ := y
    dsimp only at hb h hy
    rw [hb.1] at hx
    rw [hb.2] at hy
    rw [setAt_same hn hc hl hx] at hy
    rw [← h, setPrefix_same hn hc hl hy]

theorem setStmt_same {n cont : Int} (hc : 0 ≤ cont) {s : LLStmt} {ls ls' : List LLine} (hl : AllTelling ls)
    (h : setStmt ls s n cont = .ok (ls', false)) : ls' = ls := by
  unfold setStmt at h
  split at h
  · simp at h
  · rename_i hn
    have hn : 0 ≤ n := by omega
    split at h
    · rbind h with x hx
      split at h
      · simp at h
      · rename_i j hj
        rbind h with y hy
        injection h with h
        injection h with h hb
        rw [Bool.or_eq_false_iff] at hb
        obtain ⟨x1, x2⟩ := x
        obtain ⟨y1, y2⟩ := y
        dsimp only at hb h hy
        rw [hb.1] at hx
        rw [hb.2] at hy
        rw [setPrefix_same hn hc hl hx] at hy
        rw [← h, setAt_same hn hc hl hy]
    · injection h with h
      injection h with h _
      exact h.symm

mutual
theorem indentNode_same {tab : Table} (hc : 0 ≤ tab.continued) (stmts : List LLStmt) : ∀ (t : PNode) (cur : Int) (ls ls' : List LLine),
    AllTelling ls → indentNode tab stmts t cur ls = .ok (ls', false) → ls' = ls
  | .node tag rg st [], cur, ls, ls', hl, h => by
    rw [indentNode] at h
    cases st with
    | none =>
      rw [indentLeaf] at h
      injection h with h
      injection h with h _
      exact h.symm
    | some i =>
      rw [indentLeaf] at h
      rbind h with s hs
      split at h
      · exact setStmt_same hc hl h
      · injection h with h
        injection h with h _
        exact h.symm
  | .node tag rg st (k :: ks), cur, ls, ls', hl, h => by
    rw [indentNode] at h
    split at h
    · split at h
      · simp at h
      · rbind h with x hx
        rbind h with y hy
        rbind h with mid hm
        rbind h with z hz
        injection h with h
        injection h with h hb
        rw [Bool.or_eq_false_iff] at hb
        obtain ⟨x1, x2⟩ := x
        obtain ⟨z1, z2⟩ := z
        dsimp only at hb h hz
        rw [hb.1] at hx
        rw [hb.2] at hz
        rw [indentNode_same hc stmts k cur ls x1 hl hx] at hz
        rw [← h, indentTail_same hc stmts ks mid cur ls z1 hl hz]
    · rbind h with y hy
      rbind h with c hcur
      rbind h with x hx
      rbind h with z hz
      injection h with h
      injection h with h hb
      rw [Bool.or_eq_false_iff] at hb
      obtain ⟨x1, x2⟩ := x
      obtain ⟨z1, z2⟩ := z
      dsimp only at hb h hz
      rw [hb.1] at hx
      rw [hb.2] at hz
      rw [indentNode_same hc stmts k c ls x1 hl hx] at hz
      rw [← h, indentAll_same hc stmts ks c ls z1 hl hz]
theorem indentAll_same {tab : Table} (hc : 0 ≤ tab.continued) (stmts : List LLStmt) : ∀ (ks : List PNode) (cur : Int) (ls ls' : List LLine),
    AllTelling ls → indentAll tab stmts ks cur ls = .ok (ls', false) → ls' = ls
  | [], cur, ls, ls', _, h => by
    rw [indentAll] at h
    injection h with h
    injection h with h _
    exact h.symm
  | k :: ks, cur, ls, ls', hl, h => by
    rw [indentAll] at h
    rbind h with x hx
    rbind h with z hz
    injection h with h
    injection h with h hb
    rw [Bool.or_eq_false_iff] at hb
    obtain ⟨x1, x2⟩ := x
    obtain ⟨z1, z2⟩ := z
    dsimp only at hb h hz
    rw [hb.1] at hx
    rw [hb.2] at hz
    rw [indentNode_same hc stmts k cur ls x1 hl hx] at hz
    rw [← h, indentAll_same hc stmts ks cur ls z1 hl hz]
theorem indentTail_same {tab : Table} (hc : 0 ≤ tab.continued) (stmts : List LLStmt) : ∀ (ks : List PNode) (mid cur : Int)
    (ls ls' : List LLine), AllTelling ls → indentTail tab stmts ks mid cur ls = .ok (ls', false) → ls' = ls
  | [], mid, cur, ls, ls', _, h => by
    rw [indentTail] at h
    injection h with h
    injection h with h _
    exact h.symm
  | k :: ks, mid, cur, ls, ls', hl, h => by
    rw [indentTail] at h
    rbind h with x hx
    rbind h with z hz
    injection h with h
    injection h with h hb
    rw [Bool.or_eq_false_iff] at hb
    obtain ⟨x1, x2⟩ := x
    obtain ⟨z1, z2⟩ := z
    dsimp only at hb h hz
    rw [hb.1] at hx
    rw [hb.2] at hz
    rw [indentNode_same hc stmts k _ ls x1 hl hx] at hz
    rw [← h, indentTail_same hc stmts ks mid cur ls z1 hl hz]
end

end Ind
end FLPR
