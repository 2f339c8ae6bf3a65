import Verif.Indent.TreeLemmas
import Mathlib.Data.List.Nodup
/-!
# Indenting a second time: lemmas
-/

namespace FLPR
namespace Ind
open Spec PP

/-- The line is where it should be. -/
def Stays (cont n : Int) (l : LLine) : Prop := ∃ b, setLine l n cont = .ok (l, b)

theorem moved_bits {m : Int} {rs rs' : List FileLine} (h : List.Forall₂ (fun a a' => ∃ b, setLeading a m = .ok (a', b)) rs rs') :
    rs'.any (·.isFortran) = rs.any (·.isFortran) := by
  induction h with
  | nil => rfl
  | cons h _ ih =>
    obtain ⟨b, h⟩ := h
    rw [List.any_cons, List.any_cons, ih, fortran_bits (setLeading_bits h)]

theorem setRest_stays {m : Int} {rs rs' : List FileLine} (h : List.Forall₂ (fun a a' => ∃ b, setLeading a m = .ok (a', b)) rs rs') :
    ∃ b, setRest m rs' = .ok (rs', b) := by
  induction h with
  | nil => exact ⟨false, rfl⟩
  | cons h _ ih =>
    obtain ⟨b, h⟩ := h
    obtain ⟨b1, h1⟩ := setLeading_again h
    obtain ⟨b2, h2⟩ := ih
    refine ⟨b1 || b2, ?_⟩
    rw [setRest, h1]
    simp only [Res.ok_bind, h2]

theorem indentedBy_hasFortran {cont n : Int} {l l' : LLine} (h : IndentedBy cont n l l') : l'.hasFortran = l.hasFortran := by
  obtain ⟨h1, f, f', rs, rs', h2, h3, ⟨b, h4⟩, h5⟩ := h
  have hs : l'.suppress = l.suppress := by rw [h1]
  unfold LLine.hasFortran
  rw [hs, h2, h3, List.any_cons, List.any_cons, moved_bits h5, fortran_bits (setLeading_bits h4)]

theorem setLine_stays {l l' : LLine} {n cont : Int} {b : Bool} (h : setLine l n cont = .ok (l', b)) : Stays cont n l' := by
  have hi : IndentedBy cont n l l' := setLine_spec h
  have hf := indentedBy_hasFortran hi
  unfold setLine at h
  cases hl : l.layout with
  | nil => rw [hl] at h; simp at h
  | cons f fs =>
    rw [hl] at h
    dsimp only at h
    rbind h with x hx
    rbind h with m hm
    rbind h with xs hxs
    injection h with h
    have hlay : l'.layout = x.1 :: xs.1 := by have := congrArg (fun p => p.1.layout) h; exact this.symm
    obtain ⟨b1, h1⟩ := setLeading_again hx
    have h2 := setRest_spec hxs
    obtain ⟨b2, h3⟩ := setRest_stays h2
    refine ⟨b1 || b2, ?_⟩
    unfold setLine
    rw [hlay]
    dsimp only
    have hm' : (if xs.1.isEmpty then Except.ok n else intAdd n (if l'.hasFortran then cont else 0) : Res Int) = .ok m := by
      rw [hf]
      have : xs.1.isEmpty = fs.isEmpty := by
        generalize xs.1 = q at h2
        cases h2 <;> rfl
      rw [this]
      exact hm
    rw [h1]
    simp only [Res.ok_bind, hm', h3]
    congr 2
    rw [← hlay]

/-- The lines are where the moves put them. -/
def Stable (cont : Int) (ms : List (Nat × Int)) (ls : List LLine) : Prop := ∀ m ∈ ms, ∃ l, ls[m.1]? = some l ∧ Stays cont m.2 l

theorem Stable.left {cont : Int} {a b : List (Nat × Int)} {ls : List LLine} (h : Stable cont (a ++ b) ls) : Stable cont a ls :=
  fun m hm => h m (by simp [hm])

theorem Stable.right {cont : Int} {a b : List (Nat × Int)} {ls : List LLine} (h : Stable cont (a ++ b) ls) : Stable cont b ls :=
  fun m hm => h m (by simp [hm])

theorem setAt_stable {cont n : Int} {j : Nat} {ls : List LLine} (h : ∃ l, ls[j]? = some l ∧ Stays cont n l) :
    ∃ b, setAt ls j n cont = .ok (ls, b) := by
  obtain ⟨l, h1, b, h2⟩ := h
  refine ⟨b, ?_⟩
  unfold setAt
  rw [h1]
  dsimp only
  rw [h2]
  simp only [Res.ok_bind]
  have hj := (List.getElem?_eq_some_iff.mp h1)
  obtain ⟨hj, he⟩ := hj
  have : ls.set j l = ls := by rw [← he]; exact List.set_getElem_self hj
  rw [this]

theorem setPrefix_stable {cont n : Int} : ∀ (js : List Nat) (ls : List LLine), Stable cont (js.map (fun j => (j, n))) ls →
    ∃ b, setPrefix n cont js ls = .ok (ls, b)
  | [], ls, _ => ⟨false, rfl⟩
  | j :: js, ls, h => by
    obtain ⟨b1, h1⟩ := setAt_stable (h (j, n) (by simp))
    obtain ⟨b2, h2⟩ := setPrefix_stable js ls (fun m hm => h m (by simp only [List.map_cons, List.mem_cons]; exact .inr hm))
    refine ⟨b1 || b2, ?_⟩
    rw [setPrefix, h1]
    simp only [Res.ok_bind, h2]

theorem setStmt_stable {cont n : Int} {s : LLStmt} {ls0 ls : List LLine} {r : List LLine × Bool} (h0 : setStmt ls0 s n cont = .ok r)
    (h : Stable cont ((linesOf s).map (fun j => (j, n))) ls) : ∃ b, setStmt ls s n cont = .ok (ls, b) := by
  unfold setStmt at h0 ⊢
  split at h0
  · simp at h0
  · rename_i hn
    rw [if_neg hn]
    unfold linesOf at h
    split at h0
    · rename_i hc
      rw [if_pos hc] at h ⊢
      rbind h0 with x hx
      split at h0
      · simp at h0
      · rename_i j hj
        rw [hj, List.map_append] at h
        obtain ⟨b1, h1⟩ := setPrefix_stable s.pre ls h.left
        obtain ⟨b2, h2⟩ := setAt_stable (h.right (j, n) (by simp))
        refine ⟨b1 || b2, ?_⟩
        rw [h1]
        simp only [Res.ok_bind, h2]
    · rename_i hc
      rw [if_neg hc]
      exact ⟨false, rfl⟩

mutual
theorem indentNode_stable (tab : Table) (stmts : List LLStmt) : ∀ (t : PNode) (cur : Int) (ls0 : List LLine) (r : List LLine × Bool)
    (ls : List LLine), indentNode tab stmts t cur ls0 = .ok r → Stable tab.continued (shift cur (moves tab.offset stmts t)) ls →
    ∃ b, indentNode tab stmts t cur ls = .ok (ls, b)
  | .node tag rg st [], cur, ls0, r, ls, h, hst => by
    rw [indentNode] at h ⊢
    cases st with
    | none => exact ⟨false, rfl⟩
    | some i =>
      rw [indentLeaf] at h ⊢
      rbind h with s hs
      rw [hs]
      simp only [Res.ok_bind]
      unfold stmtAt at hs
      cases hi : stmts[i]? with
      | none =>
        rw [hi] at hs
        dsimp only at hs
        split at hs
        · injection hs with hs
          subst hs
          simp [setStmt] at h
          split at h
          · simp at h
          · simp [setPrefix] at h
        · simp at hs
      | some s' =>
        rw [hi] at hs
        injection hs with hs
        subst hs
        rw [moves_leaf _ _ _ _ _ _ hi] at hst
        have he : shift cur ((linesOf s').map (fun j => (j, (0 : Int)))) = (linesOf s').map (fun j => (j, cur)) := by
          simp [shift]
        rw [he] at hst
        split at h
        · rename_i hc
          rw [if_pos hc]
          exact setStmt_stable h hst
        · rename_i hc
          rw [if_neg hc]
          exact ⟨false, rfl⟩
  | .node tag rg st (k :: ks), cur, ls0, r, ls, h, hst => by
    rw [indentNode] at h ⊢
    rw [moves_node, movesFrom, shift_append, shift_shift] at hst
    split at h
    · rename_i hb
      rw [if_pos hb]
      rw [beginEnd_iff] at hb
      split at h
      · simp at h
      · rename_i hne
        rw [if_neg hne]
        rbind h with x hx
        rbind h with y hy
        rbind h with mid hm
        rbind h with z hz
        have hm' := intAdd_eq hm
        have hy' := get_eq hy
        have h1 := hst.left
        rw [addedBy, if_pos ⟨hb, .inl rfl⟩, Int.add_zero] at h1
        obtain ⟨b1, h1⟩ := indentNode_stable tab stmts k cur ls0 x ls hx h1
        obtain ⟨b2, h2⟩ := indentTail_stable tab stmts tag (ks.length + 1) hb ks 1 (by omega) (by omega) cur mid (by rw [hm', hy']) x.1 z ls hz
          hst.right
        refine ⟨b1 || b2, ?_⟩
        simp only [h1, Res.ok_bind, hy, hm, h2]
    · rename_i hb
      rw [if_neg hb]
      rw [beginEnd_iff] at hb
      rbind h with y hy
      rbind h with c hc
      rbind h with x hx
      rbind h with z hz
      have hc' := intAdd_eq hc
      have hy' := get_eq hy
      have h1 := hst.left
      rw [addedBy, if_neg (fun h => hb h.1), ← hy', ← hc'] at h1
      obtain ⟨b1, h1⟩ := indentNode_stable tab stmts k c ls0 x ls hx h1
      obtain ⟨b2, h2⟩ := indentAll_stable tab stmts tag (ks.length + 1) hb ks 1 cur c (by rw [hc', hy']) x.1 z ls hz hst.right
      refine ⟨b1 || b2, ?_⟩
      simp only [hy, Res.ok_bind, hc, h1, h2]
theorem indentAll_stable (tab : Table) (stmts : List LLStmt) (tag : Int) (n : Nat) (hb : tag ∉ endedTags) : ∀ (ks : List PNode) (i : Nat)
    (cur c : Int) (_ : c = cur + tab.offset tag) (ls0 : List LLine) (r : List LLine × Bool) (ls : List LLine),
    indentAll tab stmts ks c ls0 = .ok r → Stable tab.continued (shift cur (movesFrom tab.offset stmts tag n i ks)) ls →
    ∃ b, indentAll tab stmts ks c ls = .ok (ls, b)
  | [], _, _, _, _, _, _, ls, _, _ => ⟨false, by rw [indentAll]⟩
  | k :: ks, i, cur, c, hc, ls0, r, ls, h, hst => by
    rw [indentAll] at h ⊢
    rbind h with x hx
    rbind h with z hz
    rw [movesFrom, shift_append, shift_shift] at hst
    have h1 := hst.left
    rw [addedBy, if_neg (fun h => hb h.1), ← hc] at h1
    obtain ⟨b1, h1⟩ := indentNode_stable tab stmts k c ls0 x ls hx h1
    obtain ⟨b2, h2⟩ := indentAll_stable tab stmts tag n hb ks (i + 1) cur c hc x.1 z ls hz hst.right
    refine ⟨b1 || b2, ?_⟩
    simp only [h1, Res.ok_bind, h2]
theorem indentTail_stable (tab : Table) (stmts : List LLStmt) (tag : Int) (n : Nat) (hb : tag ∈ endedTags) : ∀ (ks : List PNode) (i : Nat)
    (_ : 0 < i) (_ : i + ks.length = n) (cur mid : Int) (_ : mid = cur + tab.offset tag) (ls0 : List LLine) (r : List LLine × Bool)
    (ls : List LLine), indentTail tab stmts ks mid cur ls0 = .ok r →
    Stable tab.continued (shift cur (movesFrom tab.offset stmts tag n i ks)) ls → ∃ b, indentTail tab stmts ks mid cur ls = .ok (ls, b)
  | [], _, _, _, _, _, _, _, _, ls, _, _ => ⟨false, by rw [indentTail]⟩
  | k :: ks, i, hi, hn, cur, mid, hm, ls0, r, ls, h, hst => by
    rw [indentTail] at h ⊢
    rbind h with x hx
    rbind h with z hz
    rw [movesFrom, shift_append, shift_shift] at hst
    have h1 := hst.left
    have he : cur + addedBy tab.offset tag n i = if ks.isEmpty then cur else mid := by
      unfold addedBy
      cases ks with
      | nil =>
        rw [if_pos ⟨hb, .inr (by simpa using hn)⟩]; simp
      | cons a as =>
        rw [if_neg, hm]
        · simp
        · rintro ⟨_, h1 | h1⟩
          · omega
          · simp only [List.length_cons] at hn; omega
    rw [he] at h1
    obtain ⟨b1, h1⟩ := indentNode_stable tab stmts k _ ls0 x ls hx h1
    obtain ⟨b2, h2⟩ := indentTail_stable tab stmts tag n hb ks (i + 1) (by omega)
      (by simp only [List.length_cons] at hn; omega) cur mid hm x.1 z ls hz hst.right
    refine ⟨b1 || b2, ?_⟩
    simp only [h1, Res.ok_bind, h2]
end

theorem Applied.other {cont : Int} {ms : List (Nat × Int)} {ls ls' : List LLine} (h : Applied cont ms ls ls') {j : Nat}
    (hj : j ∉ ms.map (·.1)) : ls'[j]? = ls[j]? := by
  induction h with
  | nil => rfl
  | @cons i n ms ls a a' ls' h0 ha hi _ ih =>
    rw [List.map_cons, List.mem_cons, not_or] at hj
    rw [ih hj.2, List.getElem?_set_ne (fun h => hj.1 h.symm)]

/-- Where each line is moved at most once, the lines end where they were moved. -/
theorem Applied.stable {cont : Int} {ms : List (Nat × Int)} {ls ls' : List LLine} (h : Applied cont ms ls ls')
    (hn : (ms.map (·.1)).Nodup) : Stable cont ms ls' := by
  induction h with
  | nil => intro m hm; simp at hm
  | @cons i n ms ls a a' ls' h0 ha hi h ih =>
    rw [List.map_cons, List.nodup_cons] at hn
    intro m hm
    rcases List.mem_cons.mp hm with rfl | hm
    · obtain ⟨b, hi⟩ := hi
      refine ⟨a', ?_, setLine_stays hi⟩
      rw [h.other hn.1, List.getElem?_set_self]
      exact (List.getElem?_eq_some_iff.mp ha).1
    · exact ih hn.2 m hm

mutual
/-- The lines that are moved are those of the statements at the leaves, in order. -/
theorem moves_lines (off : Int → Int) (stmts : List LLStmt) : ∀ t : PNode, TreeOk t →
    (moves off stmts t).map (·.1) = (leavesOf t).flatMap (fun i => (stmts[i]?.map linesOf).getD [])
  | .node tag rg none [], _ => by rw [moves_none, leavesOf, stmtsOfAll]; rfl
  | .node tag rg (some i) [], _ => by
    rw [leavesOf]
    cases hi : stmts[i]? with
    | none =>
      unfold moves
      rw [leafPaths]
      simp [linesAt, nodeAt, hi]
    | some s =>
      rw [moves_leaf _ _ _ _ _ _ hi]
      simp [hi, Function.comp_def]
  | .node tag rg st (k :: ks), hok => by
    rw [TreeOk] at hok
    cases st with
    | some i => exact absurd (hok.2.1 rfl) (by simp)
    | none =>
      rw [moves_node, leavesOf, movesFrom_lines off stmts tag _ (k :: ks) 0 hok.2.2]
theorem movesFrom_lines (off : Int → Int) (stmts : List LLStmt) (tag : Int) (n : Nat) : ∀ (ks : List PNode) (i : Nat), TreesOk ks →
    (movesFrom off stmts tag n i ks).map (·.1) = (stmtsOfAll ks).flatMap (fun i => (stmts[i]?.map linesOf).getD [])
  | [], _, _ => by rw [movesFrom, stmtsOfAll]; rfl
  | k :: ks, i, hok => by
    rw [TreesOk] at hok
    rw [movesFrom, List.map_append, stmtsOfAll, List.flatMap_append, movesFrom_lines off stmts tag n ks (i + 1) hok.2.2,
      ← moves_lines off stmts k hok.2.1]
    congr 1
    simp [shift, Function.comp_def]
end

theorem nodup_pick {α β : Type} (f : α → List β) : ∀ (l : List α) (is : List Nat), (l.flatMap f).Nodup → is.Nodup →
    (is.flatMap (fun i => (l[i]?.map f).getD [])).Nodup := by
  intro l is hl hi
  rw [List.nodup_flatMap] at hl ⊢
  constructor
  · intro i _
    cases h : l[i]? with
    | none => simp
    | some a => simpa using hl.1 a (List.mem_of_getElem? h)
  · refine List.Pairwise.imp_of_mem ?_ hi
    intro i j _ _ hij
    simp only [Function.onFun]
    cases h : l[i]? with
    | none => simp
    | some a =>
      cases h' : l[j]? with
      | none => simp
      | some b =>
        simp only [Option.map_some, Option.getD_some]
        have hp := List.pairwise_iff_getElem.mp hl.2
        obtain ⟨h1, h2⟩ := List.getElem?_eq_some_iff.mp h
        obtain ⟨h3, h4⟩ := List.getElem?_eq_some_iff.mp h'
        rcases Nat.lt_or_gt_of_ne hij with hlt | hlt
        · have := hp i j h1 h3 hlt
          rw [h2, h4] at this
          exact this
        · have := hp j i h3 h1 hlt
          rw [h2, h4] at this
          exact fun x h1 h2 => this h2 h1

end Ind
end FLPR
