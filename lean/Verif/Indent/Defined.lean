import Verif.Indent.TreeLemmas
import Verif.LogicalFile.StmtSrcProps
/-!
# Indenting is defined: lemmas
-/

namespace FLPR
namespace Ind
open Spec PP

theorem setLeading_movable {f : FileLine} (hf : Movable f) {n : Int} (hn : 0 ≤ n) : ∃ g b, setLeading f n = .ok (g, b) ∧ Movable g := by
  unfold setLeading
  rw [if_pos hn]
  obtain ⟨g, b, h⟩ := movable_defined hf n.toNat
  exact ⟨g, b, h, movable_moved hf h⟩

theorem setRest_movable {n : Int} (hn : 0 ≤ n) : ∀ fs : List FileLine, (∀ f ∈ fs, Movable f) →
    ∃ r, setRest n fs = .ok r ∧ ∀ f ∈ r.1, Movable f
  | [], _ => ⟨([], false), rfl, by simp⟩
  | f :: fs, h => by
    obtain ⟨g, b, h1, h2⟩ := setLeading_movable (h f (by simp)) hn
    obtain ⟨r, h3, h4⟩ := setRest_movable hn fs (fun a ha => h a (by simp [ha]))
    refine ⟨(g :: r.1, b || r.2), ?_, ?_⟩
    · rw [setRest, h1]
      simp only [Res.ok_bind, h3]
    · intro a ha
      rcases List.mem_cons.mp ha with rfl | ha
      · exact h2
      · exact h4 a ha

/-- What can be indented so far, and be continued. -/
def Fits (n cont : Int) : Prop := 0 ≤ n ∧ n + cont ≤ 2147483647

theorem setLine_movable {l : LLine} (hl : MovableLine l) {n cont : Int} (hc : 0 ≤ cont) (hn : Fits n cont) :
    ∃ r, setLine l n cont = .ok r ∧ MovableLine r.1 := by
  obtain ⟨h0, hm⟩ := hl
  unfold setLine
  cases hf : l.layout with
  | nil => exact absurd hf h0
  | cons f fs =>
    rw [hf] at hm
    obtain ⟨g, b, h1, h2⟩ := setLeading_movable (hm f (by simp)) hn.1
    have hm' : ∃ m, (if fs.isEmpty then Except.ok n else intAdd n (if l.hasFortran then cont else 0) : Res Int) = .ok m ∧ 0 ≤ m := by
      obtain ⟨n1, n2⟩ := hn
      split
      · exact ⟨n, rfl, n1⟩
      · unfold intAdd
        have hx : 0 ≤ (if l.hasFortran then cont else 0) ∧ (if l.hasFortran then cont else 0) ≤ cont := by split <;> omega
        generalize (if l.hasFortran then cont else 0) = c at hx
        rw [if_pos (by omega)]
        exact ⟨_, rfl, by omega⟩
    obtain ⟨m, h3, h4⟩ := hm'
    obtain ⟨r, h5, h6⟩ := setRest_movable h4 fs (fun a ha => hm a (by simp [ha]))
    refine ⟨({ l with layout := g :: r.1 }, b || r.2), ?_, ⟨by simp, ?_⟩⟩
    · dsimp only
      rw [h1]
      simp only [Res.ok_bind, h3, h5]
    · intro a ha
      rcases List.mem_cons.mp ha with rfl | ha
      · exact h2
      · exact h6 a ha

/-- The lines can all be moved, and there are `N` of them. -/
def AllMovable (N : Nat) (ls : List LLine) : Prop := ls.length = N ∧ ∀ l ∈ ls, MovableLine l

theorem setAt_movable {N : Nat} {ls : List LLine} (hl : AllMovable N ls) {j : Nat} (hj : j < N) {n cont : Int} (hc : 0 ≤ cont)
    (hn : Fits n cont) : ∃ r, setAt ls j n cont = .ok r ∧ AllMovable N r.1 := by
  have hj' : j < ls.length := by rw [hl.1]; exact hj
  obtain ⟨r, h1, h2⟩ := setLine_movable (hl.2 _ (List.getElem_mem hj')) hc hn
  refine ⟨(ls.set j r.1, r.2), ?_, by rw [List.length_set]; exact hl.1, ?_⟩
  · unfold setAt
    rw [List.getElem?_eq_getElem hj']
    simp only [h1, Res.ok_bind]
  · intro l hm
    rcases List.mem_or_eq_of_mem_set hm with hm | rfl
    · exact hl.2 l hm
    · exact h2

theorem setPrefix_movable {N : Nat} {n cont : Int} (hc : 0 ≤ cont) (hn : Fits n cont) : ∀ (js : List Nat) (ls : List LLine),
    AllMovable N ls → (∀ j ∈ js, j < N) → ∃ r, setPrefix n cont js ls = .ok r ∧ AllMovable N r.1
  | [], ls, hl, _ => ⟨(ls, false), rfl, hl⟩
  | j :: js, ls, hl, hj => by
    obtain ⟨r, h1, h2⟩ := setAt_movable hl (hj j (by simp)) hc hn
    obtain ⟨q, h3, h4⟩ := setPrefix_movable hc hn js r.1 h2 (fun i hi => hj i (by simp [hi]))
    refine ⟨(q.1, r.2 || q.2), ?_, h4⟩
    rw [setPrefix, h1]
    simp only [Res.ok_bind, h3]

/-- The lines of a statement are there. -/
def HasLines (N : Nat) (s : LLStmt) : Prop := s.compound < 2 → (∃ j, s.line = some j ∧ j < N) ∧ ∀ j ∈ s.pre, j < N

theorem setStmt_movable {N : Nat} {n cont : Int} (hc : 0 ≤ cont) (hn : Fits n cont) {ls : List LLine} (hl : AllMovable N ls) {s : LLStmt}
    (hs : HasLines N s) : ∃ r, setStmt ls s n cont = .ok r ∧ AllMovable N r.1 := by
  unfold setStmt
  rw [if_neg (by have := hn.1; omega)]
  split
  · rename_i h2
    obtain ⟨⟨j, hj, hjn⟩, hp⟩ := hs h2
    obtain ⟨r, h1, h2⟩ := setPrefix_movable hc hn s.pre ls hl hp
    obtain ⟨q, h3, h4⟩ := setAt_movable h2 hjn hc hn
    refine ⟨(q.1, r.2 || q.2), ?_, h4⟩
    rw [h1, hj]
    simp only [Res.ok_bind, h3]
  · exact ⟨(ls, false), rfl, hl⟩

mutual
theorem deepest_nonneg {off : Int → Int} (h : ∀ tag, 0 ≤ off tag) : ∀ t : PNode, 0 ≤ deepest off t
  | .node _ _ _ [] => by rw [deepest]; exact Int.le_refl 0
  | .node tag _ _ (k :: ks) => by
    rw [deepest]
    have := h tag
    have := deepest_nonneg h k
    omega
theorem deepestOf_nonneg {off : Int → Int} (h : ∀ tag, 0 ≤ off tag) : ∀ ks : List PNode, 0 ≤ deepestOf off ks
  | [] => by rw [deepestOf]; exact Int.le_refl 0
  | k :: ks => by
    rw [deepestOf]
    have := deepest_nonneg h k
    omega
end

mutual
theorem indentNode_defined {tab : Table} {stmts : List LLStmt} {N : Nat} (ho : ∀ tag, 0 ≤ tab.offset tag) (hc : 0 ≤ tab.continued)
    (hs : ∀ s ∈ stmts, HasLines N s) : ∀ (t : PNode) (cur : Int) (ls : List LLine), Known t → TreeOk t →
    (∀ i ∈ leavesOf t, i < stmts.length) → 0 ≤ cur → cur + deepest tab.offset t + tab.continued ≤ 2147483647 → AllMovable N ls →
    ∃ r, indentNode tab stmts t cur ls = .ok r ∧ AllMovable N r.1
  | .node tag rg none [], cur, ls, hk, hok, hlv, h0, hd, hl => by
    rw [indentNode, indentLeaf]
    exact ⟨_, rfl, hl⟩
  | .node tag rg (some i) [], cur, ls, hk, hok, hlv, h0, hd, hl => by
    have hi : i < stmts.length := hlv i (by simp [leavesOf])
    rw [deepest] at hd
    rw [indentNode, indentLeaf, stmtAt, List.getElem?_eq_getElem hi]
    simp only [Res.ok_bind]
    split
    · exact setStmt_movable hc ⟨h0, by omega⟩ hl (hs _ (List.getElem_mem hi))
    · exact ⟨_, rfl, hl⟩
  | .node tag rg st (k :: ks), cur, ls, hk, hok, hlv, h0, hd, hl => by
    rw [Known] at hk
    rw [TreeOk, TreesOk] at hok
    rw [deepest] at hd
    obtain ⟨⟨hk1, hk2⟩, hk3, hk4, hk5⟩ := hk
    obtain ⟨_, hok1, _, hok2, hok3⟩ := hok
    have hst : st = none := by
      cases st with
      | none => rfl
      | some i => exact absurd (hok1 rfl) (by simp)
    subst hst
    rw [leavesOf, stmtsOfAll] at hlv
    have hlk : ∀ i ∈ leavesOf k, i < stmts.length := fun i hi => hlv i (by simp [hi])
    have hlks : ∀ i ∈ stmtsOfAll ks, i < stmts.length := fun i hi => hlv i (by simp [hi])
    have hget : tab.get tag = .ok (tab.offset tag) := by
      unfold Table.get
      rw [if_pos]
      unfold inTable
      simp only [Bool.and_eq_true, decide_eq_true_eq]
      omega
    have ho' := ho tag
    have hd1 := deepest_nonneg ho k
    have hd2 := deepestOf_nonneg ho ks
    have hadd : intAdd cur (tab.offset tag) = .ok (cur + tab.offset tag) := by
      unfold intAdd
      rw [if_pos (by omega)]
    rw [indentNode]
    split
    · rename_i hb
      rw [beginEnd_iff] at hb
      rw [if_neg (by simp [hk3 hb])]
      obtain ⟨r, h1, h2⟩ := indentNode_defined ho hc hs k cur ls hk4 hok2 hlk h0 (by omega) hl
      obtain ⟨q, h3, h4⟩ := indentTail_defined ho hc hs ks (cur + tab.offset tag) cur r.1 hk5 hok3 hlks (by omega) h0 (by omega)
        (by omega) h2
      refine ⟨(q.1, r.2 || q.2), ?_, h4⟩
      simp only [h1, Res.ok_bind, hget, hadd, h3]
    · obtain ⟨r, h1, h2⟩ := indentNode_defined ho hc hs k (cur + tab.offset tag) ls hk4 hok2 hlk (by omega) (by omega) hl
      obtain ⟨q, h3, h4⟩ := indentAll_defined ho hc hs ks (cur + tab.offset tag) r.1 hk5 hok3 hlks (by omega) (by omega) h2
      refine ⟨(q.1, r.2 || q.2), ?_, h4⟩
      simp only [hget, Res.ok_bind, hadd, h1, h3]
theorem indentAll_defined {tab : Table} {stmts : List LLStmt} {N : Nat} (ho : ∀ tag, 0 ≤ tab.offset tag) (hc : 0 ≤ tab.continued)
    (hs : ∀ s ∈ stmts, HasLines N s) : ∀ (ks : List PNode) (cur : Int) (ls : List LLine), KnownAll ks → TreesOk ks →
    (∀ i ∈ stmtsOfAll ks, i < stmts.length) → 0 ≤ cur → cur + deepestOf tab.offset ks + tab.continued ≤ 2147483647 → AllMovable N ls →
    ∃ r, indentAll tab stmts ks cur ls = .ok r ∧ AllMovable N r.1
  | [], cur, ls, _, _, _, _, _, hl => by rw [indentAll]; exact ⟨_, rfl, hl⟩
  | k :: ks, cur, ls, hk, hok, hlv, h0, hd, hl => by
    rw [KnownAll] at hk
    rw [TreesOk] at hok
    rw [deepestOf] at hd
    rw [stmtsOfAll] at hlv
    obtain ⟨r, h1, h2⟩ := indentNode_defined ho hc hs k cur ls hk.1 hok.2.1 (fun i hi => hlv i (by simp [hi])) h0 (by omega) hl
    obtain ⟨q, h3, h4⟩ := indentAll_defined ho hc hs ks cur r.1 hk.2 hok.2.2 (fun i hi => hlv i (by simp [hi])) h0 (by omega) h2
    refine ⟨(q.1, r.2 || q.2), ?_, h4⟩
    rw [indentAll]
    simp only [h1, Res.ok_bind, h3]
theorem indentTail_defined {tab : Table} {stmts : List LLStmt} {N : Nat} (ho : ∀ tag, 0 ≤ tab.offset tag) (hc : 0 ≤ tab.continued)
    (hs : ∀ s ∈ stmts, HasLines N s) : ∀ (ks : List PNode) (mid cur : Int) (ls : List LLine), KnownAll ks → TreesOk ks →
    (∀ i ∈ stmtsOfAll ks, i < stmts.length) → 0 ≤ mid → 0 ≤ cur → mid + deepestOf tab.offset ks + tab.continued ≤ 2147483647 →
    cur + deepestOf tab.offset ks + tab.continued ≤ 2147483647 → AllMovable N ls →
    ∃ r, indentTail tab stmts ks mid cur ls = .ok r ∧ AllMovable N r.1
  | [], _, cur, ls, _, _, _, _, _, _, _, hl => by rw [indentTail]; exact ⟨_, rfl, hl⟩
  | k :: ks, mid, cur, ls, hk, hok, hlv, hm, h0, hdm, hd, hl => by
    rw [KnownAll] at hk
    rw [TreesOk] at hok
    rw [deepestOf] at hd hdm
    rw [stmtsOfAll] at hlv
    obtain ⟨r, h1, h2⟩ := indentNode_defined ho hc hs k (if ks.isEmpty then cur else mid) ls hk.1 hok.2.1
      (fun i hi => hlv i (by simp [hi])) (by split <;> omega) (by split <;> omega) hl
    obtain ⟨q, h3, h4⟩ := indentTail_defined ho hc hs ks mid cur r.1 hk.2 hok.2.2 (fun i hi => hlv i (by simp [hi])) hm h0
      (by omega) (by omega) h2
    refine ⟨(q.1, r.2 || q.2), ?_, h4⟩
    rw [indentTail]
    simp only [h1, Res.ok_bind, h3]
end

/-! ### The lines of the statements of a file -/

theorem lineStmts_later (i : Nat) : ∀ (rs : List (Nat × Nat)) (label c : Int), 2 ≤ c → (lineStmts i label c [] rs).flatMap linesOf = []
  | [], _, _, _ => rfl
  | r :: rs, label, c, hc => by
    rw [lineStmts, List.flatMap_cons, linesOf]
    dsimp only
    rw [if_neg (by omega), List.nil_append]
    exact lineStmts_later i rs 0 (c + 1) (by omega)

theorem lineStmts_lines (i : Nat) (label : Int) (pre : List Nat) (rs : List (Nat × Nat)) (h : rs ≠ []) :
    (lineStmts i label (if rs.length > 1 then 1 else 0) pre rs).flatMap linesOf = pre ++ [i] := by
  cases rs with
  | nil => exact absurd rfl h
  | cons r rs =>
    rw [lineStmts, List.flatMap_cons, linesOf]
    dsimp only
    rw [if_pos (by split <;> omega)]
    cases rs with
    | nil => simp [lineStmts]
    | cons r' rs => rw [lineStmts_later i (r' :: rs) 0 _ (by simp)]; simp

theorem stmtsFrom_lines : ∀ (ls : List LLine) (pre : List Nat) (i : Nat),
    ((stmtsFrom pre i ls).flatMap linesOf).Sublist (pre ++ List.range' i ls.length)
  | [], pre, i => by simp [stmtsFrom]
  | l :: ls, pre, i => by
    rw [stmtsFrom]
    rw [List.length_cons, List.range'_succ]
    split
    · refine (stmtsFrom_lines ls _ (i + 1)).trans ?_
      split
      · exact List.Sublist.append (List.Sublist.refl _) (List.sublist_cons_self _ _)
      · rw [List.append_assoc]; exact List.Sublist.refl _
    · rename_i hne
      rw [List.flatMap_append, lineStmts_lines _ _ _ _ hne, List.append_assoc]
      refine List.Sublist.append (List.Sublist.refl _) ?_
      exact List.Sublist.cons_cons _ (stmtsFrom_lines ls [] (i + 1))

theorem stmtsOf_from (lines : List LLine) : stmtsOf lines = stmtsFrom [] 0 lines := by
  have h := stmtsFrom_eq lines 0 lines rfl
  have h0 : prefixOf lines 0 = [] := rfl
  rw [h0] at h
  rw [h]
  rfl

/-- No line belongs to two statements. -/
theorem stmtsOf_nodup (lines : List LLine) : ((stmtsOf lines).flatMap linesOf).Nodup := by
  rw [stmtsOf_from]
  have := stmtsFrom_lines lines [] 0
  exact this.nodup (by simpa using List.nodup_range')

theorem stmtsOf_hasLines (lines : List LLine) : ∀ s ∈ stmtsOf lines, HasLines lines.length s := by
  intro s hs hc
  have hsub : ∀ j ∈ linesOf s, j < lines.length := by
    intro j hj
    have h1 : j ∈ (stmtsOf lines).flatMap linesOf := List.mem_flatMap.mpr ⟨s, hs, hj⟩
    rw [stmtsOf_from] at h1
    have := (stmtsFrom_lines lines [] 0).subset h1
    simp [List.mem_range'] at this
    omega
  unfold linesOf at hsub
  rw [if_pos hc] at hsub
  unfold stmtsOf at hs
  simp only [List.mem_flatMap, List.mem_map] at hs
  obtain ⟨li, _, rj, _, rfl⟩ := hs
  exact ⟨⟨li.2, rfl, hsub li.2 (by simp)⟩, fun j hj => hsub j (List.mem_append.mpr (.inl hj))⟩

end Ind
end FLPR
