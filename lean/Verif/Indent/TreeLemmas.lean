import Verif.Indent.LineLemmas
/-!
# Indenting a tree: lemmas
-/

namespace FLPR
namespace Ind
open Spec PP

/-- The lines after the moves, one after the other. -/
inductive Applied (cont : Int) : List (Nat × Int) → List LLine → List LLine → Prop
  | nil {ls} : Applied cont [] ls ls
  | cons {j n ms ls l l' ls'} : 0 ≤ n → ls[j]? = some l → (∃ b, setLine l n cont = .ok (l', b)) → Applied cont ms (ls.set j l') ls' →
      Applied cont ((j, n) :: ms) ls ls'

theorem Applied.append {cont : Int} {a b : List (Nat × Int)} {x y z : List LLine} (h1 : Applied cont a x y) (h2 : Applied cont b y z) :
    Applied cont (a ++ b) x z := by
  induction h1 with
  | nil => exact h2
  | cons h h' h'' _ ih => exact .cons h h' h'' (ih h2)

theorem intAdd_eq {a b c : Int} (h : intAdd a b = .ok c) : c = a + b := by
  unfold intAdd at h
  split at h
  · injection h with h; exact h.symm
  · simp at h

theorem setRest_spec {n : Int} : ∀ {fs : List FileLine} {r : List FileLine × Bool}, setRest n fs = .ok r →
    List.Forall₂ (fun a a' => ∃ b, setLeading a n = .ok (a', b)) fs r.1
  | [], r, h => by
    rw [setRest] at h
    injection h with h
    subst h
    exact .nil
  | f :: fs, r, h => by
    rw [setRest] at h
    rbind h with x hx
    rbind h with xs hxs
    injection h with h
    subst h
    exact .cons ⟨x.2, hx⟩ (setRest_spec hxs)

theorem setLine_spec {l : LLine} {n cont : Int} {r : LLine × Bool} (h : setLine l n cont = .ok r) : IndentedBy cont n l r.1 := by
  unfold setLine at h
  split at h
  · simp at h
  · rename_i f fs hl
    rbind h with x hx
    dsimp only at h
    rbind h with m hm
    rbind h with xs hxs
    injection h with h
    subst h
    refine ⟨rfl, f, x.1, fs, xs.1, hl, rfl, ⟨x.2, hx⟩, ?_⟩
    cases fs with
    | nil => rw [setRest] at hxs; injection hxs with hxs; subst hxs; exact .nil
    | cons a as =>
      have hm' : m = n + if l.hasFortran then cont else 0 := by
        simp only [List.isEmpty_cons, Bool.false_eq_true, if_false] at hm
        exact intAdd_eq hm
      rw [← hm']
      exact setRest_spec hxs

theorem setAt_spec {ls : List LLine} {j : Nat} {n cont : Int} {r : List LLine × Bool} (hn : 0 ≤ n) (h : setAt ls j n cont = .ok r) :
    Applied cont [(j, n)] ls r.1 := by
  unfold setAt at h
  split at h
  · simp at h
  · rename_i l hl
    rbind h with x hx
    injection h with h
    subst h
    exact .cons hn hl ⟨x.2, hx⟩ .nil

theorem setPrefix_spec {n cont : Int} (hn : 0 ≤ n) : ∀ {js : List Nat} {ls : List LLine} {r : List LLine × Bool},
    setPrefix n cont js ls = .ok r → Applied cont (js.map (fun j => (j, n))) ls r.1
  | [], ls, r, h => by
    rw [setPrefix] at h
    injection h with h
    subst h
    exact .nil
  | j :: js, ls, r, h => by
    rw [setPrefix] at h
    rbind h with x hx
    rbind h with xs hxs
    injection h with h
    subst h
    exact (setAt_spec hn hx).append (setPrefix_spec (r := xs) hn hxs)

theorem setStmt_spec {ls : List LLine} {s : LLStmt} {n cont : Int} {r : List LLine × Bool} (h : setStmt ls s n cont = .ok r) :
    Applied cont ((linesOf s).map (fun j => (j, n))) ls r.1 := by
  unfold setStmt at h
  split at h
  · simp at h
  · rename_i hn
    unfold linesOf
    split at h
    · rename_i hc
      rw [if_pos hc]
      rbind h with x hx
      split at h
      · simp at h
      · rename_i j hj
        rbind h with y hy
        injection h with h
        subst h
        rw [hj, List.map_append]
        exact (setPrefix_spec (by omega) hx).append (setAt_spec (r := y) (by omega) hy)
    · rename_i hc
      rw [if_neg hc]
      injection h with h
      subst h
      exact .nil

/-! ### The moves of a tree -/

/-- The moves with a number added to the indentations. -/
def shift (c : Int) (ms : List (Nat × Int)) : List (Nat × Int) := ms.map (fun m => (m.1, c + m.2))

theorem shift_append (c : Int) (a b : List (Nat × Int)) : shift c (a ++ b) = shift c a ++ shift c b := List.map_append

theorem shift_shift (c d : Int) (a : List (Nat × Int)) : shift c (shift d a) = shift (c + d) a := by
  simp only [shift, List.map_map]
  apply List.map_congr_left
  intro m _
  simp [Int.add_assoc]

theorem shift_zero (a : List (Nat × Int)) : shift 0 a = a := by
  simp [shift]

/-- The moves for the branches from number `i` on, of a node with `n` branches. -/
def movesFrom (off : Int → Int) (stmts : List LLStmt) (tag : Int) (n : Nat) : Nat → List PNode → List (Nat × Int)
  | _, [] => []
  | i, k :: ks => shift (addedBy off tag n i) (moves off stmts k) ++ movesFrom off stmts tag n (i + 1) ks

theorem moves_branch (off : Int → Int) (stmts : List LLStmt) (t k : PNode) (i : Nat) (h : t.kids[i]? = some k) :
    ((leafPaths k).map (i :: ·)).flatMap (fun p => (linesAt stmts t p).map (fun j => (j, indentOf off t p))) =
      shift (addedBy off t.tag t.kids.length i) (moves off stmts k) := by
  unfold moves shift
  rw [List.flatMap_map, List.map_flatMap]
  refine congrArg (fun f => List.flatMap f (leafPaths k)) ?_
  funext p
  have h1 : linesAt stmts t (i :: p) = linesAt stmts k p := by
    unfold linesAt
    rw [show nodeAt t (i :: p) = nodeAt k p by rw [nodeAt, h]]
  have h2 : indentOf off t (i :: p) = addedBy off t.tag t.kids.length i + indentOf off k p := by
    rw [indentOf, h]
  rw [h1, List.map_map]
  apply List.map_congr_left
  intro j _
  simp [h2]

theorem moves_from (off : Int → Int) (stmts : List LLStmt) (t : PNode) : ∀ (ks : List PNode) (i : Nat), t.kids.drop i = ks →
    (leafPathsFrom i ks).flatMap (fun p => (linesAt stmts t p).map (fun j => (j, indentOf off t p))) =
      movesFrom off stmts t.tag t.kids.length i ks
  | [], _, _ => by rw [leafPathsFrom, movesFrom]; rfl
  | k :: ks, i, h => by
    rw [leafPathsFrom, movesFrom, List.flatMap_append]
    have hk : t.kids[i]? = some k := by
      have := congrArg List.head? h
      rw [List.head?_drop] at this
      exact this
    rw [moves_branch off stmts t k i hk]
    rw [moves_from off stmts t ks (i + 1) (by rw [← List.drop_drop, h]; rfl)]

theorem moves_node (off : Int → Int) (stmts : List LLStmt) (tag : Int) (r : SP.Rng) (st : Option Nat) (k : PNode) (ks : List PNode) :
    moves off stmts (.node tag r st (k :: ks)) = movesFrom off stmts tag (ks.length + 1) 0 (k :: ks) := by
  have h1 : leafPaths (.node tag r st (k :: ks)) = leafPathsFrom 0 (k :: ks) := by
    cases st <;> rw [leafPaths, leafPathsFrom]
  unfold moves
  rw [h1, moves_from off stmts (.node tag r st (k :: ks)) (k :: ks) 0 rfl]
  rfl

theorem moves_leaf (off : Int → Int) (stmts : List LLStmt) (tag : Int) (r : SP.Rng) (i : Nat) (s : LLStmt) (h : stmts[i]? = some s) :
    moves off stmts (.node tag r (some i) []) = (linesOf s).map (fun j => (j, 0)) := by
  unfold moves
  rw [leafPaths]
  simp [linesAt, nodeAt, h, indentOf]

theorem moves_none (off : Int → Int) (stmts : List LLStmt) (tag : Int) (r : SP.Rng) :
    moves off stmts (.node tag r none []) = [] := by
  unfold moves
  rw [leafPaths]
  rfl

theorem beginEnd_iff (tag : Int) : beginEnd tag = true ↔ tag ∈ endedTags := by
  simp [beginEnd, endedTags, or_assoc]

theorem get_eq {tab : Table} {tag x : Int} (h : tab.get tag = .ok x) : x = tab.offset tag := by
  unfold Table.get at h
  split at h
  · injection h with h; exact h.symm
  · simp at h

mutual
theorem indentNode_spec (tab : Table) (stmts : List LLStmt) : ∀ (t : PNode) (cur : Int) (ls : List LLine) (r : List LLine × Bool),
    indentNode tab stmts t cur ls = .ok r → Applied tab.continued (shift cur (moves tab.offset stmts t)) ls r.1
  | .node tag rg st [], cur, ls, r, h => by
    rw [indentNode] at h
    cases st with
    | none =>
      rw [indentLeaf] at h
      injection h with h
      subst h
      rw [moves_none]
      exact .nil
    | some i =>
      rw [indentLeaf] at h
      rbind h with s hs
      unfold stmtAt at hs
      cases hi : stmts[i]? with
      | none =>
        rw [hi] at hs
        dsimp only at hs
        split at hs
        · injection hs with hs
          subst hs
          simp [setStmt] at h
          split at h
          · simp at h
          · simp [setPrefix] at h
        · simp at hs
      | some s' =>
        rw [hi] at hs
        injection hs with hs
        subst hs
        rw [moves_leaf _ _ _ _ _ _ hi]
        have he : shift cur ((linesOf s').map (fun j => (j, (0 : Int)))) = (linesOf s').map (fun j => (j, cur)) := by
          simp [shift]
        rw [he]
        split at h
        · exact setStmt_spec h
        · rename_i hc
          injection h with h
          subst h
          unfold linesOf
          rw [if_neg hc]
          exact .nil
  | .node tag rg st (k :: ks), cur, ls, r, h => by
    rw [indentNode] at h
    rw [moves_node, movesFrom, shift_append, shift_shift]
    split at h
    · rename_i hb
      rw [beginEnd_iff] at hb
      split at h
      · simp at h
      · rbind h with x hx
        rbind h with y hy
        rbind h with mid hm
        rbind h with z hz
        injection h with h
        subst h
        have hm := intAdd_eq hm
        have hy := get_eq hy
        refine Applied.append (y := x.1) ?_ ?_
        · rw [addedBy, if_pos ⟨hb, .inl rfl⟩, Int.add_zero]
          exact indentNode_spec tab stmts k cur ls x hx
        · exact indentTail_spec tab stmts tag (ks.length + 1) hb ks 1 (by omega) (by omega) cur mid (by rw [hm, hy]) x.1 z hz
    · rename_i hb
      rw [beginEnd_iff] at hb
      rbind h with y hy
      rbind h with c hc
      rbind h with x hx
      rbind h with z hz
      injection h with h
      subst h
      have hc := intAdd_eq hc
      have hy := get_eq hy
      refine Applied.append (y := x.1) ?_ ?_
      · rw [addedBy, if_neg (fun h => hb h.1), ← hy, ← hc]
        exact indentNode_spec tab stmts k c ls x hx
      · exact indentAll_spec tab stmts tag (ks.length + 1) hb ks 1 cur c (by rw [hc, hy]) x.1 z hz
theorem indentAll_spec (tab : Table) (stmts : List LLStmt) (tag : Int) (n : Nat) (hb : tag ∉ endedTags) : ∀ (ks : List PNode) (i : Nat)
    (cur c : Int) (_ : c = cur + tab.offset tag) (ls : List LLine) (r : List LLine × Bool), indentAll tab stmts ks c ls = .ok r →
    Applied tab.continued (shift cur (movesFrom tab.offset stmts tag n i ks)) ls r.1
  | [], _, _, _, _, ls, r, h => by
    rw [indentAll] at h
    injection h with h
    subst h
    exact .nil
  | k :: ks, i, cur, c, hc, ls, r, h => by
    rw [indentAll] at h
    rbind h with x hx
    rbind h with z hz
    injection h with h
    subst h
    rw [movesFrom, shift_append, shift_shift]
    refine Applied.append (y := x.1) ?_ (indentAll_spec tab stmts tag n hb ks (i + 1) cur c hc x.1 z hz)
    rw [addedBy, if_neg (fun h => hb h.1), ← hc]
    exact indentNode_spec tab stmts k c ls x hx
theorem indentTail_spec (tab : Table) (stmts : List LLStmt) (tag : Int) (n : Nat) (hb : tag ∈ endedTags) : ∀ (ks : List PNode) (i : Nat)
    (_ : 0 < i) (_ : i + ks.length = n) (cur mid : Int) (_ : mid = cur + tab.offset tag) (ls : List LLine) (r : List LLine × Bool),
    indentTail tab stmts ks mid cur ls = .ok r → Applied tab.continued (shift cur (movesFrom tab.offset stmts tag n i ks)) ls r.1
  | [], _, _, _, _, _, _, ls, r, h => by
    rw [indentTail] at h
    injection h with h
    subst h
    exact .nil
  | k :: ks, i, hi, hn, cur, mid, hm, ls, r, h => by
    rw [indentTail] at h
    rbind h with x hx
    rbind h with z hz
    injection h with h
    subst h
    rw [movesFrom, shift_append, shift_shift]
    refine Applied.append (y := x.1) ?_ (indentTail_spec tab stmts tag n hb ks (i + 1) (by omega)
      (by simp only [List.length_cons] at hn; omega) cur mid hm x.1 z hz)
    have he : cur + addedBy tab.offset tag n i = if ks.isEmpty then cur else mid := by
      unfold addedBy
      cases ks with
      | nil =>
        rw [if_pos ⟨hb, .inr (by simpa using hn)⟩]; simp
      | cons a as =>
        rw [if_neg, hm]
        · simp
        · rintro ⟨_, h1 | h1⟩
          · omega
          · simp only [List.length_cons] at hn; omega
    rw [he]
    exact indentNode_spec tab stmts k _ ls x hx
end

/-! ### One line -/

theorem Applied.length {cont : Int} {ms : List (Nat × Int)} {ls ls' : List LLine} (h : Applied cont ms ls ls') : ls'.length = ls.length := by
  induction h with
  | nil => rfl
  | cons _ _ _ _ ih => rw [ih, List.length_set]

theorem Applied.nonneg {cont : Int} {ms : List (Nat × Int)} {ls ls' : List LLine} (h : Applied cont ms ls ls') : ∀ m ∈ ms, 0 ≤ m.2 := by
  induction h with
  | nil => simp
  | cons h0 _ _ _ ih =>
    intro m hm
    rcases List.mem_cons.mp hm with rfl | hm
    · exact h0
    · exact ih m hm

theorem Applied.at {cont : Int} {ms : List (Nat × Int)} {ls ls' : List LLine} (h : Applied cont ms ls ls') (j : Nat) (l : LLine)
    (hl : ls[j]? = some l) :
    ∃ l', ls'[j]? = some l' ∧ IndentedByAll cont ((ms.filter (fun m => m.1 == j)).map (·.2)) l l' := by
  induction h generalizing l with
  | nil => exact ⟨l, hl, .nil⟩
  | @cons i n ms ls a a' ls' h0 ha hi _ ih =>
    by_cases hij : i = j
    · subst hij
      rw [ha] at hl
      injection hl with hl
      subst hl
      obtain ⟨l', h1, h2⟩ := ih a' (by
        rw [List.getElem?_set_self]
        exact (List.getElem?_eq_some_iff.mp ha).1)
      refine ⟨l', h1, ?_⟩
      rw [List.filter_cons_of_pos (by simp)]
      obtain ⟨b, hi⟩ := hi
      exact .cons (setLine_spec hi) h2
    · obtain ⟨l', h1, h2⟩ := ih l (by rw [List.getElem?_set_ne hij]; exact hl)
      refine ⟨l', h1, ?_⟩
      rw [List.filter_cons_of_neg (by simpa using hij)]
      exact h2

end Ind
end FLPR
