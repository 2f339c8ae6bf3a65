import Verif.ParsedFile.Spec
import Verif.Program.Props
/-!
# Lemmas for `Parsed_File`
-/

namespace FLPR
namespace PF
open PP Spec
open SP (Exts)

/-! ### The hooks -/

mutual
/-- The leaves that are statements, with their statements. -/
def leafList : PNode → List (List Nat × Nat)
  | .node _ _ (some i) [] => [([], i)]
  | .node _ _ none [] => []
  | .node _ _ _ (k :: ks) => (leafList k).map (fun x => (0 :: x.1, x.2)) ++ leafListFrom 1 ks
def leafListFrom (i : Nat) : List PNode → List (List Nat × Nat)
  | [] => []
  | k :: ks => (leafList k).map (fun x => (i :: x.1, x.2)) ++ leafListFrom (i + 1) ks
end

/-- The hooks set for some leaves below `p`. -/
def setAll (p : List Nat) (h : Hooks) (l : List (List Nat × Nat)) : Hooks := l.foldl (fun h x => setHook h x.2 (p ++ x.1)) h

theorem setAll_append (p : List Nat) (h : Hooks) (a b : List (List Nat × Nat)) : setAll p h (a ++ b) = setAll p (setAll p h a) b :=
  List.foldl_append

theorem setAll_map (p : List Nat) (h : Hooks) (i : Nat) (l : List (List Nat × Nat)) :
    setAll p h (l.map (fun x => (i :: x.1, x.2))) = setAll (p ++ [i]) h l := by
  unfold setAll
  rw [List.foldl_map]
  congr
  funext h x
  simp

mutual
theorem link_leaves : ∀ (t : PNode) (p : List Nat) (h : Hooks), link p t h = setAll p h (leafList t)
  | .node _ _ (some i) [], p, h => by rw [link, leafList]; simp [setAll]
  | .node _ _ none [], p, h => by rw [link, leafList]; rfl
  | .node _ _ (some _) (k :: ks), p, h => by
    rw [link, leafList, setAll_append, setAll_map, ← link_leaves k, linkAll_leaves ks]
  | .node _ _ none (k :: ks), p, h => by
    rw [link, leafList, setAll_append, setAll_map, ← link_leaves k, linkAll_leaves ks]
theorem linkAll_leaves : ∀ (ks : List PNode) (p : List Nat) (i : Nat) (h : Hooks), linkAll p i ks h = setAll p h (leafListFrom i ks)
  | [], p, i, h => by rw [linkAll, leafListFrom]; rfl
  | k :: ks, p, i, h => by
    rw [linkAll, leafListFrom, setAll_append, setAll_map, ← link_leaves k, linkAll_leaves ks]
end

mutual
theorem leafPaths_list : ∀ (t : PNode), leafPaths t = (leafList t).map (·.1)
  | .node _ _ (some i) [] => by rw [leafPaths, leafList]; rfl
  | .node _ _ none [] => by rw [leafPaths, leafList]; rfl
  | .node _ _ (some _) (k :: ks) => by
    rw [leafPaths, leafList, leafPaths_list k, leafPathsFrom_list ks]
    simp [Function.comp_def]
  | .node _ _ none (k :: ks) => by
    rw [leafPaths, leafList, leafPaths_list k, leafPathsFrom_list ks]
    simp [Function.comp_def]
theorem leafPathsFrom_list : ∀ (ks : List PNode) (i : Nat), leafPathsFrom i ks = (leafListFrom i ks).map (·.1)
  | [], i => by rw [leafPathsFrom, leafListFrom]; rfl
  | k :: ks, i => by
    rw [leafPathsFrom, leafListFrom, leafPaths_list k, leafPathsFrom_list ks]
    simp [Function.comp_def]
end

mutual
theorem leafList_node : ∀ (t : PNode), ∀ x ∈ leafList t, ∃ n, nodeAt t x.1 = some n ∧ n.stmt = some x.2 ∧ n.kids = []
  | .node a b (some i) [], x, hx => by
    rw [leafList] at hx
    simp only [List.mem_singleton] at hx
    subst hx
    exact ⟨_, rfl, rfl, rfl⟩
  | .node _ _ none [], x, hx => by rw [leafList] at hx; cases hx
  | .node a b (some c) (k :: ks), x, hx => by
    rw [leafList] at hx
    rcases List.mem_append.mp hx with hx | hx
    · obtain ⟨y, hy, rfl⟩ := List.mem_map.mp hx
      exact leafList_node k y hy
    · obtain ⟨j, y, k', h1, h2, h3⟩ := leafListFrom_node ks 1 x hx
      subst h2
      obtain ⟨n, e1, e2⟩ := h3
      refine ⟨n, ?_, e2⟩
      rw [nodeAt, show (PNode.node a b (some c) (k :: ks)).kids = k :: ks from rfl, Nat.add_comm, List.getElem?_cons_succ, h1]
      exact e1
  | .node a b none (k :: ks), x, hx => by
    rw [leafList] at hx
    rcases List.mem_append.mp hx with hx | hx
    · obtain ⟨y, hy, rfl⟩ := List.mem_map.mp hx
      exact leafList_node k y hy
    · obtain ⟨j, y, k', h1, h2, h3⟩ := leafListFrom_node ks 1 x hx
      subst h2
      obtain ⟨n, e1, e2⟩ := h3
      refine ⟨n, ?_, e2⟩
      rw [nodeAt, show (PNode.node a b none (k :: ks)).kids = k :: ks from rfl, Nat.add_comm, List.getElem?_cons_succ, h1]
      exact e1
theorem leafListFrom_node : ∀ (ks : List PNode) (i : Nat), ∀ x ∈ leafListFrom i ks, ∃ (j : Nat) (y : List Nat × Nat) (k : PNode),
    ks[j]? = some k ∧ x = ((i + j) :: y.1, y.2) ∧ ∃ n, nodeAt k y.1 = some n ∧ n.stmt = some y.2 ∧ n.kids = []
  | [], i, x, hx => by rw [leafListFrom] at hx; cases hx
  | k :: ks, i, x, hx => by
    rw [leafListFrom] at hx
    rcases List.mem_append.mp hx with hx | hx
    · obtain ⟨y, hy, rfl⟩ := List.mem_map.mp hx
      exact ⟨0, y, k, rfl, rfl, leafList_node k y hy⟩
    · obtain ⟨j, y, k', h1, h2, h3⟩ := leafListFrom_node ks (i + 1) x hx
      exact ⟨j + 1, y, k', h1, by rw [h2, Nat.add_right_comm, Nat.add_assoc], h3⟩
end

mutual
theorem leafList_stmts : ∀ (t : PNode), TreeOk t → (leafList t).map (·.2) = leavesOf t
  | .node _ _ (some i) [], _ => by rw [leafList, leavesOf]; rfl
  | .node _ _ none [], _ => by rw [leafList, leavesOf]; rfl
  | .node _ _ (some _) (k :: ks), h => by
    rw [TreeOk] at h
    exact absurd (h.2.1 rfl) (by simp)
  | .node _ _ none (k :: ks), h => by
    rw [TreeOk, TreesOk] at h
    rw [leafList, leavesOf, stmtsOfAll, ← leafList_stmts k h.2.2.2.1, ← leafListFrom_stmts ks 1 h.2.2.2.2]
    simp [Function.comp_def]
theorem leafListFrom_stmts : ∀ (ks : List PNode) (i : Nat), TreesOk ks → (leafListFrom i ks).map (·.2) = stmtsOfAll ks
  | [], i, _ => by rw [leafListFrom, stmtsOfAll]; rfl
  | k :: ks, i, h => by
    rw [TreesOk] at h
    rw [leafListFrom, stmtsOfAll, ← leafList_stmts k h.2.1, ← leafListFrom_stmts ks (i + 1) h.2.2]
    simp [Function.comp_def]
end

theorem lastLeaf_list (t : PNode) (i : Nat) :
    lastLeaf (some t) i = (((leafList t).filter (fun x => decide (x.2 = i))).getLast?).map (·.1) := by
  show ((leafPaths t).filter _).getLast? = _
  rw [leafPaths_list, List.filter_map, List.getLast?_map]
  congr 2
  refine List.filter_congr fun x hx => ?_
  obtain ⟨n, h1, h2, _⟩ := leafList_node t x hx
  simp [h1, h2]

theorem setAll_at (p : List Nat) (i : Nat) (h : Hooks) (l : List (List Nat × Nat)) :
    setAll p h l i = match (l.filter (fun x => decide (x.2 = i))).getLast? with
      | some x => some (p ++ x.1)
      | none => h i := by
  induction l using List.reverseRecOn with
  | nil => rfl
  | append_singleton l x ih =>
    rw [setAll_append, List.filter_append]
    show (if i = x.2 then some (p ++ x.1) else setAll p h l i) = _
    by_cases hx : x.2 = i
    · simp [hx]
    · have hx' : ¬ i = x.2 := fun e => hx e.symm
      simp only [hx', if_false, List.filter_cons, List.filter_nil, hx, decide_false, Bool.false_eq_true, List.append_nil]
      exact ih

theorem link_at (t : PNode) (i : Nat) : link [] t (fun _ => none) i = lastLeaf (some t) i := by
  rw [link_leaves, setAll_at, lastLeaf_list]
  cases ((leafList t).filter (fun x => decide (x.2 = i))).getLast? <;> rfl

/-! ### The program parser -/

theorem stateOf_full (lines : List LLine) (ss : List LLStmt) : Full (stateOf lines ss) := by
  refine ⟨?_, Nat.zero_le _⟩
  simp [stateOf]

end PF
end FLPR
