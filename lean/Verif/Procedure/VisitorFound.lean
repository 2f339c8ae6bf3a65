import Verif.Procedure.VisitorProps
/-!
# C66: what the visitor finds (src/flpr/Procedure_Visitor.hh)
-/

namespace FLPR
namespace Vis
open PP Spec Proc
open SP (R Exts)

variable {σ : Type}

/-- The procedure `f` is at the place `q` below `t`, which itself is at `p`, in `d` procedures. -/
def Here (p : List Nat) (d : Nat) (m : Bool) (t : PNode) (f : Found) (q : List Nat) : Prop :=
  ∃ n, f.path = p ++ q ∧ nodeAt t q = some n ∧ n.tag ∈ procTags ∧ f.depth = d + around (above t q) ∧
    f.inModule = (m || inside (above t q))

theorem disjoint_tags {t : Int} (h : t ∈ procTags) : t ∉ moduleTags := by
  simp only [procTags, List.mem_cons, List.not_mem_nil, or_false] at h
  rcases h with rfl | rfl | rfl | rfl <;> decide

theorem here_cons {p : List Nat} {d : Nat} {m : Bool} {t : Int} {r : _} {c : Option Nat} {ks : List PNode} {f : Found} {i : Nat}
    {q : List Nat} {k : PNode} (hk : ks[i]? = some k) : Here p d m (.node t r c ks) f (i :: q) ↔
      Here (p ++ [i]) (if t ∈ procTags then d + 1 else d) (m || decide (t ∈ moduleTags)) k f q := by
  have e1 : nodeAt (.node t r c ks) (i :: q) = nodeAt k q := by rw [nodeAt]; simp only [PNode.kids, hk]
  have e2 : above (.node t r c ks) (i :: q) = t :: above k q := by rw [above]; simp only [PNode.kids, PNode.tag, hk]
  have e3 : d + around (t :: above k q) = (if t ∈ procTags then d + 1 else d) + around (above k q) := by
    by_cases h : t ∈ procTags
    · simp [around, h]; omega
    · simp [around, h]
  unfold Here
  rw [e1, e2, e3]
  simp [inside, Bool.or_assoc]

theorem here_out {p : List Nat} {d : Nat} {m : Bool} {t : Int} {r : _} {c : Option Nat} {ks : List PNode} {f : Found} {i : Nat}
    {q : List Nat} (hk : ks[i]? = none) : ¬ Here p d m (.node t r c ks) f (i :: q) := by
  rintro ⟨n, _, h, _⟩
  rw [nodeAt] at h
  simp [PNode.kids, hk] at h

mutual
theorem mem_procsIn : ∀ (t : PNode) (p : List Nat) (d : Nat) (m : Bool) (f : Found),
    f ∈ procsIn p d m t ↔ ∃ q, Here p d m t f q
  | .node t r c ks, p, d, m, f => by
    have hnil : Here p d m (.node t r c ks) f [] ↔ t ∈ procTags ∧ f = ⟨p, d, m⟩ := by
      unfold Here
      obtain ⟨a, b, e⟩ := f
      simp [nodeAt, above, PNode.tag, around, inside]
      constructor
      · rintro ⟨rfl, h, rfl, rfl⟩; exact ⟨h, rfl, rfl, rfl⟩
      · rintro ⟨h, rfl, rfl, rfl⟩; exact ⟨rfl, h, rfl, rfl⟩
    have hsplit : (∃ q, Here p d m (.node t r c ks) f q) ↔ (t ∈ procTags ∧ f = ⟨p, d, m⟩) ∨
        ∃ (j : Nat) (k : PNode) (q : List Nat), ks[j]? = some k ∧
          Here (p ++ [0 + j]) (if t ∈ procTags then d + 1 else d) (m || decide (t ∈ moduleTags)) k f q := by
      constructor
      · rintro ⟨q, hq⟩
        cases q with
        | nil => exact .inl (hnil.mp hq)
        | cons i q =>
          cases hk : ks[i]? with
          | none => exact absurd hq (here_out hk)
          | some k => exact .inr ⟨i, k, q, hk, by rw [Nat.zero_add]; exact (here_cons hk).mp hq⟩
      · rintro (h | ⟨j, k, q, hk, hq⟩)
        · exact ⟨[], hnil.mpr h⟩
        · rw [Nat.zero_add] at hq
          exact ⟨j :: q, (here_cons hk).mpr hq⟩
    rw [hsplit, ← mem_procsInAll ks p 0 _ _ f, procsIn]
    by_cases h : t ∈ procTags
    · simp [h, disjoint_tags h]
    · simp [h]
theorem mem_procsInAll : ∀ (ks : List PNode) (p : List Nat) (i d : Nat) (m : Bool) (f : Found),
    f ∈ procsInAll p i d m ks ↔ ∃ (j : Nat) (k : PNode) (q : List Nat), ks[j]? = some k ∧ Here (p ++ [i + j]) d m k f q
  | [], p, i, d, m, f => by simp [procsInAll]
  | k :: ks, p, i, d, m, f => by
    rw [procsInAll, List.mem_append, mem_procsIn k, mem_procsInAll ks]
    constructor
    · rintro (⟨q, h⟩ | ⟨j, k', q, h1, h2⟩)
      · exact ⟨0, k, q, rfl, h⟩
      · exact ⟨j + 1, k', q, h1, by rw [show i + (j + 1) = i + 1 + j by omega]; exact h2⟩
    · rintro ⟨j, k', q, h1, h2⟩
      cases j with
      | zero => cases h1; exact .inl ⟨q, h2⟩
      | succ j => exact .inr ⟨j, k', q, h1, by rw [show i + 1 + j = i + (j + 1) by omega]; exact h2⟩
end

theorem lt_append (p : List Nat) {a b : List Nat} (h : a < b) : p ++ a < p ++ b := by
  induction p with
  | nil => exact h
  | cons x p ih => exact List.cons_lt_cons_iff.mpr (.inr ⟨rfl, ih⟩)

mutual
theorem procsIn_order : ∀ (t : PNode) (p : List Nat) (d : Nat) (m : Bool), (procsIn p d m t).Pairwise (fun a b => a.path < b.path)
  | .node t r c ks, p, d, m => by
    rw [procsIn]
    split
    · refine List.pairwise_cons.mpr ⟨fun f hf => ?_, procsInAll_order ks p 0 _ _⟩
      obtain ⟨j, k, q, _, n, h, _⟩ := (mem_procsInAll ks p 0 _ _ f).mp hf
      rw [h, List.append_assoc]
      have := lt_append p (a := []) (b := [0 + j] ++ q) (List.nil_lt_cons _ _)
      rwa [List.append_nil] at this
    · exact procsInAll_order ks p 0 _ _
theorem procsInAll_order : ∀ (ks : List PNode) (p : List Nat) (i d : Nat) (m : Bool),
    (procsInAll p i d m ks).Pairwise (fun a b => a.path < b.path)
  | [], p, i, d, m => by rw [procsInAll]; exact .nil
  | k :: ks, p, i, d, m => by
    rw [procsInAll]
    refine List.pairwise_append.mpr ⟨procsIn_order k _ _ _, procsInAll_order ks _ _ _ _, fun a ha b hb => ?_⟩
    obtain ⟨q, n, h, _⟩ := (mem_procsIn k _ _ _ a).mp ha
    obtain ⟨j, k', q', _, n', h', _⟩ := (mem_procsInAll ks p _ _ _ b).mp hb
    rw [h, h', List.append_assoc, List.append_assoc]
    exact lt_append p (List.cons_lt_cons_iff.mpr (.inl (by omega)))
end

/-- C66: the procedures of a tree are the nodes with the tags of procedures, with the number of procedures
and whether there is a module above them; they are in the order of their places, so none is there twice. -/
theorem C66_found (t : PNode) :
    (∀ f, f ∈ procsOf t ↔ (∃ n, nodeAt t f.path = some n ∧ n.tag ∈ procTags) ∧ f.depth = around (above t f.path) ∧
      f.inModule = inside (above t f.path)) ∧ (procsOf t).Pairwise (fun a b => a.path < b.path) := by
  refine ⟨fun f => ?_, procsIn_order t _ _ _⟩
  rw [procsOf, mem_procsIn]
  constructor
  · rintro ⟨q, n, h1, h2, h3, h4, h5⟩
    rw [List.nil_append] at h1
    subst h1
    exact ⟨⟨n, h2, h3⟩, by simpa using h4, by simpa using h5⟩
  · rintro ⟨⟨n, h2, h3⟩, h4, h5⟩
    exact ⟨f.path, n, rfl, h2, h3, by simpa using h4, by simpa using h5⟩

mutual
theorem nodeAt_mem : ∀ (t : PNode) (q : List Nat) (n : PNode), nodeAt t q = some n → n ∈ nodesOf t
  | .node t r c ks, [], n, h => by cases h; rw [nodesOf]; exact List.mem_cons_self ..
  | .node t r c ks, i :: q, n, h => by
    rw [nodeAt] at h
    rw [nodesOf]
    exact List.mem_cons_of_mem _ (nodeAt_memAll ks i q n h)
theorem nodeAt_memAll : ∀ (ks : List PNode) (i : Nat) (q : List Nat) (n : PNode),
    (match ks[i]? with
      | some k => nodeAt k q
      | none => none) = some n → n ∈ nodesOfAll ks
  | [], i, q, n, h => by simp at h
  | k :: ks, 0, q, n, h => by
    rw [nodesOfAll]
    exact List.mem_append_left _ (nodeAt_mem k q n h)
  | k :: ks, i + 1, q, n, h => by
    rw [nodesOfAll]
    exact List.mem_append_right _ (nodeAt_memAll ks i q n h)
end

/-- C66: if no procedure is inside of two others, the action is called for all of them.  Missing: the
procedures inside of two others, which are left out (`C66_violation`). -/
theorem C66_all_partial (x : Exts) (hx : x.Forward) (hn : NeedToken x) (s : PState) (hs : Full s) (o : POut)
    (h : PReturns x .program s (.ok o)) (ho : o.ok = true) (t : PNode) (ht : o.tree = some t)
    (hd : ∀ p n, nodeAt t p = some n → n.tag ∈ procTags → around (above t p) < 2) (act : Act σ) (a : σ) :
    visit act (some t) a = callAll act (procsOf t) (a, false) := by
  rw [C66_visit x hx hn s hs o h ho t ht act a, List.filter_eq_self.mpr]
  intro f hf
  obtain ⟨⟨n, h1, h2⟩, h3, _⟩ := ((C66_found t).1 f).mp hf
  rw [h3]
  exact decide_eq_true (hd _ n h1 h2)

/-- What an action is called with. -/
abbrev Called := List Nat × Bool × Bool

/-- An action that notes what it is called with, and answers as `g` says. -/
def note (g : Called → Bool) : Act (List Called) := fun l p i m => .ok (l ++ [(p, i, m)], g (p, i, m))

theorem callAll_note (g : Called → Bool) : ∀ (fs : List Found) (l : List Called) (b : Bool),
    callAll (note g) fs (l, b) =
      .ok (l ++ fs.map (fun f => (f.path, decide (0 < f.depth), f.inModule)),
        b || fs.any (fun f => g (f.path, decide (0 < f.depth), f.inModule)))
  | [], l, b => by simp [callAll]
  | f :: fs, l, b => by
    rw [callAll]
    simp only [note, Res.ok_bind]
    rw [callAll_note g fs]
    simp [Bool.or_assoc]

/-- C66: what the action is called with, in order, and what `visit` returns, for an action that does
not throw. -/
theorem C66_calls (x : Exts) (hx : x.Forward) (hn : NeedToken x) (s : PState) (hs : Full s) (o : POut)
    (h : PReturns x .program s (.ok o)) (ho : o.ok = true) (t : PNode) (ht : o.tree = some t) (g : Called → Bool) :
    ∃ l, visit (note g) (some t) [] = .ok (l, l.any g) ∧ l.Pairwise (fun a b => a.1 < b.1) ∧
      ∀ p i m, (p, i, m) ∈ l ↔ (∃ n, nodeAt t p = some n ∧ n.tag ∈ procTags) ∧ around (above t p) < 2 ∧
        i = decide (0 < around (above t p)) ∧ m = inside (above t p) := by
  refine ⟨((procsOf t).filter (fun f => decide (f.depth < 2))).map (fun f => (f.path, decide (0 < f.depth), f.inModule)), ?_, ?_, ?_⟩
  · rw [C66_visit x hx hn s hs o h ho t ht, callAll_note]
    simp [List.any_map, Function.comp_def]
  · exact List.pairwise_map.mpr ((C66_found t).2.filter _)
  · intro p i m
    simp only [List.mem_map, List.mem_filter, decide_eq_true_eq]
    constructor
    · rintro ⟨f, ⟨h1, h2⟩, h3⟩
      obtain ⟨k1, k2, k3⟩ := ((C66_found t).1 f).mp h1
      injection h3 with e1 h3
      injection h3 with e2 e3
      subst e1 e2 e3
      rw [k2] at h2 ⊢
      exact ⟨k1, h2, rfl, k3⟩
    · rintro ⟨h1, h2, rfl, rfl⟩
      exact ⟨⟨p, around (above t p), inside (above t p)⟩, ⟨((C66_found t).1 _).mpr ⟨h1, rfl, rfl⟩, h2⟩, rfl⟩

/-- C66: what the action is called for is the tree of a procedure, so that `ingest` takes it (see
`C41_parsed_partial` for the two exceptions). -/
theorem C66_ingest_partial (x : Exts) (hx : x.Forward) (hn : NeedToken x) (s : PState) (hs : Full s) (o : POut)
    (h : PReturns x .program s (.ok o)) (ho : o.ok = true) (t : PNode) (ht : o.tree = some t) (f : Found) (hf : f ∈ procsOf t) :
    ∃ n, nodeAt t f.path = some n ∧ IsProc n ∧ (((regionNodes n).flatMap stmtsUnder).Nodup →
      n.tag ≠ Tag.PG_MAIN_PROGRAM ∨ 2 ≤ (stmtsUnder n).length →
        ∃ p0 p, make = .ok p0 ∧ ingest p0 n = .ok (true, p) ∧ Ingested s.stmts.length n p) := by
  obtain ⟨⟨n, h1, h2⟩, _⟩ := ((C66_found t).1 f).mp hf
  exact ⟨n, h1, C41_parsed_partial x hx hn .program s hs o h ho t ht n (nodeAt_mem t _ n h1) h2⟩

/-- C66: on an empty tree nothing is called. -/
theorem C66_empty (act : Act σ) (a : σ) : visit act none a = .ok (a, false) := rfl

/-- `contains` -/
def xContains : LStmt := xstmt 0 [xtok Tag.KW_CONTAINS]
/-- `module m` -/
def xModule : LStmt := xstmt 0 [xtok Tag.KW_MODULE, xtok Tag.TK_NAME]
/-- `end module` -/
def xEndModule : LStmt := xstmt 0 [xtok Tag.KW_END, xtok Tag.KW_MODULE]

/-- A test of the notes. -/
def noted (t : PNode) (q : List (Bool × Bool)) : Bool :=
  match visit (note (fun c => c.2.1)) (some t) [] with
  | .ok (l, b) => (l.map (·.2) == q) && b == l.any (·.2.1)
  | .error _ => false

/-- A module with a subroutine that has one of its own, then a subroutine: three calls. -/
example : ∃ o t, PReturns noExts .program (xstate [xModule, xContains, xSub, xContains, xSub, xEnd, xEnd, xEndModule, xSub, xEnd]) (.ok o) ∧
    o.ok = true ∧ o.tree = some t ∧ (procsOf t).map (fun f => (f.depth, f.inModule)) = [(0, true), (1, true), (0, false)] ∧
    noted t [(false, true), (true, true), (false, false)] = true := by
  obtain ⟨o, h1, h2⟩ := returns_of (x := noExts) (r := .program)
    (s := xstate [xModule, xContains, xSub, xContains, xSub, xEnd, xEnd, xEndModule, xSub, xEnd])
    (q := fun o => o.ok && o.tree.any (fun t => ((procsOf t).map (fun f => (f.depth, f.inModule)) == [(0, true), (1, true), (0, false)]) &&
      noted t [(false, true), (true, true), (false, false)])) 40 (by decide +kernel)
  simp only [Bool.and_eq_true, beq_iff_eq, Option.any_eq_true] at h2
  obtain ⟨h2, t, h3, h4, h5⟩ := h2
  exact ⟨o, t, h1, h2, h3, h4, h5⟩

/-- C66 fails for a procedure inside of two others: the parser takes
`subroutine; contains; subroutine; contains; subroutine; end; end; end`, and there is no call for the third. -/
theorem C66_violation : ∃ o t, PReturns noExts .program
      (xstate [xSub, xContains, xSub, xContains, xSub, xEnd, xEnd, xEnd]) (.ok o) ∧
    o.ok = true ∧ o.tree = some t ∧ (procsOf t).map (fun f => (f.depth, f.inModule)) = [(0, false), (1, false), (2, false)] ∧
    noted t [(false, false), (true, false)] = true := by
  obtain ⟨o, h1, h2⟩ := returns_of (x := noExts) (r := .program) (s := xstate [xSub, xContains, xSub, xContains, xSub, xEnd, xEnd, xEnd])
    (q := fun o => o.ok && o.tree.any (fun t => ((procsOf t).map (fun f => (f.depth, f.inModule)) == [(0, false), (1, false), (2, false)]) &&
      noted t [(false, false), (true, false)])) 40 (by decide +kernel)
  simp only [Bool.and_eq_true, beq_iff_eq, Option.any_eq_true] at h2
  obtain ⟨h2, t, h3, h4, h5⟩ := h2
  exact ⟨o, t, h1, h2, h3, h4, h5⟩

/-- C66 fails for a submodule: its first branch is its own statement and not `module`, for which an assertion fails.
(The program parser does not know submodules.) -/
theorem C66_violation_submodule (act : Act σ) (p : Path) (n k : PNode) (ks : List PNode) (a : σ) (hn : n.tag = Tag.PG_SUBMODULE)
    (hk : n.kids = k :: ks) (ht : k.tag ≠ Tag.SG_MODULE_STMT) : visitUnit act p n a = .error .assertion := by
  have e1 : n.tag ≠ Tag.PG_EXTERNAL_SUBPROGRAM := by rw [hn]; decide
  have e2 : n.tag ≠ Tag.PG_MODULE := by rw [hn]; decide
  have e3 : n.tag ≠ Tag.PG_MAIN_PROGRAM := by rw [hn]; decide
  rw [visitUnit, if_neg e1, if_neg e2, if_neg e3, if_pos hn, visitModule, down, hk]
  simp only [Res.ok_bind, if_neg ht]

/-- Such a node. -/
example : visitUnit (σ := Nat) (fun a _ _ _ => .ok (a, false)) [] (.node Tag.PG_SUBMODULE none none [.node Tag.SG_SUBMODULE_STMT none (some 0) []]) 0 =
    .error .assertion :=
  C66_violation_submodule _ _ _ _ _ _ rfl rfl (by decide)


end Vis
end FLPR
