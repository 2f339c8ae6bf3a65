import Verif.Procedure.Parsed
/-!
# C41 for parsed procedures (src/flpr/Procedure.hh, src/flpr/Prgm_Parsers_impl.hh)
-/

namespace FLPR
namespace Proc
open PP Reg Spec
open SP (R Exts)

/-- `p` is the procedure of the tree `t`, in a file of `N` statements: its regions have the statements of
the branches that belong to them, and the cursor of each is at a node with all of them. -/
def Ingested (N : Nat) (t : PNode) (p : Procd) : Prop :=
  p.tag = t.tag ∧ p.root = some t ∧ p.dirty = false ∧
    Right p.ranges NUM_REGION_TAG (List.range (N + 1)) (regionStmts t) ∧
    ∀ i, i < NUM_REGION_TAG → regionStmts t i ≠ [] → ∃ path n, p.ranges.getTracker i = .ok path ∧
      nodeAt t path = some n ∧ ∀ x ∈ regionStmts t i, x ∈ stmtsUnder n

theorem rootTag_proc (r : R) : r.rootTag ∉ procTags := by
  have := SP.R.forall_of (q := fun r => decide (r.rootTag ∉ procTags)) (by decide +kernel) r
  simpa using this

/-- The shape of a node with the tag of a procedure. -/
theorem parsed_shape {x : Exts} (hx : x.Forward) (hn : NeedToken x) {r : PR} {s : PState} (hs : Full s) {o : POut}
    (h : PReturns x r s (.ok o)) (ho : o.ok = true) {t : PNode} (ht : o.tree = some t) {n : PNode} (hm : n ∈ nodesOf t)
    (hp : n.tag ∈ procTags) : TreeOk n ∧ n.stmt = none ∧ ∃ p0 e,
      e ∈ [Tag.SG_END_FUNCTION_STMT, Tag.SG_END_SUBROUTINE_STMT, Tag.SG_END_PROGRAM_STMT, Tag.SG_END_MP_SUBPROGRAM_STMT] ∧ (n.tag, e) ∈ endPairs ∧
      ProcShape p0 e (Matched x s.stmts) (eraseAll n.kids) ∧
      ∀ first, Derives (Matched x s.stmts) PR.body p0 (eraseAll first) → FirstOk n first := by
  have hd := C65_derives x hx hn r s hs o h ho
  have htree := ((C39_tree_partial x hx hn r s hs o h).2.2.2 t ht).1
  have hL : ∀ r i t, Matched x s.stmts r i t → t = r.rootTag := fun r i t h => C65_leaf_tag h
  have hpr := derives_procs hd (.inl rfl)
  rw [ht] at hpr
  have hn' : TreeOk n ∧ erase n ∈ shsAll (branchesOf (some t)) := by
    refine ⟨(erase_shs t htree n hm).1, ?_⟩
    rw [branchesOf]
    split
    · rename_i hh
      obtain ⟨a, b, c, ks⟩ := t
      simp only [PNode.tag] at hh
      subst hh
      rw [nodesOf] at hm
      rcases List.mem_cons.mp hm with rfl | hm
      · exact absurd hp (show Tag.HOIST ∉ procTags by decide)
      · exact (eraseAll_shs ks (treeOk_kids htree) n hm).2
    · rw [shsAll, shsAll, List.append_nil]
      exact (erase_shs t htree n hm).2
  obtain ⟨hok, hin⟩ := hn'
  have hfrom := hpr _ hin
  cases hst : n.stmt with
  | some i =>
    exfalso
    obtain ⟨a, b, c, ks⟩ := n
    cases hst
    obtain ⟨r', h'⟩ := hfrom
    rw [hL _ _ _ h'] at hp
    exact rootTag_proc r' hp
  | none =>
    have he : erase n = .inner n.tag (eraseAll n.kids) := by
      obtain ⟨a, b, c, ks⟩ := n
      cases hst
      rfl
    rw [he] at hfrom
    obtain ⟨r', p, ps, hr, hb, hseq⟩ := hfrom hp
    refine ⟨hok, rfl, ?_⟩
    have hder : Derives (Matched x s.stmts) PR.body (.rule r') (under n.tag (eraseAll n.kids)) := .comb hb (.seqIf hseq)
    obtain ⟨tag, p0, e, c1, c2, c3, c5, c4⟩ := procRule_cases hL hr
    obtain ⟨k, k1, k2⟩ := proc_shape hL c1 hder
    have htag : tag = n.tag := by
      rw [hb] at c1
      injection c1 with c1
      injection c1 with c1
      exact c1.symm
    subst htag
    rw [under, under, if_neg c2, if_neg c2] at k1
    injection k1 with k1
    injection k1 with _ k1
    rw [← k1] at k2
    exact ⟨p0, _, c3, c5, k2, fun first hf => c4 n first rfl hf⟩

theorem parsed_proc {x : Exts} (hx : x.Forward) (hn : NeedToken x) {r : PR} {s : PState} (hs : Full s) {o : POut}
    (h : PReturns x r s (.ok o)) (ho : o.ok = true) {t : PNode} (ht : o.tree = some t) {n : PNode} (hm : n ∈ nodesOf t)
    (hp : n.tag ∈ procTags) : TreeOk n ∧ n.stmt = none ∧ IsProc n ∧
      ∃ l rest j, regionNodes n = rest ++ [l] ∧ l.stmt = some j ∧ regionOfTag l.tag = 7 ∧
      (n.tag ≠ Tag.PG_MAIN_PROGRAM → ∃ f i rest', rest = f :: rest' ∧ f.stmt = some i ∧ regionOfTag f.tag = 0) ∧
      ∀ k ∈ rest, regionOfTag k.tag ≠ 7 := by
  obtain ⟨hok, hst, p0, e, c3, _, k2, c4⟩ := parsed_shape hx hn hs h ho ht hm hp
  exact ⟨hok, hst, isProc_of hok hp c3 k2 c4⟩

mutual
theorem leaves_sub : ∀ {t : PNode}, TreeOk t → ∀ {n : PNode}, n ∈ nodesOf t → ∀ i ∈ leavesOf n, i ∈ leavesOf t
  | .node t r c ks, ht, n, hm, i, hi => by
    rw [nodesOf] at hm
    rcases List.mem_cons.mp hm with rfl | hm'
    · exact hi
    · rw [TreeOk] at ht
      cases c with
      | some c => rw [ht.2.1 rfl, nodesOfAll] at hm'; cases hm'
      | none => rw [leavesOf]; exact leavesAll_sub ht.2.2 hm' i hi
theorem leavesAll_sub : ∀ {ks : List PNode}, TreesOk ks → ∀ {n : PNode}, n ∈ nodesOfAll ks → ∀ i ∈ leavesOf n, i ∈ stmtsOfAll ks
  | [], _, n, hm, _, _ => by cases hm
  | k :: ks, ht, n, hm, i, hi => by
    rw [nodesOfAll] at hm
    rw [TreesOk] at ht
    rw [stmtsOfAll]
    rcases List.mem_append.mp hm with hm | hm
    · exact List.mem_append_left _ (leaves_sub ht.2.1 hm i hi)
    · exact List.mem_append_right _ (leavesAll_sub ht.2.2 hm i hi)
end

/-- C41: in the tree of a program, or of any other parser that matches on a whole list of statements, each
node with the tag of a procedure is the tree of a procedure, and `ingest` takes it and finds its
regions.  Missing: a main program of nothing but its last statement, where it is false
(`C41_violation`), and a node in which a statement belongs to two regions. -/
theorem C41_parsed_partial (x : Exts) (hx : x.Forward) (hn : NeedToken x) (r : PR) (s : PState) (hs : Full s) (o : POut)
    (h : PReturns x r s (.ok o)) (ho : o.ok = true) (t : PNode) (ht : o.tree = some t) (n : PNode) (hm : n ∈ nodesOf t)
    (hp : n.tag ∈ procTags) :
    IsProc n ∧ (((regionNodes n).flatMap stmtsUnder).Nodup → n.tag ≠ Tag.PG_MAIN_PROGRAM ∨ 2 ≤ (stmtsUnder n).length →
      ∃ p0 p, make = .ok p0 ∧ ingest p0 n = .ok (true, p) ∧ Ingested s.stmts.length n p) := by
  obtain ⟨hok, hst, hproc, l, rest, j, e1, e2, e3, e4, e5⟩ := parsed_proc hx hn hs h ho ht hm hp
  refine ⟨hproc, fun hnd h2 => ?_⟩
  have hsub := (C39_tree_partial x hx hn r s hs o h).2.2.2 t ht
  have hleaves := region_leaves hproc hst
  have hsq := squash_flat hnd
  rw [← hleaves] at hsq
  have leafOf : ∀ {k : PNode} {i : Nat}, k.stmt = some i → stmtsUnder k = [i] := by
    intro k i hk
    obtain ⟨a, b, c, d⟩ := k
    cases hk
    simp [stmtsUnder, leavesOf, squash, consNew]
  have hl := leafOf e2
  have hrest : ∃ k ∈ rest, stmtsUnder k ≠ [] := by
    by_contra hno
    have hno : ∀ k ∈ rest, stmtsUnder k = [] := fun k hk => by
      by_contra hh
      exact hno ⟨k, hk, hh⟩
    rcases h2 with h2 | h2
    · obtain ⟨f, i, rest', rfl, f1, _⟩ := e4 h2
      have := hno f (by simp)
      rw [leafOf f1] at this
      cases this
    · rw [stmtsUnder, hsq, e1, List.flatMap_append, List.flatMap_eq_nil_iff.mpr hno] at h2
      simp [hl] at h2
  obtain ⟨k, hk, hkne⟩ := hrest
  have hin : ∀ (m : PNode), m ∈ regionNodes n → stmtsUnder m ≠ [] → regionStmts n (regionOfTag m.tag) ≠ [] := by
    intro m hm hne hnil
    rw [regionStmts, List.flatMap_eq_nil_iff] at hnil
    exact hne (hnil m (List.mem_filter.mpr ⟨hm, by simp⟩))
  have htwo : ∃ i j, i ≠ j ∧ regionStmts n i ≠ [] ∧ regionStmts n j ≠ [] := by
    refine ⟨regionOfTag k.tag, 7, e5 k hk, hin k (by rw [e1]; simp [hk]) hkne, ?_⟩
    rw [← e3]
    exact hin l (by rw [e1]; simp) (by rw [hl]; simp)
  rcases hok.range with ⟨hnil, _⟩ | ⟨b, e, hbe, hr, hsq'⟩
  · exfalso
    rw [hnil] at hsq
    have : j ∈ (regionNodes n).flatMap stmtsUnder := by
      rw [e1]
      simp [hl]
    rw [← hsq] at this
    cases this
  · have heN : e ≤ s.stmts.length := by
      have : e - 1 ∈ squash (leavesOf n) := by
        rw [hsq', List.mem_range'_1]
        omega
      have := (hsub.2.2.1 (e - 1) (leaves_sub hsub.1 hm _ (mem_squash.mp this))).2.2
      omega
    obtain ⟨p0, p, r1, r2, r3⟩ := C41_ingest_partial n hproc b e s.stmts.length heN (by rw [← hsq, hsq']) htwo
    exact ⟨p0, p, r1, r2, r3⟩

/-- A module procedure among others: the subroutine in `subroutine s; do 10 i=1,2; 10 x=1; end`. -/
example : ∃ o t n, PReturns noExts .program (xstate [xSub, xDo10, xAssign 10, xEnd]) (.ok o) ∧ o.tree = some t ∧
    n ∈ nodesOf t ∧ n.tag = Tag.PG_SUBROUTINE_SUBPROGRAM ∧ regionStmts n 5 = [1, 2] ∧
    ∃ p0 p, make = .ok p0 ∧ ingest p0 n = .ok (true, p) ∧ Ingested 4 n p := by
  obtain ⟨o, h1, h2⟩ := returns_of (x := noExts) (r := .program) (s := xstate [xSub, xDo10, xAssign 10, xEnd])
    (q := fun o => o.ok && o.tree.any (fun t => (nodesOf t).any (fun n => n.tag == Tag.PG_SUBROUTINE_SUBPROGRAM &&
      (regionStmts n 5 == [1, 2]) && decide ((regionNodes n).flatMap stmtsUnder).Nodup))) 40 (by decide +kernel)
  simp only [Bool.and_eq_true, beq_iff_eq, Option.any_eq_true, List.any_eq_true, decide_eq_true_eq] at h2
  obtain ⟨h2, t, h3, n, h4, ⟨h5, h6⟩, h7⟩ := h2
  refine ⟨o, t, n, h1, h3, h4, h5, h6, ?_⟩
  exact (C41_parsed_partial noExts SP.forward_none needToken_none .program _ (xstate_full _) o h1 h2 t h3 n h4 (by rw [h5]; decide)).2
    h7 (.inl (by rw [h5]; decide))

/-- C41 fails for a main program that is nothing but `end`: the parser takes it, and the check at the end
of `ingest` fails. -/
theorem C41_violation : ∃ o t n p0, PReturns noExts .program (xstate [xEnd]) (.ok o) ∧ o.ok = true ∧ o.tree = some t ∧
    n ∈ nodesOf t ∧ n.tag = Tag.PG_MAIN_PROGRAM ∧ make = .ok p0 ∧ ingest p0 n = .error .assertion := by
  obtain ⟨o, h1, h2⟩ := returns_of (x := noExts) (r := .program) (s := xstate [xEnd])
    (q := fun o => o.ok && o.tree.any (fun t => (nodesOf t).any (fun n => n.tag == Tag.PG_MAIN_PROGRAM &&
      match make with
      | .ok p0 => (match ingest p0 n with
        | .error .assertion => true
        | _ => false)
      | _ => false))) 40 (by decide +kernel)
  simp only [Bool.and_eq_true, beq_iff_eq, Option.any_eq_true, List.any_eq_true] at h2
  obtain ⟨h2, t, h3, n, h4, h5, h6⟩ := h2
  cases hp : make with
  | error e => rw [hp] at h6; cases h6
  | ok p0 =>
    rw [hp] at h6
    refine ⟨o, t, n, p0, h1, h2, h3, h4, h5, rfl, ?_⟩
    simp only at h6
    split at h6
    · assumption
    · cases h6

end Proc
end FLPR
