import Verif.Procedure.NameLemmas
import Verif.Procedure.ParsedProps
import Verif.Program.AttachProps
/-!
# C69: the name and the labels of a procedure (src/flpr/Procedure.hh)
-/

namespace FLPR
namespace Proc
open PP Reg Spec
open SP (SNode R Exts Strm)

mutual
/-- A statement other than an action is never left out. -/
theorem leaf_own {i : Nat} {t : Int} (ht : t ≠ Tag.SG_ACTION_STMT) : ∀ (k : Sh), .leaf i t ∈ shs k → ∀ b, (i, t) ∈ Sh.own b k
  | .leaf j u, h, b => by
    simp only [shs, List.mem_singleton, Sh.leaf.injEq] at h
    simp [Sh.own, h]
  | .inner u ks, h, b => by
    rw [shs] at h
    rcases List.mem_cons.mp h with h | h
    · cases h
    · rw [Sh.own]
      split
      · exact List.mem_filter.mpr ⟨leaf_ownAll ht ks h _, by simpa using ht⟩
      · exact leaf_ownAll ht ks h _
theorem leaf_ownAll {i : Nat} {t : Int} (ht : t ≠ Tag.SG_ACTION_STMT) : ∀ (ks : List Sh), .leaf i t ∈ shsAll ks → ∀ b, (i, t) ∈ Sh.ownAll b ks
  | [], h, b => by cases h
  | k :: ks, h, b => by
    rw [shsAll] at h
    rw [Sh.ownAll]
    rcases List.mem_append.mp h with h | h
    · exact List.mem_append_left _ (leaf_own ht k h b)
    · exact List.mem_append_right _ (leaf_ownAll ht ks h b)
end

theorem node_own {t k : PNode} (h : TreeOk t) (hk : k ∈ nodesOf t) {i : Nat} (hi : k.stmt = some i) (ht : k.tag ≠ Tag.SG_ACTION_STMT) :
    (i, k.tag) ∈ ownLeaves t := by
  have h1 := (erase_shs t h k hk).2
  obtain ⟨a, b, c, d⟩ := k
  cases hi
  exact leaf_own ht _ h1 false

mutual
theorem nodes_kids {n k : PNode} (hk : k ∈ n.kids) : ∀ (t : PNode), n ∈ nodesOf t → k ∈ nodesOf t
  | .node a b c ks, h => by
    rw [nodesOf] at h ⊢
    rcases List.mem_cons.mp h with rfl | h
    · exact List.mem_cons_of_mem _ (nodesAll_mem hk)
    · exact List.mem_cons_of_mem _ (nodesAll_kids hk ks h)
theorem nodesAll_kids {n k : PNode} (hk : k ∈ n.kids) : ∀ (ks : List PNode), n ∈ nodesOfAll ks → k ∈ nodesOfAll ks
  | [], h => by cases h
  | m :: ks, h => by
    rw [nodesOfAll] at h ⊢
    rcases List.mem_append.mp h with h | h
    · exact List.mem_append_left _ (nodes_kids hk m h)
    · exact List.mem_append_right _ (nodesAll_kids hk ks h)
theorem nodesAll_mem {k : PNode} : ∀ {ks : List PNode}, k ∈ ks → k ∈ nodesOfAll ks
  | [], h => by cases h
  | m :: ks, h => by
    rw [nodesOfAll]
    rcases List.mem_cons.mp h with rfl | h
    · refine List.mem_append_left _ ?_
      obtain ⟨a, b, c, d⟩ := k
      rw [nodesOf]
      exact List.mem_cons_self ..
    · exact List.mem_append_right _ (nodesAll_mem h)
end

/-- The first and the last statement of a procedure. -/
theorem parsed_ends {x : Exts} (hx : x.Forward) (hn : NeedToken x) {r : PR} {s : PState} (hs : Full s) {o : POut}
    (h : PReturns x r s (.ok o)) (ho : o.ok = true) {t : PNode} (ht : o.tree = some t) {n : PNode} (hm : n ∈ nodesOf t)
    (hp : n.tag ∈ procTags) : ∃ first sp mid last j, n.kids = first ++ (sp :: (mid ++ [last])) ∧ FirstOk n first ∧
      sp.tag = Tag.PG_SPECIFICATION_PART ∧ last.stmt = some j ∧ last.tag ∈ endTags ∧ (n.tag, last.tag) ∈ endPairs := by
  obtain ⟨_, _, p0, e, he, hpair, ⟨first, spec, exec, int, j, h1, h2, _⟩, hf⟩ := parsed_shape hx hn hs h ho ht hm hp
  obtain ⟨first, ks1, k1, rfl, e1⟩ := eraseAll_split h1
  obtain ⟨sp, ks2, rfl, hsp, e2⟩ := eraseAll_cons e1
  obtain ⟨exec, ks3, rfl, rfl, e3⟩ := eraseAll_split e2
  obtain ⟨int, ks4, rfl, rfl, e4⟩ := eraseAll_split e3
  obtain ⟨last, ks5, rfl, hl, e5⟩ := eraseAll_cons e4
  rw [eraseAll_nil e5] at k1
  refine ⟨first, sp, exec ++ int, last, j, by rw [k1]; simp, hf first h2, (erase_inner hsp).1, (erase_leaf hl).2, ?_⟩
  rw [(erase_leaf hl).1]
  exact ⟨he, hpair⟩

theorem checkValid_of_empty {r : RP Path} {i : Nat} {b : Bool} (h : r.empty i = .ok b) : ∃ u, r.checkValid i = .ok u := by
  rw [RP.empty, RP.cbegin] at h
  cases hc : r.checkValid i with
  | ok u => exact ⟨u, rfl⟩
  | error e => rw [hc] at h; cases h

theorem getTracker_of {r : RP Path} {i : Nat} {b : Bool} {path : Path} (h : r.empty i = .ok b) (ht : trkOf r i = some (some path)) :
    r.getTracker i = .ok path := by
  obtain ⟨u, hu⟩ := checkValid_of_empty h
  rw [trkOf] at ht
  obtain ⟨q, q1, q2⟩ := Option.map_eq_some_iff.mp ht
  rw [RP.getTracker, hu, Res.ok_bind, part_ok q1, Res.ok_bind, q2]

/-- The cursor of a region is the one that was recorded for it. -/
theorem ingest_tracker {n : PNode} (hp : IsProc n) {p0 p : Procd} (h : ingest p0 n = .ok (true, p)) {i : Nat} {path : Path} {k : PNode}
    (he : (i, path, k) ∈ evts 0 n.kids) : trkOf p.ranges i = some (some path) := by
  rw [ingest_eq hp] at h
  rbind h with r hr
  rbind h with u hu
  injection h with h
  injection h with _ h
  subst h
  rcases recordAll_trk _ _ _ hr i with ⟨e, e1, e2, e3⟩ | ⟨e1, _⟩
  · rw [e3, evts_path hp.branches e1 he e2]
  · exact absurd rfl (e1 _ he)

theorem evts_leaf (i : Nat) {k : PNode} (h : k.tag ≠ Tag.PG_SPECIFICATION_PART) : evts i [k] = [(regionOfTag k.tag, [i], k)] := by
  simp [evts, h]

theorem begin_region {tag : Int} (h : tag ∈ [Tag.SG_FUNCTION_STMT, Tag.SG_SUBROUTINE_STMT, Tag.SG_PROGRAM_STMT, Tag.SG_MP_SUBPROGRAM_STMT]) :
    regionOfTag tag = 0 ∧ tag ≠ Tag.PG_SPECIFICATION_PART ∧ tag ≠ Tag.SG_ACTION_STMT := by
  simp only [List.mem_cons, List.not_mem_nil, or_false] at h
  rcases h with rfl | rfl | rfl | rfl <;> decide

theorem end_region {tag : Int} (h : tag ∈ endTags) :
    regionOfTag tag = 7 ∧ tag ≠ Tag.PG_SPECIFICATION_PART ∧ tag ≠ Tag.SG_ACTION_STMT := by
  simp only [endTags, List.mem_cons, List.not_mem_nil, or_false] at h
  rcases h with rfl | rfl | rfl | rfl <;> decide

theorem leaf_under {k : PNode} {i : Nat} (h : k.stmt = some i) : stmtsUnder k = [i] := by
  obtain ⟨a, b, c, d⟩ := k
  cases h
  simp [stmtsUnder, leavesOf, squash, consNew]

/-- Without a first statement, the first region is empty. -/
theorem headless_region {n : PNode} (h : ∀ k ∈ regionNodes n, regionOfTag k.tag ≠ 0) : regionStmts n 0 = [] := by
  rw [regionStmts, List.flatMap_eq_nil_iff]
  intro k hk
  obtain ⟨k1, k2⟩ := List.mem_filter.mp hk
  exact absurd (by simpa using k2) (h k k1)

/-- What the tree of a procedure, parsed and ingested, has as its first and last statement. -/
structure Ends (x : Exts) (s s' : PState) (n : PNode) (p : Procd) : Prop where
  tag : p.tag = n.tag
  root : p.root = some n
  full : p.ranges.empty PROC_END = .ok false
  last : ∃ j k, k ∈ n.kids ∧ k.stmt = some j ∧ (n.tag, k.tag) ∈ endPairs ∧ p.stmtAt PROC_END = .ok j ∧
    ∃ st tr r q, s'.stmts[j]? = some st ∧ s'.treeOf j = some tr ∧ Returns x r st.strm (.ok (some tr, q)) ∧ k.tag = r.rootTag
  first : (n.tag = Tag.PG_MAIN_PROGRAM ∧ (∀ k ∈ n.kids.head?, k.tag ≠ Tag.SG_PROGRAM_STMT) ∧ p.headless = .ok true) ∨
    (p.headless = .ok false ∧ ∃ k j, n.kids.head? = some k ∧ k.stmt = some j ∧
      k.tag ∈ [Tag.SG_FUNCTION_STMT, Tag.SG_SUBROUTINE_STMT, Tag.SG_PROGRAM_STMT, Tag.SG_MP_SUBPROGRAM_STMT] ∧
      (n.tag, k.tag) ∈ beginPairs ∧ p.stmtAt PROC_BEGIN = .ok j ∧
      ∃ st tr r q, s'.stmts[j]? = some st ∧ s'.treeOf j = some tr ∧ Returns x r st.strm (.ok (some tr, q)) ∧ k.tag = r.rootTag)

theorem ends_of {x : Exts} (hx : x.Forward) (hn : NeedToken x) {r : PR} {s : PState} (hs : Full s) {o : POut}
    (h : PReturns x r s (.ok o)) (ho : o.ok = true) {t : PNode} (ht : o.tree = some t) {n : PNode} (hm : n ∈ nodesOf t)
    (hp : n.tag ∈ procTags) {p0 p : Procd} (hi : ingest p0 n = .ok (true, p)) (hg : Ingested s.stmts.length n p) : Ends x s o.s n p := by
  obtain ⟨hok, hst, hproc, _⟩ := parsed_proc hx hn hs h ho ht hm hp
  obtain ⟨first, sp, mid, last, j, hk, hf, hsp, hl, hlt, hlp⟩ := parsed_ends hx hn hs h ho ht hm hp
  have htree := ((C39_tree_partial x hx hn r s hs o h).2.2.2 t ht).1
  have hstm : o.s.stmts = s.stmts := (run_atts h).1.stmts
  have tree : ∀ {k : PNode} {i : Nat}, k ∈ n.kids → k.stmt = some i → k.tag ≠ Tag.SG_ACTION_STMT →
      ∃ st tr r q, o.s.stmts[i]? = some st ∧ o.s.treeOf i = some tr ∧ Returns x r st.strm (.ok (some tr, q)) ∧ k.tag = r.rootTag := by
    intro k i hk hki hka
    obtain ⟨tr, r', _, st, q, a1, _, a3, a4, a5⟩ :=
      C68_trees_partial x hx hn r s hs o t h ht _ (node_own htree (nodes_kids hk t hm) hki hka)
    exact ⟨st, tr, r', q, by rw [hstm]; exact a3, a1, a4, a5⟩
  obtain ⟨g1, g2, _, g4, _⟩ := hg
  have hl7 := end_region hlt
  have hlm : last ∈ n.kids := by rw [hk]; simp
  have inRegion : ∀ {k : PNode} {i : Nat}, k ∈ n.kids → k.tag ≠ Tag.PG_SPECIFICATION_PART → k.stmt = some i →
      regionStmts n (regionOfTag k.tag) ≠ [] := by
    intro k i hk hks hki hnil
    rw [regionStmts, List.flatMap_eq_nil_iff] at hnil
    have := hnil k (List.mem_filter.mpr ⟨?_, by simp⟩)
    · rw [leaf_under hki] at this; cases this
    · rw [regionNodes]
      exact List.mem_flatMap.mpr ⟨k, hk, by rw [if_neg hks]; simp⟩
  have at_ : ∀ {d i : Nat} {k : PNode}, n.kids[d]? = some k → k.stmt = some i → k.tag ≠ Tag.PG_SPECIFICATION_PART → regionOfTag k.tag < 8 →
      p.stmtAt (regionOfTag k.tag) = .ok i := by
    intro d i k hd hki hks h8
    have he : (regionOfTag k.tag, [d], k) ∈ evts 0 n.kids := by
      obtain ⟨hd', hdk⟩ := List.getElem?_eq_some_iff.mp hd
      have : n.kids = n.kids.take d ++ (k :: n.kids.drop (d + 1)) := by
        rw [← hdk, ← List.drop_eq_getElem_cons hd', List.take_append_drop]
      rw [this, evts_append, evts]
      refine List.mem_append_right _ (List.mem_append_left _ ?_)
      rw [if_neg hks, List.length_take, Nat.zero_add, Nat.min_eq_left (by omega)]
      exact List.mem_singleton.mpr rfl
    have htk := getTracker_of (g4.empty _ h8) (ingest_tracker hproc hi he)
    rw [Procd.stmtAt, htk, Res.ok_bind, g2]
    simp only [nodeAt, hd, hki]
  refine ⟨g1, g2, ?_, ?_, ?_⟩
  · rw [g4.empty 7 (by decide)]
    have := inRegion hlm hl7.2.1 hl
    rw [hl7.1] at this
    cases hh : regionStmts n 7 with
    | nil => exact absurd hh this
    | cons a b => rfl
  · refine ⟨j, last, hlm, hl, hlp, ?_, tree hlm hl hl7.2.2⟩
    have := at_ (d := n.kids.length - 1) (k := last) (by rw [hk]; simp) hl hl7.2.1 (by rw [hl7.1]; decide)
    rwa [hl7.1] at this
  · rcases hf with ⟨rfl, hmain⟩ | ⟨f, i, rfl, hfi, hft, hfm⟩
    · refine .inl ⟨hmain, ?_, ?_⟩
      · rw [hk]
        simp only [List.nil_append, List.head?_cons, Option.mem_def, Option.some.injEq]
        rintro k rfl
        rw [hsp]; decide
      · rw [Procd.headless, if_pos (by rw [g1]; exact hmain), g4.empty 0 (by decide)]
        rw [headless_region ?_]
        · rfl
        · intro k hkm
          obtain ⟨first', parts, last', hk', hf', hparts, _, hlast'⟩ := hproc.branches
          have hnil : first' = [] := by
            rcases hf' with ⟨h0, _⟩ | ⟨f, rfl, _, hft, _⟩
            · exact h0
            · rw [hk] at hk'
              simp only [List.nil_append, List.cons_append, List.cons.injEq] at hk'
              rw [← hk'.1, hsp] at hft
              exact absurd hft (by decide)
          subst hnil
          rw [regionNodes, hk', List.nil_append] at hkm
          obtain ⟨c, c1, c2⟩ := List.mem_flatMap.mp hkm
          rcases List.mem_append.mp c1 with c1 | c1
          · rcases hparts c c1 with ⟨d1, _, _, d2, _⟩ | d1
            · rw [if_pos d1] at c2
              have := d2 k c2
              simp only [List.mem_cons, List.not_mem_nil, or_false] at this
              rcases this with e | e | e | e <;> rw [e] <;> decide
            · have hne : c.tag ≠ Tag.PG_SPECIFICATION_PART := by
                simp only [List.mem_cons, List.not_mem_nil, or_false] at d1
                rcases d1 with e | e <;> rw [e] <;> decide
              rw [if_neg hne, List.mem_singleton] at c2
              subst c2
              simp only [List.mem_cons, List.not_mem_nil, or_false] at d1
              rcases d1 with e | e <;> rw [e] <;> decide
          · simp only [List.mem_singleton] at c1
            subst c1
            have := end_region hlast'
            rw [if_neg this.2.1, List.mem_singleton] at c2
            subst c2
            rw [this.1]; decide
    · have hb := begin_region hft
      have hfmem : f ∈ n.kids := by rw [hk]; simp
      refine .inr ⟨?_, f, i, by rw [hk]; rfl, hfi, hft, hfm, ?_, tree hfmem hfi hb.2.2⟩
      · rw [Procd.headless]
        split
        · rw [g4.empty 0 (by decide)]
          have := inRegion hfmem hb.2.1 hfi
          rw [hb.1] at this
          cases hh : regionStmts n 0 with
          | nil => exact absurd hh this
          | cons a b => rfl
        · rfl
      · have := at_ (d := 0) (k := f) (by rw [hk]; rfl) hfi hb.2.1 (by rw [hb.1]; decide)
        rwa [hb.1] at this

/-- C69: for each procedure of a parsed program that `ingest` takes, `name()` is the text of the name in its first
statement, the token behind the keyword; a main program without a first statement has the empty name.  Missing: what
C41 leaves out, and first statements without properly nested parentheses. -/
theorem C69_name_partial (x : Exts) (hx : x.Forward) (hn : NeedToken x) (r : PR) (s : PState) (hs : Full s) (o : POut)
    (h : PReturns x r s (.ok o)) (ho : o.ok = true) (t : PNode) (ht : o.tree = some t) (n : PNode) (hm : n ∈ nodesOf t)
    (hp : n.tag ∈ procTags) (p0 p : Procd) (hi : ingest p0 n = .ok (true, p)) (hg : Ingested s.stmts.length n p) :
    (n.tag = Tag.PG_MAIN_PROGRAM ∧ (∀ k ∈ n.kids.head?, k.tag ≠ Tag.SG_PROGRAM_STMT) ∧ p.name o.s = .ok []) ∨
    ∃ k j st, n.kids.head? = some k ∧ k.stmt = some j ∧ s.stmts[j]? = some st ∧ (n.tag, k.tag) ∈ beginPairs ∧
      (GoodStmt st.strm → ∃ a, Named k.tag (restOf st.strm) a ∧ p.name o.s = .ok a.text) := by
  have he := ends_of hx hn hs h ho ht hm hp hi hg
  have hstm : o.s.stmts = s.stmts := (run_atts h).1.stmts
  rcases he.first with ⟨h1, h2, h3⟩ | ⟨h1, k, j, k1, k2, k3, kp, k4, st, tr, r', q, a1, a2, a3, a4⟩
  · refine .inl ⟨h1, h2, ?_⟩
    rw [Procd.name, he.full, Res.ok_bind, if_neg (by simp), h3, Res.ok_bind, if_pos rfl]
  · refine .inr ⟨k, j, st, k1, k2, by rw [← hstm]; exact a1, kp, fun hgood => ?_⟩
    obtain ⟨m, hev⟩ := a3.eval
    rw [a4] at k3
    obtain ⟨a, b1, b2⟩ := begin_name (beginRules_only k3) hgood hev
    refine ⟨a, by rw [a4]; exact b1, ?_⟩
    rw [Procd.name, he.full, Res.ok_bind, if_neg (by simp), h1, Res.ok_bind, if_neg (by simp), k4, Res.ok_bind, stmtTree, a1, a2]
    exact nameAt_of b2

theorem labels_range (l : List LStmt) : ∀ k b, b + k ≤ l.length →
    (((l.drop b).take k).filter (fun st => decide (st.label > 0))).map (·.label) = labelsOf l (List.range' b k)
  | 0, b, _ => by simp [labelsOf]
  | k + 1, b, h => by
    have hb : b < l.length := by omega
    have ih := labels_range l k (b + 1) (by omega)
    rw [List.drop_eq_getElem_cons hb, List.take_succ_cons, List.range'_succ, labelsOf, List.filterMap_cons, ← labelsOf]
    rw [List.getElem?_eq_getElem hb]
    simp only
    by_cases hl : l[b].label > 0
    · rw [List.filter_cons_of_pos (by simpa using hl), List.map_cons, if_pos hl, ih]
    · rw [List.filter_cons_of_neg (by simpa using hl), if_neg hl, ih]

/-- C69: `scan_out_labels` gives the labels of the statements of the procedure, those of its internal procedures
included, in the order of the file, and no others. -/
theorem C69_labels (x : Exts) (hx : x.Forward) (hn : NeedToken x) (r : PR) (s : PState) (hs : Full s) (o : POut)
    (h : PReturns x r s (.ok o)) (t : PNode) (ht : o.tree = some t) (n : PNode) (hm : n ∈ nodesOf t)
    (p : Procd) (hr : p.root = some n) : p.labels o.s = .ok (labelsOf s.stmts (stmtsUnder n)) := by
  have hsub := (C39_tree_partial x hx hn r s hs o h).2.2.2 t ht
  have hok : TreeOk n := (erase_shs t hsub.1 n hm).1
  have hstm : o.s.stmts = s.stmts := (run_atts h).1.stmts
  rw [Procd.labels, hr, hstm, stmtsUnder]
  simp only
  rcases hok.range with ⟨h1, h2⟩ | ⟨b, e, h1, h2, h3⟩
  · rw [h1]
    cases hrg : n.range with
    | none => rfl
    | some w =>
      obtain ⟨b, e⟩ := w
      rw [hrg] at h2
      have : e - b = 0 := by simp [SP.Rng.isEmpty] at h2; omega
      simp [this, squash, labelsOf]
  · rw [h2, h3]
    simp only
    rw [labels_range]
    have : e - 1 ∈ squash (leavesOf n) := by
      rw [h3, List.mem_range'_1]
      omega
    have := (hsub.2.2.1 (e - 1) (leaves_sub hsub.1 hm _ (mem_squash.mp this))).2.2
    omega

/-- `recursive subroutine foo` -/
def xFoo : LStmt := xstmt 0 [xtok Tag.KW_RECURSIVE, xtok Tag.KW_SUBROUTINE, xtok Tag.TK_NAME "foo"]

theorem xFoo_good : GoodStmt xFoo.strm := by
  refine ⟨by decide, by decide, by decide, SP.goodTags_of (by decide +kernel), 0, by decide, ?_⟩
  exact .plain ⟨by decide, by decide, by decide, by decide⟩ <| .plain ⟨by decide, by decide, by decide, by decide⟩ <|
    .plain ⟨by decide, by decide, by decide, by decide⟩ .nil

/-- C69 applies to `recursive subroutine foo; do 10 i=1,2; 10 a=1; end`. -/
example : ∃ o t n p0 p, PReturns noExts .program (xstate [xFoo, xDo10, xAssign 10, xEnd]) (.ok o) ∧ o.tree = some t ∧
    n ∈ nodesOf t ∧ n.tag = Tag.PG_SUBROUTINE_SUBPROGRAM ∧ make = .ok p0 ∧ ingest p0 n = .ok (true, p) ∧
    (∃ a, Named Tag.SG_SUBROUTINE_STMT (restOf xFoo.strm) a ∧ p.name o.s = .ok a.text) ∧ p.name o.s = .ok "foo".toList ∧ p.labels o.s = .ok [10] := by
  obtain ⟨o, h1, h2⟩ := returns_of (x := noExts) (r := .program) (s := xstate [xFoo, xDo10, xAssign 10, xEnd])
    (q := fun o => o.ok && o.tree.any (fun t => (nodesOf t).any (fun n => n.tag == Tag.PG_SUBROUTINE_SUBPROGRAM &&
      n.kids.head?.any (fun k => k.tag == Tag.SG_SUBROUTINE_STMT && k.stmt == some 0) && (stmtsUnder n == [0, 1, 2, 3]) &&
      decide ((regionNodes n).flatMap stmtsUnder).Nodup &&
      match make with
      | .ok p0 => (match ingest p0 n with
        | .ok (true, p) => (match p.name o.s with
          | .ok w => w == "foo".toList
          | _ => false)
        | _ => false)
      | _ => false))) 40 (by decide +kernel)
  simp only [Bool.and_eq_true, beq_iff_eq, Option.any_eq_true, List.any_eq_true, decide_eq_true_eq] at h2
  obtain ⟨h2, t, h3, n, h4, ⟨⟨⟨h5, k, k1, k2, k3⟩, h6⟩, h7⟩, h8⟩ := h2
  have hp : n.tag ∈ procTags := by rw [h5]; decide
  obtain ⟨p0, p, g1, g2, g3⟩ := (C41_parsed_partial noExts SP.forward_none needToken_none .program _ (xstate_full _) o h1 h2 t h3 n h4 hp).2
    h7 (.inl (by rw [h5]; decide))
  have hl := C69_labels noExts SP.forward_none needToken_none .program _ (xstate_full _) o h1 t h3 n h4 p g3.2.1
  rw [h6] at hl
  refine ⟨o, t, n, p0, p, h1, h3, h4, h5, g1, g2, ?_, ?_, hl⟩
  · rcases C69_name_partial noExts SP.forward_none needToken_none .program _ (xstate_full _) o h1 h2 t h3 n h4 hp p0 p g2 g3 with
      ⟨c, _⟩ | ⟨k', j, st, c1, c2, c3, _, c4⟩
    · rw [h5] at c; exact absurd c (by decide)
    · rw [k1] at c1
      obtain rfl := Option.some.inj c1
      rw [k3] at c2
      obtain rfl := Option.some.inj c2
      obtain rfl := Option.some.inj c3
      rw [← k2]
      exact c4 xFoo_good
  · rw [g1] at h8
    simp only [g2] at h8
    cases hn : p.name o.s with
    | error e => rw [hn] at h8; simp at h8
    | ok w => rw [hn] at h8; simp only [beq_iff_eq] at h8; rw [h8]

/-- C69: a main program without a first statement has no name. -/
example : ∃ o t n p0 p, PReturns noExts .program (xstate [xAssign 7, xEnd]) (.ok o) ∧ o.tree = some t ∧
    n ∈ nodesOf t ∧ n.tag = Tag.PG_MAIN_PROGRAM ∧ make = .ok p0 ∧ ingest p0 n = .ok (true, p) ∧ p.name o.s = .ok [] := by
  obtain ⟨o, h1, h2⟩ := returns_of (x := noExts) (r := .program) (s := xstate [xAssign 7, xEnd])
    (q := fun o => o.ok && o.tree.any (fun t => (nodesOf t).any (fun n => n.tag == Tag.PG_MAIN_PROGRAM &&
      n.kids.head?.all (fun k => k.stmt == none) && (decide (2 ≤ (stmtsUnder n).length)) &&
      decide ((regionNodes n).flatMap stmtsUnder).Nodup))) 40 (by decide +kernel)
  simp only [Bool.and_eq_true, beq_iff_eq, Option.any_eq_true, List.any_eq_true, decide_eq_true_eq, Option.all_eq_true] at h2
  obtain ⟨h2, t, h3, n, h4, ⟨⟨h5, k1⟩, h6⟩, h7⟩ := h2
  have hp : n.tag ∈ procTags := by rw [h5]; decide
  obtain ⟨p0, p, g1, g2, g3⟩ := (C41_parsed_partial noExts SP.forward_none needToken_none .program _ (xstate_full _) o h1 h2 t h3 n h4 hp).2
    h7 (.inr h6)
  refine ⟨o, t, n, p0, p, h1, h3, h4, h5, g1, g2, ?_⟩
  rcases C69_name_partial noExts SP.forward_none needToken_none .program _ (xstate_full _) o h1 h2 t h3 n h4 hp p0 p g2 g3 with
      ⟨_, _, c⟩ | ⟨k', j, st, c1, c2, _⟩
  · exact c
  · have := k1 k' c1
    rw [c2] at this
    cases this

end Proc
end FLPR
