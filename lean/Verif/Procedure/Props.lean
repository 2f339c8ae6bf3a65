import Verif.Procedure.Lemmas
/-!
# C41: the regions of a procedure (src/flpr/Procedure.hh)
-/

namespace FLPR
namespace Proc
open PP Reg Spec

theorem regionOf_evts (es : List Evt) : regionOf (asOps (es.map (fun e => (e.1, stmtsUnder e.2.2)))) = got es := by
  funext k
  induction es with
  | nil => rfl
  | cons e es ih =>
    rw [got, List.filter_cons]
    rw [got] at ih
    simp only [List.map_cons, asOps, regionOf, List.flatMap_cons] at ih ⊢
    rw [ih]
    by_cases hk : e.1 = k
    · simp [hk]
    · simp [hk]

theorem got_evts (t : PNode) : got (evts 0 t.kids) = regionStmts t := by
  funext k
  rw [got, regionStmts, ← evts_nodes t 0]
  have := evts_region 0 t.kids
  generalize evts 0 t.kids = es at this
  induction es with
  | nil => rfl
  | cons e es ih =>
    have ih := ih (fun e he => this e (by simp [he]))
    have he := this e (by simp)
    simp only [List.filter_cons, List.map_cons, ← he]
    split
    · simp only [List.flatMap_cons, ih]
    · exact ih

theorem rest_got {es : List Evt} {post : List Nat} (hi : ∀ e ∈ es, e.1 < 8) (ho : (es.map (·.1)).Pairwise (· ≤ ·)) :
    rest (got es) post 8 0 = es.flatMap (fun e => stmtsUnder e.2.2) ++ post := by
  have hor := orderly_of_ascending (n := 8) (es.map (fun e => (e.1, stmtsUnder e.2.2))) []
    (by
      intro o hm
      obtain ⟨e, he, rfl⟩ := List.mem_map.mp hm
      exact hi e he)
    (by
      rw [Ascending]
      have hs : ((es.map (fun e => (e.1, stmtsUnder e.2.2))).filter (fun o => !o.2.isEmpty)).Sublist
          (es.map (fun e => (e.1, stmtsUnder e.2.2))) := List.filter_sublist
      have := hs.map (·.1)
      rw [List.map_map] at this
      exact ho.sublist this)
    (by simp)
  have := rest_all (post := post) _ [] hor (fun _ => []) (by simp)
  rw [rest_nil] at this
  simp only [List.nil_append, regionOf_evts] at this
  rw [this, asOps, List.map_map, List.flatMap_map]
  rfl

/-- C41: the regions of a procedure are those of its tree: each region has just the statements of the
branches that belong to it, and its cursor is at a node with all of them.  `N` is the number of
statements in the file, and the procedure has the statements from `b` up to `e`.  Missing: a procedure
with statements in just one region (`C41_violation`). -/
theorem C41_ingest_partial (t : PNode) (h : IsProc t) (b e N : Nat) (hN : e ≤ N)
    (hc : (regionNodes t).flatMap stmtsUnder = List.range' b (e - b))
    (h2 : ∃ i j, i ≠ j ∧ regionStmts t i ≠ [] ∧ regionStmts t j ≠ []) :
    ∃ p0 p, make = .ok p0 ∧ ingest p0 t = .ok (true, p) ∧ p.tag = t.tag ∧ p.root = some t ∧ p.dirty = false ∧
      Right p.ranges NUM_REGION_TAG (List.range (N + 1)) (regionStmts t) ∧
      ∀ i, i < NUM_REGION_TAG → regionStmts t i ≠ [] → ∃ path n, p.ranges.getTracker i = .ok path ∧
        nodeAt t path = some n ∧ ∀ x ∈ regionStmts t i, x ∈ stmtsUnder n := by
  have hnodes := evts_nodes t 0
  have hreg := evts_region 0 t.kids
  have hflat : (evts 0 t.kids).flatMap (fun e => stmtsUnder e.2.2) = List.range' b (e - b) := by
    rw [← hc, ← hnodes, List.flatMap_map]
  have hbe : b ≤ e := by
    by_contra hlt
    rw [show e - b = 0 by omega, List.range'_zero] at hc
    obtain ⟨i, _, _, hi, _⟩ := h2
    refine hi (List.flatMap_eq_nil_iff.mpr (fun k hk => ?_))
    exact List.flatMap_eq_nil_iff.mp hc k (List.mem_filter.mp hk).1
  have hall : List.range' b (e - b) ++ List.range' e (N + 1 - e) = List.range' b (N + 1 - b) := by
    have := List.range'_append_1 (s := b) (m := e - b) (n := N + 1 - e)
    rw [show b + (e - b) = e by omega] at this
    rw [this]
    congr 1
    omega
  have hlt : ∀ x ∈ evts 0 t.kids, x.1 < 8 := by
    intro x hx
    rw [hreg x hx, regionOfTag]
    repeat' split
    all_goals omega
  have hord : ((evts 0 t.kids).map (·.1)).Pairwise (· ≤ ·) := by
    have := h.order
    rw [← hnodes, List.map_map] at this
    rw [List.map_congr_left (g := (fun k => regionOfTag k.tag) ∘ (·.2.2)) (fun x hx => hreg x hx)]
    exact this
  have hne : List.range' e (N + 1 - e) ≠ [] := by simp; omega
  obtain ⟨r0, m1, m2, m3⟩ := make_ok Path (n := 8) (by decide) (by decide)
    ((evts 0 t.kids).flatMap (fun e => stmtsUnder e.2.2) ++ List.range' e (N + 1 - e))
  obtain ⟨r, a1, a2, a3⟩ := recordAll_ok (evts 0 t.kids) r0 [] (fun _ => []) (List.range' e (N + 1 - e)) b (N + 1 - b)
    (by simpa using m2) (by simpa using m3) (by rw [hflat, hall]) hne
    (fun x hx => ⟨hlt x hx, h.ranges _ (by rw [← hnodes]; exact List.mem_map.mpr ⟨x, hx, rfl⟩)⟩) (by simp) hord
  simp only [List.nil_append, got_evts] at a2 a3
  refine ⟨⟨false, Tag.UNKNOWN, none, r0⟩, ⟨false, t.tag, some t, r⟩, by rw [make, m1]; rfl, ?_, rfl, rfl, rfl, ?_, ?_⟩
  · rw [ingest_eq h]
    simp only
    rw [a1, Res.ok_bind]
    have hact : ∀ i, regionStmts t i ≠ [] → i ∈ touched (evts 0 t.kids) := by
      intro i hi
      rw [← got_evts, got] at hi
      by_contra hno
      refine hi (List.flatMap_eq_nil_iff.mpr (fun x hx => ?_))
      obtain ⟨x1, x2⟩ := List.mem_filter.mp hx
      by_contra hxx
      refine hno (List.mem_map.mpr ⟨x, List.mem_filter.mpr ⟨x1, by simpa using hxx⟩, by simpa using x2⟩)
    rw [validate_ok a2 (fun k p hk ha => ?_), Res.ok_bind]
    refine active_of_two a2 hk ha ?_
    obtain ⟨i, j, hij, hi, hj⟩ := h2
    by_cases hk : i = k
    · exact ⟨j, hact j hj, by omega⟩
    · exact ⟨i, hact i hi, hk⟩
  · have hrest := rest_got (post := List.range' e (N + 1 - e)) hlt hord
    rw [got_evts, hflat, hall] at hrest
    have hl : List.range b ++ rest (regionStmts t) (List.range' e (N + 1 - e)) 8 0 = List.range (N + 1) := by
      rw [hrest, List.range_eq_range', List.range_eq_range']
      have := List.range'_append_1 (s := 0) (m := b) (n := N + 1 - b)
      rw [Nat.zero_add] at this
      rw [this]
      congr 1
      omega
    have := right_of (pre := List.range b) a2 a3 hne (by rw [hl]; exact List.nodup_range)
    rw [hl] at this
    exact this
  · intro i hi hne
    rcases recordAll_trk _ _ _ a1 i with ⟨x, hx, x1, x2⟩ | ⟨x1, _⟩
    · obtain ⟨n, n1, _⟩ := evts_node h.branches hx
      refine ⟨x.2.1, n, ?_, n1, ?_⟩
      · rw [trkOf] at x2
        obtain ⟨q, q1, q2⟩ := Option.map_eq_some_iff.mp x2
        rw [RP.getTracker, a2.checkValid hi, Res.ok_bind, part_ok q1, Res.ok_bind, q2]
      · intro y hy
        rw [← got_evts, got] at hy
        obtain ⟨z, hz, hy⟩ := List.mem_flatMap.mp hy
        obtain ⟨z1, z2⟩ := List.mem_filter.mp hz
        obtain ⟨n', n2, n3⟩ := evts_node h.branches z1
        rw [evts_path h.branches z1 hx (by rw [x1]; simpa using z2), n1] at n2
        injection n2 with n2
        subst n2
        exact n3 y hy
    · exfalso
      rw [← got_evts, got] at hne
      refine hne (List.flatMap_eq_nil_iff.mpr (fun x hx => ?_))
      obtain ⟨y1, y2⟩ := List.mem_filter.mp hx
      exact absurd (by simpa using y2) (x1 x y1)

/-- C41: a tree that is not that of a procedure is turned down. -/
theorem C41_other (p : Procd) (t : PNode)
    (h : t.tag ∉ procTags) :
    ∃ p', ingest p t = .ok (false, p') ∧ p'.ranges = p.ranges := by
  simp only [procTags, List.mem_cons, List.not_mem_nil, or_false] at h
  exact ⟨{ p with root := some t, tag := t.tag }, by rw [ingest]; simp only; rw [if_neg h], rfl⟩

end Proc
end FLPR
