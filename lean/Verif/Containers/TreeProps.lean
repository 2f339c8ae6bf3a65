import Verif.Containers.TreeLemmas
/-!
# C30: the links of a tree

Every history of tree operations keeps all links right, and the trees are those of the
specification.
-/

namespace FLPR
namespace Tr

variable {α : Type}

open FLPR.Tr.Spec (Rose)

theorem map_set_some (ts : List (Option (Rose α))) (i : Nat) (x : Rose α) :
    (ts.set i (some x)).map (Option.map embedRoot)
      = (ts.map (Option.map embedRoot)).set i (some (embedRoot x)) := by
  rw [List.map_set]
  rfl

theorem map_set_none (ts : List (Option (Rose α))) (i : Nat) :
    (ts.set i none).map (Option.map embedRoot)
      = (ts.map (Option.map embedRoot)).set i none := by
  rw [List.map_set]
  rfl

theorem insertKid_root (t : Rose α) (k : Nat) (b : Rose α) :
    embedRoot (t.insertKid k b) = embed t.handle (t.insertKid k b) := by
  rw [embedRoot, insertKid_handle]

/-- One command of the specification is done by the code. -/
theorem step_sim (hoist : α → Bool) {w : World α} {v v' : Spec.World α} (inv : Inv w v)
    {c : Cmd α} (h : v.step hoist c = some v') :
    ∃ w', w.step hoist c = .ok w' ∧ Inv w' v' := by
  cases c with
  | new x =>
    simp only [Spec.World.step, Option.some.injEq] at h
    subst h
    refine ⟨_, rfl, ?_, ?_, ?_⟩
    · simp [inv.next]
    · simp only [inv.trees, List.map_append, List.map_cons, List.map_nil, Option.map_some, inv.next]
      rfl
    · refine inv.good.step (by simp) ?_
      intro a
      rw [world_handles, world_handles]
      simp only [List.flatMap_append, List.flatMap_cons, List.flatMap_nil, hs, Rose.handles,
        Rose.handlesAll, cnt, List.count_append, List.count_cons, List.count_nil, List.append_nil]
      split_ifs <;> simp at * <;> omega
  | emplace i n k x =>
    simp only [Spec.World.step, Option.bind_eq_some_iff] at h
    obtain ⟨t, ht, y, hy, h⟩ := h
    by_cases hk : k ≤ y.kids.length
    · rw [if_pos hk] at h
      cases h
      have nd := inv.good.live_nodup ht
      obtain ⟨q, hq⟩ := (find_embed n t.handle t).2 y hy
      have hm := modify_embed n (TNode.emplace k w.next (TNode.fresh w.next x))
        (fun z => z.insertKid k (.node w.next x [])) y
        (fun q => emplace_embed k w.next q x y hk) t.handle t (nodup_iff_cnt.mp nd n) hy
      refine ⟨⟨w.trees.set i (some (embed t.handle
        (t.change n fun z => z.insertKid k (.node w.next x [])))), w.next + 1⟩, ?_, ?_, ?_, ?_⟩
      · simp only [World.step, inv.get ht, embedRoot_eq, hq, hm, Res.ok_bind]
      · simp [inv.next]
      · rw [map_set_some, embedRoot, change_handle n _ (fun z => insertKid_handle k _ z),
          inv.trees, inv.next]
      · refine inv.good.step (by simp) ?_
        intro a
        have h1 := cnt_flatMap_set a
          (some (t.change n fun z => z.insertKid k (.node v.next x []))) v.trees i (some t)
          (live_get ht)
        have h2 := cnt_change n (fun z => z.insertKid k (.node v.next x [])) y a t (nodup_iff_cnt.mp nd n) hy
        have h3 := cnt_insertKid a k (.node v.next x []) y
        rw [world_handles, world_handles]
        simp only [hs, Rose.handles, Rose.handlesAll, cnt, List.count_cons, List.count_nil]
          at h1 h2 h3 ⊢
        split_ifs at * with h4 h5 <;> simp at * <;> omega
    · rw [if_neg hk] at h
      exact absurd h (by simp)
  | graft i k j =>
    simp only [Spec.World.step] at h
    by_cases hij : i = j
    · rw [if_pos hij] at h; exact absurd h (by simp)
    rw [if_neg hij] at h
    simp only [Option.bind_eq_some_iff] at h
    obtain ⟨t, ht, d, hd, h⟩ := h
    by_cases hk : k ≤ t.kids.length
    · rw [if_pos hk] at h
      cases h
      refine ⟨⟨(w.trees.set i (some (embed t.handle
        (t.insertKid k (d.relabel w.next))))).set j none, w.next + 1⟩, ?_, ?_, ?_, ?_⟩
      · simp only [World.step, if_neg hij, inv.get ht, inv.get hd, embedRoot_eq,
          graft_embed _ _ _ _ _ _ hk, Res.ok_bind]
      · simp [inv.next]
      · rw [map_set_none, map_set_some, insertKid_root, inv.trees, inv.next]
      · refine inv.good.step (by simp) ?_
        intro a
        have h1 := cnt_flatMap_set a (some (t.insertKid k (d.relabel v.next))) v.trees i (some t)
          (live_get ht)
        have h2 := cnt_flatMap_set a none
          (v.trees.set i (some (t.insertKid k (d.relabel v.next)))) j (some d)
          (by rw [List.getElem?_set_ne hij]; exact live_get hd)
        have h3 := cnt_insertKid a k (d.relabel v.next) t
        have h4 := cnt_relabel a v.next d
        rw [world_handles, world_handles]
        simp only [hs, cnt, List.count_nil] at h1 h2 h3 h4 ⊢
        split_ifs at * <;> omega
    · rw [if_neg hk] at h
      exact absurd h (by simp)
  | hoist i j =>
    simp only [Spec.World.step] at h
    by_cases hij : i = j
    · rw [if_pos hij] at h; exact absurd h (by simp)
    rw [if_neg hij] at h
    simp only [Option.bind_eq_some_iff] at h
    obtain ⟨o, ho, d, hd, h⟩ := h
    have hwi := inv.getOpt ho
    have hwj := inv.getOpt hd
    cases d with
    | none =>
      cases h
      refine ⟨w, ?_, inv⟩
      simp only [World.step, if_neg hij, hwi, hwj, Option.map_none]
    | some d =>
      simp only [Option.bind_eq_some_iff] at h
      obtain ⟨t, ht, h⟩ := h
      have hstep : w.step hoist (.hoist i j) = (do
          let r ← hoistBack hoist w.next (embed d.handle d) (embed t.handle t)
          .ok ⟨(w.trees.set i (some r.1)).set j none, r.2⟩) := by
        simp only [World.step, if_neg hij, inv.get ht, hwj, Option.map_some, embedRoot_eq]
      rw [hstep, hoist_embed]
      by_cases hh : hoist d.val = true
      · rw [if_pos hh] at h ⊢
        cases h
        refine ⟨_, rfl, ?_, ?_, ?_⟩
        · simp [inv.next]
        · rw [map_set_none, map_set_some, embedRoot, appendKids_handle, inv.trees, inv.next]
        · refine inv.good.step (by simp) ?_
          intro a
          have h1 := cnt_flatMap_set a (some (t.appendKids v.next d.kids)) v.trees i (some t)
            (live_get ht)
          have h2 := cnt_flatMap_set a none
            (v.trees.set i (some (t.appendKids v.next d.kids))) j (some d)
            (by rw [List.getElem?_set_ne hij]; exact hd)
          have h3 := cnt_appendKids a v.next d.kids t
          have h4 := cnt_kids_le a d
          rw [world_handles, world_handles]
          simp only [hs, cnt, List.count_nil] at h1 h2 h3 h4 ⊢
          split_ifs at * <;> omega
      · rw [if_neg hh] at h ⊢
        cases h
        refine ⟨_, rfl, ?_, ?_, ?_⟩
        · simp [inv.next]
        · rw [map_set_none, map_set_some, insertKid_root, inv.trees, inv.next]
        · refine inv.good.step (by simp) ?_
          intro a
          have h1 := cnt_flatMap_set a (some (t.insertKid t.kids.length (d.relabel v.next)))
            v.trees i (some t) (live_get ht)
          have h2 := cnt_flatMap_set a none
            (v.trees.set i (some (t.insertKid t.kids.length (d.relabel v.next)))) j (some d)
            (by rw [List.getElem?_set_ne hij]; exact hd)
          have h3 := cnt_insertKid a t.kids.length (d.relabel v.next) t
          have h4 := cnt_relabel a v.next d
          rw [world_handles, world_handles]
          simp only [hs, cnt, List.count_nil] at h1 h2 h3 h4 ⊢
          split_ifs at * <;> omega
  | swap i j =>
    simp only [Spec.World.step, Option.bind_eq_some_iff, Option.map_eq_some_iff] at h
    obtain ⟨x, hx, y, hy, h⟩ := h
    subst h
    refine ⟨⟨(w.trees.set i (y.map embedRoot)).set j (x.map embedRoot), w.next⟩, ?_, ?_, ?_, ?_⟩
    · simp only [World.step, inv.getOpt hx, inv.getOpt hy]
    · exact inv.next
    · rw [List.map_set, List.map_set, inv.trees]
    · refine inv.good.step (Nat.le_refl _) ?_
      intro a
      have h1 := cnt_flatMap_set a y v.trees i x hx
      have hj : (v.trees.set i y)[j]? = some y := by
        by_cases hij : i = j
        · subst hij
          rw [List.getElem?_set_self (List.getElem?_eq_some_iff.mp hx).1]
        · rw [List.getElem?_set_ne hij]; exact hy
      have h2 := cnt_flatMap_set a x (v.trees.set i y) j y hj
      rw [world_handles, world_handles]
      simp only [cnt] at h1 h2 ⊢
      omega
  | swapNodes i n j m =>
    simp only [Spec.World.step, Option.bind_eq_some_iff] at h
    obtain ⟨t, ht, u, hu, x, hx, y, hy, h⟩ := h
    obtain ⟨q1, hq1⟩ := (find_embed n t.handle t).2 x hx
    obtain ⟨q2, hq2⟩ := (find_embed m u.handle u).2 y hy
    by_cases hnm : n = m
    · rw [if_pos hnm] at h
      cases h
      refine ⟨w, ?_, inv⟩
      simp only [World.step, inv.get ht, inv.get hu, embedRoot_eq, hq1, hq2, if_pos hnm]
    rw [if_neg hnm] at h
    by_cases hap : m ∈ x.handles ∨ n ∈ y.handles
    · rw [if_pos hap] at h; exact absurd h (by simp)
    rw [if_neg hap] at h
    obtain ⟨hmx, hny⟩ := not_or.mp hap
    have ndt := inv.good.live_nodup ht
    have ndu := inv.good.live_nodup hu
    simp only [Option.map_eq_some_iff] at h
    obtain ⟨u', hu', h⟩ := h
    subst h
    have hxh : x.handle = n := get_handle n t x hx
    have hyh : y.handle = m := get_handle m u y hy
    -- the first half
    have hm1 := modify_embed n (fun z => .ok (z.takeContents (embed q2 y)))
      (fun z => z.withContents y) x (fun q => by rw [takeContents_embed]) t.handle t (nodup_iff_cnt.mp ndt n) hx
    have hf1 : ((embed q1 x).find m).isSome = false := by
      rw [(find_embed m q1 x).1 ((get_none_iff m x).mpr hmx)]; rfl
    have hf2 : ((embed q2 y).find n).isSome = false := by
      rw [(find_embed n q2 y).1 ((get_none_iff n y).mpr hny)]; rfl
    have hroot : embedRoot (t.change n fun z => z.withContents y)
        = embed t.handle (t.change n fun z => z.withContents y) := by
      rw [embedRoot, change_handle n _ (fun z => withContents_handle y z)]
    -- the tree with the second node after the first half
    have hu's : (v.trees.set i (some (t.change n fun z => z.withContents y)))[j]?
        = some (some u') := by
      cases hz : (v.trees.set i (some (t.change n fun z => z.withContents y)))[j]? with
      | none => rw [hz] at hu'; exact absurd hu' (by simp)
      | some o => rw [hz] at hu'; cases o <;> simp_all
    have hi := (List.getElem?_eq_some_iff.mp (live_get ht)).1
    have hmxy : i = j → m ∉ (x.withContents y).handles → u'.get m = some y := by
      intro hij hm'
      subst hij
      rw [ht] at hu
      cases hu
      rw [List.getElem?_set_self hi] at hu's
      cases hu's
      exact get_change n m _ x y hm' hmx hny t ndt hx hy
    have ndy : cnt m y.handles ≤ 1 := by
      have := nodup_iff_cnt.mp ndu m
      have h1 := cnt_change m (fun z => .node (m + 1) z.val []) y m u this hy
      have h2 : cnt m (Rose.node (m + 1) y.val []).handles = 0 := by
        simp [Rose.handles, Rose.handlesAll, cnt]
      omega
    have hmw : cnt m (x.withContents y).handles = 0 := by
      have h1 := cnt_withContents m y x
      rw [if_pos hyh, if_neg (by rw [hxh]; exact hnm)] at h1
      omega
    have hmx0 : cnt m x.handles = 0 := by
      by_contra hc
      exact hmx (mem_iff_cnt.mpr (Nat.pos_of_ne_zero hc))
    have hget : u'.get m = some y ∧ cnt m u'.handles ≤ 1 := by
      by_cases hij : i = j
      · refine ⟨hmxy hij (fun hc => ?_), ?_⟩
        · rw [mem_iff_cnt] at hc; omega
        · subst hij
          rw [ht] at hu
          cases hu
          rw [List.getElem?_set_self hi] at hu's
          cases hu's
          have h1 := cnt_change n (fun z => z.withContents y) x m t (nodup_iff_cnt.mp ndt n) hx
          have h2 := nodup_iff_cnt.mp ndt m
          omega
      · rw [List.getElem?_set_ne hij, live_get hu] at hu's
        cases hu's
        exact ⟨hy, nodup_iff_cnt.mp ndu m⟩
    have hm2 := modify_embed m (fun z => .ok (z.takeContents (embed q1 x)))
      (fun z => z.withContents x) y (fun q => by rw [takeContents_embed]) u'.handle u' hget.2
      hget.1
    have hroot2 : embedRoot (u'.change m fun z => z.withContents x)
        = embed u'.handle (u'.change m fun z => z.withContents x) := by
      rw [embedRoot, change_handle m _ (fun z => withContents_handle x z)]
    have hwu : (w.trees.set i (some (embed t.handle (t.change n fun z => z.withContents y))))[j]?
        = some (some (embed u'.handle u')) := by
      rw [inv.trees, ← hroot, ← map_set_some, List.getElem?_map, hu's]
      rfl
    refine ⟨⟨(w.trees.set i (some (embed t.handle (t.change n fun z => z.withContents y)))).set j
      (some (embed u'.handle (u'.change m fun z => z.withContents x))), w.next⟩, ?_, ?_, ?_, ?_⟩
    · simp only [World.step, inv.get ht, inv.get hu, embedRoot_eq, hq1, hq2, if_neg hnm, hf1, hf2,
        Bool.or_self, Bool.false_eq_true, if_false, hm1, Res.ok_bind, hwu, hm2]
    · exact inv.next
    · rw [map_set_some, map_set_some, hroot, hroot2, inv.trees]
    · refine inv.good.step (Nat.le_refl _) ?_
      intro a
      have h1 := cnt_flatMap_set a (some (t.change n fun z => z.withContents y)) v.trees i
        (some t) (live_get ht)
      have h2 := cnt_flatMap_set a (some (u'.change m fun z => z.withContents x))
        (v.trees.set i (some (t.change n fun z => z.withContents y))) j (some u') hu's
      have h3 := cnt_change n (fun z => z.withContents y) x a t (nodup_iff_cnt.mp ndt n) hx
      have h4 := cnt_change m (fun z => z.withContents x) y a u' hget.2 hget.1
      have h5 := cnt_withContents a y x
      have h6 := cnt_withContents a x y
      rw [world_handles, world_handles]
      simp only [hs, cnt] at h1 h2 h3 h4 h5 h6 ⊢
      omega
  | move i =>
    simp only [Spec.World.step, Option.map_eq_some_iff] at h
    obtain ⟨t, ht, h⟩ := h
    subst h
    refine ⟨⟨w.trees.set i none ++ [t.map embedRoot], w.next⟩, ?_, ?_, ?_, ?_⟩
    · simp only [World.step, inv.getOpt ht]
    · exact inv.next
    · rw [List.map_append, List.map_set, inv.trees]; rfl
    · refine inv.good.step (Nat.le_refl _) ?_
      intro a
      have h1 := cnt_flatMap_set a none v.trees i t ht
      rw [world_handles, world_handles]
      simp only [hs, cnt, List.count_nil, List.flatMap_append, List.flatMap_cons,
        List.flatMap_nil, List.append_nil, List.count_append] at h1 ⊢
      omega
  | moveAssign i j =>
    simp only [Spec.World.step, Option.bind_eq_some_iff, Option.map_eq_some_iff] at h
    obtain ⟨x, hx, t, ht, h⟩ := h
    by_cases hij : i = j
    · rw [if_pos hij] at h
      subst h
      refine ⟨w, ?_, inv⟩
      simp only [World.step, inv.getOpt hx, inv.getOpt ht, if_pos hij]
    · rw [if_neg hij] at h
      subst h
      refine ⟨⟨(w.trees.set i (t.map embedRoot)).set j none, w.next⟩, ?_, ?_, ?_, ?_⟩
      · simp only [World.step, inv.getOpt hx, inv.getOpt ht, if_neg hij]
      · exact inv.next
      · rw [List.map_set, List.map_set, inv.trees]; rfl
      · refine inv.good.step (Nat.le_refl _) ?_
        intro a
        have h1 := cnt_flatMap_set a t v.trees i x hx
        have h2 := cnt_flatMap_set a none (v.trees.set i t) j t
          (by rw [List.getElem?_set_ne hij]; exact ht)
        rw [world_handles, world_handles]
        simp only [hs, cnt, List.count_nil] at h1 h2 ⊢
        omega
  | clear i =>
    simp only [Spec.World.step, Option.map_eq_some_iff] at h
    obtain ⟨t, ht, h⟩ := h
    subst h
    refine ⟨⟨w.trees.set i none, w.next⟩, ?_, ?_, ?_, ?_⟩
    · simp only [World.step, inv.getOpt ht]
    · exact inv.next
    · rw [List.map_set, inv.trees]; rfl
    · refine inv.good.step (Nat.le_refl _) ?_
      intro a
      have h1 := cnt_flatMap_set a none v.trees i t ht
      rw [world_handles, world_handles]
      simp only [hs, cnt, List.count_nil] at h1 ⊢
      omega

/-- A command that the specification refuses makes the code fail. -/
theorem step_refused (hoist : α → Bool) {w : World α} {v : Spec.World α} (inv : Inv w v)
    {c : Cmd α} (h : v.step hoist c = none) : ∃ e, w.step hoist c = .error e := by
  have hopt : ∀ i : Nat, v.trees[i]? = none → w.trees[i]? = none := by
    intro i hi
    rw [inv.trees, List.getElem?_map, hi]
    rfl
  have hlive : ∀ i : Nat, v.live i = none → w.trees[i]? = none ∨ w.trees[i]? = some none := by
    intro i hi
    unfold Spec.World.live at hi
    cases hx : v.trees[i]? with
    | none => exact .inl (hopt i hx)
    | some o =>
      rw [hx] at hi
      cases o with
      | none => exact .inr (inv.getOpt hx)
      | some r => exact absurd hi (by simp)
  cases c with
  | new x => simp [Spec.World.step] at h
  | emplace i n k x =>
    simp only [Spec.World.step] at h
    cases ht : v.live i with
    | none =>
      rcases hlive i ht with h1 | h1
      · exact ⟨.ub, by simp only [World.step, h1]⟩
      · exact ⟨.assertion, by simp only [World.step, h1]⟩
    | some t =>
      rw [ht] at h
      simp only [Option.bind_some] at h
      cases hy : t.get n with
      | none =>
        exact ⟨.ub, by
          simp only [World.step, inv.get ht, embedRoot_eq, (find_embed n t.handle t).1 hy]⟩
      | some y =>
        rw [hy] at h
        simp only [Option.bind_some] at h
        by_cases hk : k ≤ y.kids.length
        · rw [if_pos hk] at h; exact absurd h (by simp)
        · obtain ⟨q, hq⟩ := (find_embed n t.handle t).2 y hy
          have hm := modify_fail n (TNode.emplace k w.next (TNode.fresh w.next x)) .ub y
            (fun q => emplace_fail k w.next q x y (by omega)) t.handle t
            (nodup_iff_cnt.mp (inv.good.live_nodup ht) n) hy
          exact ⟨.ub, by simp only [World.step, inv.get ht, embedRoot_eq, hq, hm, Res.error_bind]⟩
  | graft i k j =>
    simp only [Spec.World.step] at h
    by_cases hij : i = j
    · exact ⟨.ub, by simp only [World.step, if_pos hij]⟩
    rw [if_neg hij] at h
    cases ht : v.live i with
    | none =>
      rcases hlive i ht with h1 | h1
      · refine ⟨.ub, ?_⟩
        simp only [World.step, if_neg hij, h1]
      · cases hd : w.trees[j]? with
        | none => exact ⟨.ub, by simp only [World.step, if_neg hij, h1, hd]⟩
        | some d => cases d <;> exact ⟨.assertion, by simp only [World.step, if_neg hij, h1, hd]⟩
    | some t =>
      rw [ht] at h
      simp only [Option.bind_some] at h
      cases hd : v.live j with
      | none =>
        rcases hlive j hd with h1 | h1
        · exact ⟨.ub, by simp only [World.step, if_neg hij, h1, inv.get ht]⟩
        · exact ⟨.assertion, by simp only [World.step, if_neg hij, h1, inv.get ht]⟩
      | some d =>
        rw [hd] at h
        simp only [Option.bind_some] at h
        by_cases hk : k ≤ t.kids.length
        · rw [if_pos hk] at h; exact absurd h (by simp)
        · exact ⟨.ub, by simp only [World.step, if_neg hij, inv.get ht, inv.get hd, embedRoot_eq,
            graft_fail k w.next t.handle d.handle d t (by omega), Res.error_bind]⟩
  | hoist i j =>
    simp only [Spec.World.step] at h
    by_cases hij : i = j
    · exact ⟨.ub, by simp only [World.step, if_pos hij]⟩
    rw [if_neg hij] at h
    cases hi : v.trees[i]? with
    | none => exact ⟨.ub, by simp only [World.step, if_neg hij, hopt i hi]⟩
    | some o =>
      rw [hi] at h
      simp only [Option.bind_some] at h
      cases hj : v.trees[j]? with
      | none =>
        have := hopt j hj
        cases o <;>
          exact ⟨.ub, by simp only [World.step, if_neg hij, inv.getOpt hi, this, Option.map]⟩
      | some d =>
        rw [hj] at h
        simp only [Option.bind_some] at h
        cases d with
        | none => exact absurd h (by simp)
        | some d =>
          cases o with
          | none =>
            exact ⟨.assertion, by
              simp only [World.step, if_neg hij, inv.getOpt hi, inv.getOpt hj, Option.map]⟩
          | some t =>
            have : v.live i = some t := by simp [Spec.World.live, hi]
            simp only [this, Option.bind_some] at h
            by_cases hh : hoist d.val = true
            · rw [if_pos hh] at h; exact absurd h (by simp)
            · rw [if_neg hh] at h; exact absurd h (by simp)
  | swap i j =>
    simp only [Spec.World.step] at h
    cases hi : v.trees[i]? with
    | none => exact ⟨.ub, by simp only [World.step, hopt i hi]⟩
    | some o =>
      rw [hi] at h
      simp only [Option.bind_some, Option.map_eq_none_iff] at h
      exact ⟨.ub, by simp only [World.step, inv.getOpt hi, hopt j h]⟩
  | swapNodes i n j m =>
    simp only [Spec.World.step] at h
    cases ht : v.live i with
    | none =>
      rcases hlive i ht with h1 | h1
      · exact ⟨.ub, by simp only [World.step, h1]⟩
      · exact ⟨.ub, by simp only [World.step, h1]⟩
    | some t =>
      rw [ht] at h
      simp only [Option.bind_some] at h
      cases hu : v.live j with
      | none =>
        rcases hlive j hu with h1 | h1
        · exact ⟨.ub, by simp only [World.step, inv.get ht, h1]⟩
        · exact ⟨.ub, by simp only [World.step, inv.get ht, h1]⟩
      | some u =>
        rw [hu] at h
        simp only [Option.bind_some] at h
        cases hx : t.get n with
        | none =>
          exact ⟨.ub, by simp only [World.step, inv.get ht, inv.get hu, embedRoot_eq,
            (find_embed n t.handle t).1 hx]⟩
        | some x =>
          obtain ⟨q1, hq1⟩ := (find_embed n t.handle t).2 x hx
          rw [hx] at h
          simp only [Option.bind_some] at h
          cases hy : u.get m with
          | none =>
            exact ⟨.ub, by simp only [World.step, inv.get ht, inv.get hu, embedRoot_eq, hq1,
              (find_embed m u.handle u).1 hy]⟩
          | some y =>
            obtain ⟨q2, hq2⟩ := (find_embed m u.handle u).2 y hy
            rw [hy] at h
            simp only [Option.bind_some] at h
            by_cases hnm : n = m
            · rw [if_pos hnm] at h; exact absurd h (by simp)
            rw [if_neg hnm] at h
            by_cases hap : m ∈ x.handles ∨ n ∈ y.handles
            · have hb : (((embed q1 x).find m).isSome || ((embed q2 y).find n).isSome) = true := by
                rcases hap with hm | hn
                · rw [find_isSome hm]; rfl
                · rw [find_isSome hn, Bool.or_true]
              exact ⟨.ub, by simp only [World.step, inv.get ht, inv.get hu, embedRoot_eq, hq1, hq2,
                if_neg hnm, hb, if_true]⟩
            · rw [if_neg hap] at h
              exfalso
              simp only [Option.map_eq_none_iff] at h
              have hi := (List.getElem?_eq_some_iff.mp (live_get ht)).1
              by_cases hij : i = j
              · subst hij
                rw [List.getElem?_set_self hi] at h
                exact absurd h (by simp)
              · rw [List.getElem?_set_ne hij, live_get hu] at h
                exact absurd h (by simp)
  | move i =>
    simp only [Spec.World.step, Option.map_eq_none_iff] at h
    exact ⟨.ub, by simp only [World.step, hopt i h]⟩
  | moveAssign i j =>
    simp only [Spec.World.step] at h
    cases hi : v.trees[i]? with
    | none => exact ⟨.ub, by simp only [World.step, hopt i hi]⟩
    | some o =>
      rw [hi] at h
      simp only [Option.bind_some, Option.map_eq_none_iff] at h
      exact ⟨.ub, by simp only [World.step, inv.getOpt hi, hopt j h]⟩
  | clear i =>
    simp only [Spec.World.step, Option.map_eq_none_iff] at h
    exact ⟨.ub, by simp only [World.step, hopt i h]⟩

theorem Inv.matches {w : World α} {v : Spec.World α} (inv : Inv w v) : Matches w v := by
  refine ⟨inv.next, by rw [inv.trees, List.length_map], ?_, ?_, inv.good.nodup⟩
  · intro i t ht
    rw [inv.trees, List.getElem?_map] at ht
    cases hx : v.trees[i]? with
    | none => rw [hx] at ht; exact absurd ht (by simp)
    | some o =>
      cases o with
      | none => rw [hx] at ht; exact absurd ht (by simp)
      | some r =>
        rw [hx] at ht
        simp only [Option.map_some, Option.some.injEq] at ht
        subst ht
        refine ⟨r, by simp [Spec.World.live, hx], shape_embed _ r, ?_, check_embed _ r,
          size_embed _ r⟩
        rw [embedRoot, embed_addr]
        exact linked_embed _ r
  · intro i hi
    unfold Spec.World.live at hi
    rw [inv.trees, List.getElem?_map]
    cases hx : v.trees[i]? with
    | none => rfl
    | some o =>
      rw [hx] at hi
      cases o with
      | none => rfl
      | some r => exact absurd hi (by simp)

theorem run_sim (hoist : α → Bool) : ∀ (cs : List (Cmd α)) (w : World α) (v : Spec.World α),
    Inv w v →
    (∀ v', v.run hoist cs = some v' → ∃ w', w.run hoist cs = .ok w' ∧ Inv w' v') ∧
    (v.run hoist cs = none → ∃ e, w.run hoist cs = .error e)
  | [], w, v, inv => by
    simp only [Spec.World.run, World.run]
    refine ⟨?_, by simp⟩
    rintro v' ⟨⟩
    exact ⟨w, rfl, inv⟩
  | c :: cs, w, v, inv => by
    simp only [Spec.World.run, World.run]
    cases hv : v.step hoist c with
    | none =>
      obtain ⟨e, he⟩ := step_refused hoist inv hv
      refine ⟨by simp, fun _ => ⟨e, ?_⟩⟩
      rw [he, Res.error_bind]
    | some v1 =>
      obtain ⟨w1, hw1, inv1⟩ := step_sim hoist inv hv
      rw [hw1]
      simp only [Option.bind_some, Res.ok_bind]
      exact run_sim hoist cs w1 v1 inv1

/-- No trees. -/
def World.start : World α := ⟨[], 0⟩
/-- No trees. -/
def Spec.World.start : Spec.World α := ⟨[], 0⟩

theorem inv_start : Inv (World.start : World α) Spec.World.start :=
  ⟨rfl, rfl, by constructor <;> simp [Spec.World.handles, Spec.World.start]⟩

/-- **C30.**  Whatever a program does with any number of trees, as long as no operation is
refused: every node's self handle is its own address, its parent link is the address of the node
above it (its own address for a root), no two nodes share an address, `check()` passes, `size()`
is the number of nodes, and the trees have the values and branches that the specification says. -/
theorem C30_history (hoist : α → Bool) (cs : List (Cmd α)) (w : World α)
    (h : World.start.run hoist cs = .ok w) :
    ∃ v, Spec.World.start.run hoist cs = some v ∧ Matches w v := by
  obtain ⟨h1, h2⟩ := run_sim hoist cs World.start Spec.World.start inv_start
  cases hv : Spec.World.run hoist Spec.World.start cs with
  | none =>
    obtain ⟨e, he⟩ := h2 hv
    rw [he] at h
    exact absurd h (by simp)
  | some v =>
    obtain ⟨w', hw', inv⟩ := h1 v hv
    rw [hw'] at h
    cases h
    exact ⟨v, rfl, inv.matches⟩

/-- **C30.**  The code fails exactly on the histories that the specification refuses. -/
theorem C30_total (hoist : α → Bool) (cs : List (Cmd α)) :
    (∃ w, World.start.run hoist cs = .ok w) ↔
    (∃ v, Spec.World.start.run hoist cs = some v) := by
  obtain ⟨h1, h2⟩ := run_sim hoist cs World.start Spec.World.start inv_start
  constructor
  · rintro ⟨w, hw⟩
    obtain ⟨v, hv, -⟩ := C30_history hoist cs w hw
    exact ⟨v, hv⟩
  · rintro ⟨v, hv⟩
    obtain ⟨w, hw, -⟩ := h1 v hv
    exact ⟨w, hw⟩

/-- **C30.**  What `graft(Tree &&)` and `hoist_back` leave in the donor: a root without contents, on
which `size()` and `check()` fail their assertions, although the donor does not report itself
empty.  (`graft(Tree &)` clears the donor.) -/
theorem C30_donor (t : TNode α) :
    t.husk.size = .error .assertion ∧ t.husk.check = .error .assertion := by
  cases t with
  | mk a l p s v ks =>
    refine ⟨rfl, ?_⟩
    simp only [TNode.husk, TNode.check]
    split <;> rfl

/-- Two trees are built, the second is grafted in front of the first's branch, a third is
hoisted, and two nodes are swapped. -/
def demoCmds : List (Cmd Nat) :=
  [.new 10, .emplace 0 0 0 11, .new 20, .emplace 1 2 0 21, .graft 0 0 1,
   .new 0, .emplace 2 5 0 31, .emplace 2 5 1 32, .hoist 0 2, .swapNodes 0 4 0 1, .move 0]

example : (World.start.run (fun v => v == 0) demoCmds).toOption.map (fun w =>
    (w.next, w.trees.map (Option.map fun t => t.check.toOption)))
    = some (10, [none, none, none, some (some ())]) := by
  decide +kernel

/-- The tree at the end: 4 has the contents of 1 and the other way round. -/
example : (Spec.World.start.run (fun v => v == 0) demoCmds).map (fun v =>
    v.trees.map (Option.map fun r => (r.handles, r.values)))
    = some [none, none, none, some ([0, 4, 1, 3, 8, 9], [10, 11, 20, 21, 31, 32])] := by
  rfl

end Tr
end FLPR
