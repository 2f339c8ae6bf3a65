import Verif.Containers.TreeSpec
/-!
# `Tree`: helper lemmas for C30 and C31
-/

namespace FLPR
namespace Tr

variable {α : Type}

open FLPR.Tr.Spec (Rose)

mutual
/-- A tree with right links, below the node at address `p`. -/
def embed (p : Nat) : Rose α → TNode α
  | .node h v ks => .mk h true p h (some v) (embedAll h ks)
def embedAll (p : Nat) : List (Rose α) → List (TNode α)
  | [] => []
  | k :: ks => embed p k :: embedAll p ks
end

/-- A whole tree with right links. -/
def embedRoot (r : Rose α) : TNode α := embed r.handle r

theorem embedAll_map (p : Nat) (ks : List (Rose α)) : embedAll p ks = ks.map (embed p) := by
  induction ks with
  | nil => rfl
  | cons k ks ih => simp [embedAll, ih]

theorem setParent_embed (p q : Nat) (r : Rose α) : (embed p r).setParent q = embed q r := by
  cases r
  rfl

theorem map_setParent_embedAll (p q : Nat) (ks : List (Rose α)) :
    (embedAll p ks).map (TNode.setParent q) = embedAll q ks := by
  rw [embedAll_map, embedAll_map, List.map_map]
  exact List.map_congr_left fun k _ => setParent_embed p q k

theorem link_embed (p a s : Nat) (r : Rose α) :
    ((embed p r).moveTo a).link a s = embed s (r.relabel a) := by
  cases r
  simp only [embed, TNode.moveTo, TNode.link, Rose.relabel, map_setParent_embedAll]

theorem link_fresh (a p : Nat) (v : α) :
    (TNode.fresh a v).link a p = embed p (.node a v []) := rfl

theorem moveTo_fresh (a : Nat) (v : α) : (TNode.fresh a v).moveTo a = TNode.fresh a v := rfl

mutual
theorem find_embed (n p : Nat) : ∀ r : Rose α,
    (r.get n = none → (embed p r).find n = none) ∧
    (∀ x, r.get n = some x → ∃ q, (embed p r).find n = some (embed q x))
  | .node h v ks => by
    simp only [embed, TNode.find, Rose.get]
    by_cases hn : h = n
    · rw [if_pos hn, if_pos hn]
      refine ⟨by simp, ?_⟩
      rintro x ⟨⟩
      exact ⟨p, rfl⟩
    · rw [if_neg hn, if_neg hn]
      exact findAll_embed n h ks
theorem findAll_embed (n p : Nat) : ∀ ks : List (Rose α),
    (Rose.getAll n ks = none → TNode.findAll n (embedAll p ks) = none) ∧
    (∀ x, Rose.getAll n ks = some x → ∃ q, TNode.findAll n (embedAll p ks) = some (embed q x))
  | [] => by simp [Rose.getAll, embedAll, TNode.findAll]
  | k :: ks => by
    obtain ⟨h1, h2⟩ := find_embed n p k
    obtain ⟨h3, h4⟩ := findAll_embed n p ks
    simp only [embedAll, TNode.findAll, Rose.getAll]
    cases hk : k.get n with
    | none => rw [h1 hk]; exact ⟨h3, h4⟩
    | some x =>
      obtain ⟨q, hq⟩ := h2 x hk
      rw [hq]
      refine ⟨by simp, ?_⟩
      rintro y ⟨⟩
      exact ⟨q, rfl⟩
end

mutual
theorem get_none_iff (n : Nat) : ∀ r : Rose α, r.get n = none ↔ n ∉ r.handles
  | .node h v ks => by
    simp only [Rose.get, Rose.handles, List.mem_cons, not_or]
    by_cases hn : h = n
    · simp [hn]
    · rw [if_neg hn, getAll_none_iff n ks]
      exact ⟨fun h' => ⟨fun e => hn e.symm, h'⟩, fun h' => h'.2⟩
theorem getAll_none_iff (n : Nat) : ∀ ks : List (Rose α),
    Rose.getAll n ks = none ↔ n ∉ Rose.handlesAll ks
  | [] => by simp [Rose.getAll, Rose.handlesAll]
  | k :: ks => by
    have h1 := get_none_iff n k
    have h2 := getAll_none_iff n ks
    simp only [Rose.getAll, Rose.handlesAll, List.mem_append, not_or]
    cases hk : k.get n with
    | none => simp only [h2]; exact ⟨fun h => ⟨h1.mp hk, h⟩, fun h => h.2⟩
    | some x =>
      simp only [reduceCtorEq, false_iff, not_and]
      intro h
      rw [h1.mpr h] at hk
      exact absurd hk (by simp)
end

mutual
theorem get_handle (n : Nat) : ∀ (r x : Rose α), r.get n = some x → x.handle = n
  | .node h v ks, x => by
    simp only [Rose.get]
    by_cases hn : h = n
    · rw [if_pos hn]
      rintro ⟨⟩
      exact hn
    · rw [if_neg hn]
      exact getAll_handle n ks x
theorem getAll_handle (n : Nat) : ∀ (ks : List (Rose α)) (x : Rose α),
    Rose.getAll n ks = some x → x.handle = n
  | [], x => by simp [Rose.getAll]
  | k :: ks, x => by
    have h1 := get_handle n k x
    have h2 := getAll_handle n ks x
    simp only [Rose.getAll]
    cases hk : k.get n with
    | none => exact h2
    | some y =>
      rintro ⟨⟩
      exact h1 hk
end

mutual
theorem change_absent (n : Nat) (g : Rose α → Rose α) : ∀ r : Rose α,
    n ∉ r.handles → r.change n g = r
  | .node h v ks => by
    simp only [Rose.handles, List.mem_cons, not_or, Rose.change]
    intro hh
    rw [if_neg (fun e => hh.1 e.symm), changeAll_absent n g ks hh.2]
theorem changeAll_absent (n : Nat) (g : Rose α → Rose α) : ∀ ks : List (Rose α),
    n ∉ Rose.handlesAll ks → Rose.changeAll n g ks = ks
  | [] => fun _ => rfl
  | k :: ks => by
    simp only [Rose.handlesAll, List.mem_append, not_or, Rose.changeAll]
    intro hh
    rw [change_absent n g k hh.1, changeAll_absent n g ks hh.2]
end

mutual
theorem modify_absent (n : Nat) (f : TNode α → Res (TNode α)) (p : Nat) : ∀ r : Rose α,
    n ∉ r.handles → (embed p r).modify n f = .ok (embed p r)
  | .node h v ks => by
    simp only [Rose.handles, List.mem_cons, not_or, embed, TNode.modify]
    intro hh
    rw [if_neg (fun e => hh.1 e.symm), modifyAll_absent n f h ks hh.2]
    rfl
theorem modifyAll_absent (n : Nat) (f : TNode α → Res (TNode α)) (p : Nat) :
    ∀ ks : List (Rose α), n ∉ Rose.handlesAll ks →
      TNode.modifyAll n f (embedAll p ks) = .ok (embedAll p ks)
  | [] => fun _ => rfl
  | k :: ks => by
    simp only [Rose.handlesAll, List.mem_append, not_or, embedAll, TNode.modifyAll]
    intro hh
    rw [modify_absent n f p k hh.1, modifyAll_absent n f p ks hh.2]
    rfl
end

/-! ## Counting handles -/

/-- How often a handle occurs. -/
abbrev cnt (a : Nat) (l : List Nat) : Nat := l.count a

theorem mem_iff_cnt {a : Nat} {l : List Nat} : a ∈ l ↔ 0 < cnt a l := by
  simp [cnt, List.count_pos_iff]

theorem nodup_iff_cnt {l : List Nat} : l.Nodup ↔ ∀ a, cnt a l ≤ 1 := List.nodup_iff_count

mutual
theorem modify_embed (n : Nat) (f : TNode α → Res (TNode α)) (g : Rose α → Rose α) (x : Rose α)
    (hf : ∀ q, f (embed q x) = .ok (embed q (g x))) (p : Nat) :
    ∀ r : Rose α, cnt n r.handles ≤ 1 → r.get n = some x →
    (embed p r).modify n f = .ok (embed p (r.change n g))
  | .node h v ks => by
    simp only [Rose.handles, cnt, List.count_cons, Rose.get, embed, TNode.modify, Rose.change]
    intro hnd
    by_cases hn : h = n
    · rw [if_pos hn, if_pos hn, if_pos hn]
      rintro ⟨⟩
      exact hf p
    · rw [if_neg hn, if_neg hn, if_neg hn]
      intro hg
      rw [modifyAll_embed n f g x hf h ks (by rw [cnt]; omega) hg]
      rfl
theorem modifyAll_embed (n : Nat) (f : TNode α → Res (TNode α)) (g : Rose α → Rose α)
    (x : Rose α) (hf : ∀ q, f (embed q x) = .ok (embed q (g x))) (p : Nat) :
    ∀ ks : List (Rose α), cnt n (Rose.handlesAll ks) ≤ 1 → Rose.getAll n ks = some x →
    TNode.modifyAll n f (embedAll p ks) = .ok (embedAll p (Rose.changeAll n g ks))
  | [] => by simp [Rose.getAll]
  | k :: ks => by
    simp only [Rose.handlesAll, Rose.getAll, embedAll, TNode.modifyAll, Rose.changeAll]
    intro hnd hg
    rw [cnt, List.count_append] at hnd
    have n1 : cnt n k.handles ≤ 1 := by rw [cnt]; omega
    have n2 : cnt n (Rose.handlesAll ks) ≤ 1 := by rw [cnt]; omega
    cases hk : k.get n with
    | none =>
      rw [hk] at hg
      dsimp only at hg
      have ha := (get_none_iff n k).mp hk
      rw [modify_absent n f p k ha, change_absent n g k ha,
        modifyAll_embed n f g x hf p ks n2 hg]
      rfl
    | some y =>
      rw [hk] at hg
      cases hg
      have hin : n ∈ k.handles := by
        by_contra hc
        rw [(get_none_iff n k).mpr hc] at hk
        exact absurd hk (by simp)
      have ha : n ∉ Rose.handlesAll ks := fun hm => by
        rw [mem_iff_cnt, cnt] at hin hm
        omega
      rw [modifyAll_absent n f p ks ha, changeAll_absent n g ks ha,
        modify_embed n f g x hf p k n1 hk]
      rfl
end

theorem handlesAll_append (ks ls : List (Rose α)) :
    Rose.handlesAll (ks ++ ls) = Rose.handlesAll ks ++ Rose.handlesAll ls := by
  induction ks with
  | nil => rfl
  | cons k ks ih => simp [Rose.handlesAll, ih, List.append_assoc]

theorem valuesAll_append (ks ls : List (Rose α)) :
    Rose.valuesAll (ks ++ ls) = Rose.valuesAll ks ++ Rose.valuesAll ls := by
  induction ks with
  | nil => rfl
  | cons k ks ih => simp [Rose.valuesAll, ih, List.append_assoc]

mutual
/-- Replacing a subtree exchanges its handles. -/
theorem cnt_change (n : Nat) (g : Rose α → Rose α) (x : Rose α) (a : Nat) : ∀ r : Rose α,
    cnt n r.handles ≤ 1 → r.get n = some x →
    cnt a (r.change n g).handles + cnt a x.handles = cnt a r.handles + cnt a (g x).handles
  | .node h v ks => by
    simp only [Rose.get, Rose.change]
    intro hnd
    by_cases hn : h = n
    · rw [if_pos hn, if_pos hn]
      rintro ⟨⟩
      omega
    · rw [if_neg hn, if_neg hn]
      intro hg
      simp only [Rose.handles] at hnd ⊢
      have := cntAll_change n g x a ks (by rw [cnt, List.count_cons] at hnd; rw [cnt]; omega) hg
      simp only [cnt, List.count_cons] at this ⊢
      omega
theorem cntAll_change (n : Nat) (g : Rose α → Rose α) (x : Rose α) (a : Nat) :
    ∀ ks : List (Rose α), cnt n (Rose.handlesAll ks) ≤ 1 → Rose.getAll n ks = some x →
    cnt a (Rose.handlesAll (Rose.changeAll n g ks)) + cnt a x.handles
      = cnt a (Rose.handlesAll ks) + cnt a (g x).handles
  | [] => by simp [Rose.getAll]
  | k :: ks => by
    simp only [Rose.handlesAll, Rose.getAll, Rose.changeAll]
    intro hnd hg
    rw [cnt, List.count_append] at hnd
    have n1 : cnt n k.handles ≤ 1 := by rw [cnt]; omega
    have n2 : cnt n (Rose.handlesAll ks) ≤ 1 := by rw [cnt]; omega
    simp only [cnt, List.count_append]
    cases hk : k.get n with
    | none =>
      rw [hk] at hg
      dsimp only at hg
      have ha := (get_none_iff n k).mp hk
      rw [change_absent n g k ha]
      have := cntAll_change n g x a ks n2 hg
      simp only [cnt] at this
      omega
    | some y =>
      rw [hk] at hg
      cases hg
      have hin : n ∈ k.handles := by
        by_contra hc
        rw [(get_none_iff n k).mpr hc] at hk
        exact absurd hk (by simp)
      have ha : n ∉ Rose.handlesAll ks := fun hm => by
        rw [mem_iff_cnt, cnt] at hin hm
        omega
      rw [changeAll_absent n g ks ha]
      have := cnt_change n g x a k n1 hk
      simp only [cnt] at this
      omega
end

mutual
/-- A subtree's handles are handles of the tree. -/
theorem get_subset (n : Nat) : ∀ (r x : Rose α), r.get n = some x → ∀ a ∈ x.handles, a ∈ r.handles
  | .node h v ks, x => by
    simp only [Rose.get]
    by_cases hn : h = n
    · rw [if_pos hn]
      rintro ⟨⟩
      exact fun a ha => ha
    · rw [if_neg hn]
      intro hg a ha
      simp only [Rose.handles]
      exact List.mem_cons_of_mem _ (getAll_subset n ks x hg a ha)
theorem getAll_subset (n : Nat) : ∀ (ks : List (Rose α)) (x : Rose α),
    Rose.getAll n ks = some x → ∀ a ∈ x.handles, a ∈ Rose.handlesAll ks
  | [], x => by simp [Rose.getAll]
  | k :: ks, x => by
    simp only [Rose.getAll, Rose.handlesAll]
    cases hk : k.get n with
    | none =>
      intro hg a ha
      exact List.mem_append_right _ (getAll_subset n ks x hg a ha)
    | some y =>
      rintro ⟨⟩ a ha
      exact List.mem_append_left _ (get_subset n k x hk a ha)
end

theorem get_mem {n : Nat} {r x : Rose α} (h : r.get n = some x) : n ∈ r.handles := by
  by_contra hc
  rw [(get_none_iff n r).mpr hc] at h
  exact absurd h (by simp)

theorem getAll_mem {n : Nat} {ks : List (Rose α)} {x : Rose α}
    (h : Rose.getAll n ks = some x) : n ∈ Rose.handlesAll ks := by
  by_contra hc
  rw [(getAll_none_iff n ks).mpr hc] at h
  exact absurd h (by simp)

mutual
/-- Changing the subtree `n` does not touch a subtree `m` apart from it. -/
theorem get_change (n m : Nat) (g : Rose α → Rose α) (x y : Rose α) (hm : m ∉ (g x).handles)
    (hmx : m ∉ x.handles) (hny : n ∉ y.handles) : ∀ r : Rose α, r.handles.Nodup →
    r.get n = some x → r.get m = some y → (r.change n g).get m = some y
  | .node h v ks => by
    intro hnd hx hy
    simp only [Rose.get] at hx hy
    by_cases hn : h = n
    · rw [if_pos hn] at hx
      cases hx
      exfalso
      have : (Rose.node h v ks).get m = some y := hy
      exact hmx (get_mem this)
    · rw [if_neg hn] at hx
      by_cases hm' : h = m
      · rw [if_pos hm'] at hy
        cases hy
        exfalso
        apply hny
        have : (Rose.node h v ks).get n = some x := by simp only [Rose.get, if_neg hn, hx]
        exact get_mem this
      · rw [if_neg hm'] at hy
        simp only [Rose.change, if_neg hn, Rose.get, if_neg hm']
        simp only [Rose.handles] at hnd
        exact getAll_change n m g x y hm hmx hny ks (List.nodup_cons.mp hnd).2 hx hy
theorem getAll_change (n m : Nat) (g : Rose α → Rose α) (x y : Rose α) (hm : m ∉ (g x).handles)
    (hmx : m ∉ x.handles) (hny : n ∉ y.handles) : ∀ ks : List (Rose α),
    (Rose.handlesAll ks).Nodup → Rose.getAll n ks = some x → Rose.getAll m ks = some y →
    Rose.getAll m (Rose.changeAll n g ks) = some y
  | [] => by simp [Rose.getAll]
  | k :: ks => by
    simp only [Rose.handlesAll, Rose.getAll, Rose.changeAll]
    intro hnd hx hy
    rw [List.nodup_append] at hnd
    obtain ⟨n1, n2, n3⟩ := hnd
    cases hkn : k.get n with
    | none =>
      rw [hkn] at hx
      dsimp only at hx
      rw [change_absent n g k ((get_none_iff n k).mp hkn)]
      cases hkm : k.get m with
      | none =>
        rw [hkm] at hy
        dsimp only at hy
        exact getAll_change n m g x y hm hmx hny ks n2 hx hy
      | some z =>
        rw [hkm] at hy
        exact hy
    | some z =>
      rw [hkn] at hx
      cases hx
      have ha : n ∉ Rose.handlesAll ks := fun hh => n3 n (get_mem hkn) n hh rfl
      rw [changeAll_absent n g ks ha]
      cases hkm : k.get m with
      | none =>
        rw [hkm] at hy
        dsimp only at hy
        have hnone : (k.change n g).get m = none := by
          rw [get_none_iff]
          intro hc
          have h1 := cnt_change n g x m k (nodup_iff_cnt.mp n1 n) hkn
          have h2 := (get_none_iff m k).mp hkm
          rw [mem_iff_cnt] at hc h2 hm
          omega
        rw [hnone]
        exact hy
      | some w =>
        rw [hkm] at hy
        cases hy
        rw [get_change n m g x y hm hmx hny k n1 hkn hkm]
end

/-! ## Programs -/

/-- The handles of one tree. -/
def hs : Option (Rose α) → List Nat
  | none => []
  | some r => r.handles

theorem world_handles (v : Spec.World α) : v.handles = v.trees.flatMap hs := by
  unfold Spec.World.handles
  congr 1

theorem cnt_flatMap_set (a : Nat) (x : Option (Rose α)) :
    ∀ (ts : List (Option (Rose α))) (i : Nat) (y : Option (Rose α)), ts[i]? = some y →
      cnt a ((ts.set i x).flatMap hs) + cnt a (hs y) = cnt a (ts.flatMap hs) + cnt a (hs x) := by
  intro ts
  induction ts with
  | nil => intro i y h; simp at h
  | cons t ts ih =>
    intro i y h
    cases i with
    | zero =>
      simp only [List.getElem?_cons_zero, Option.some.injEq] at h
      subst h
      simp only [List.set_cons_zero, List.flatMap_cons, cnt, List.count_append]
      omega
    | succ i =>
      simp only [List.getElem?_cons_succ] at h
      have := ih i y h
      simp only [List.set_cons_succ, List.flatMap_cons, cnt, List.count_append] at this ⊢
      omega

/-- The handles are distinct and in use. -/
structure Good (v : Spec.World α) : Prop where
  nodup : v.handles.Nodup
  old : ∀ a ∈ v.handles, a < v.next

theorem Good.step {v v' : Spec.World α} (g : Good v) (hn : v.next ≤ v'.next)
    (hc : ∀ a, cnt a v'.handles
      ≤ cnt a v.handles + (if v.next ≤ a ∧ a < v'.next then 1 else 0)) : Good v' := by
  constructor
  · rw [nodup_iff_cnt]
    intro a
    have h1 := hc a
    have h2 := nodup_iff_cnt.mp g.nodup a
    split at h1
    · rename_i h
      have h0 : cnt a v.handles = 0 := by
        by_contra hne
        have := g.old a (mem_iff_cnt.mpr (Nat.pos_of_ne_zero hne))
        omega
      omega
    · omega
  · intro a ha
    have h1 := hc a
    rw [mem_iff_cnt] at ha
    split at h1
    · rename_i h; exact h.2
    · have := g.old a (mem_iff_cnt.mpr (by omega))
      omega

theorem live_get {v : Spec.World α} {i : Nat} {r : Rose α} (h : v.live i = some r) :
    v.trees[i]? = some (some r) := by
  unfold Spec.World.live at h
  cases hx : v.trees[i]? with
  | none => rw [hx] at h; exact absurd h (by simp)
  | some o => rw [hx] at h; cases o <;> simp_all

theorem Good.live_nodup {v : Spec.World α} (g : Good v) {i : Nat} {r : Rose α}
    (h : v.live i = some r) : r.handles.Nodup := by
  rw [nodup_iff_cnt]
  intro a
  have h1 := nodup_iff_cnt.mp g.nodup a
  rw [world_handles] at h1
  have h2 := cnt_flatMap_set a none v.trees i (some r) (live_get h)
  simp only [hs, cnt, List.count_nil] at h1 h2 ⊢
  omega

/-- The relation that every command keeps. -/
structure Inv (w : World α) (v : Spec.World α) : Prop where
  next : w.next = v.next
  trees : w.trees = v.trees.map (Option.map embedRoot)
  good : Good v

theorem Inv.get {w : World α} {v : Spec.World α} (inv : Inv w v) {i : Nat} {r : Rose α}
    (h : v.live i = some r) : w.trees[i]? = some (some (embedRoot r)) := by
  rw [inv.trees, List.getElem?_map, live_get h]
  rfl

theorem Inv.getOpt {w : World α} {v : Spec.World α} (inv : Inv w v) {i : Nat}
    {o : Option (Rose α)} (h : v.trees[i]? = some o) :
    w.trees[i]? = some (o.map embedRoot) := by
  rw [inv.trees, List.getElem?_map, h]
  rfl

theorem embedRoot_eq (r : Rose α) : embedRoot r = embed r.handle r := rfl

theorem change_handle (n : Nat) (g : Rose α → Rose α) (hg : ∀ x, (g x).handle = x.handle)
    (r : Rose α) : (r.change n g).handle = r.handle := by
  cases r with
  | node h v ks =>
    simp only [Rose.change]
    split
    · exact hg _
    · rfl

theorem insertKid_handle (k : Nat) (b r : Rose α) : (r.insertKid k b).handle = r.handle := by
  cases r; rfl
theorem appendKids_handle (a : Nat) (m : List (Rose α)) (r : Rose α) :
    (r.appendKids a m).handle = r.handle := by
  cases r; rfl
theorem withContents_handle (o r : Rose α) : (r.withContents o).handle = r.handle := by
  cases r; rfl

theorem emplace_embed (k a q : Nat) (v : α) (x : Rose α) (hk : k ≤ x.kids.length) :
    TNode.emplace k a (TNode.fresh a v) (embed q x)
      = .ok (embed q (x.insertKid k (.node a v []))) := by
  cases x with
  | node h w ks =>
    simp only [Rose.kids] at hk
    simp only [embed, TNode.emplace, Rose.insertKid, embedAll_map]
    rw [if_neg (by simp), if_neg (by simp; omega), if_neg (by simp)]
    simp only [moveTo_fresh, link_fresh, List.map_append, List.map_cons, List.map_take,
      List.map_drop]

theorem graft_embed (k a q p : Nat) (d x : Rose α) (hk : k ≤ x.kids.length) :
    graft k a (embed p d) (embed q x) = .ok (embed q (x.insertKid k (d.relabel a))) := by
  cases x with
  | node h w ks =>
    simp only [Rose.kids] at hk
    simp only [embed, graft, Rose.insertKid, embedAll_map]
    rw [if_neg (by simp), if_neg (by simp; omega)]
    simp only [link_embed, List.map_append, List.map_cons, List.map_take, List.map_drop]

theorem embed_value (q : Nat) (x : Rose α) : (embed q x).value = some x.val := by
  cases x; rfl
theorem embed_kids (q : Nat) (x : Rose α) : (embed q x).kids = x.kids.map (embed x.handle) := by
  cases x; simp [embed, TNode.kids, Rose.kids, Rose.handle, embedAll_map]
theorem embed_self (q : Nat) (x : Rose α) : (embed q x).self = x.handle := by
  cases x; rfl
theorem embed_addr (q : Nat) (x : Rose α) : (embed q x).addr = x.handle := by
  cases x; rfl
theorem embed_parent (q : Nat) (x : Rose α) : (embed q x).parent = q := by
  cases x; rfl
theorem embed_linked (q : Nat) (x : Rose α) : (embed q x).linked = true := by
  cases x; rfl

theorem hoist_embed (hoist : α → Bool) (a q p : Nat) (d x : Rose α) :
    hoistBack hoist a (embed p d) (embed q x) = .ok
      (if hoist d.val then (embed q (x.appendKids a d.kids), a + d.kids.length)
       else (embed q (x.insertKid x.kids.length (d.relabel a)), a + 1)) := by
  unfold hoistBack
  rw [embed_value]
  dsimp only
  by_cases hh : hoist d.val = true
  · rw [if_pos hh, if_pos hh]
    cases x with
    | node h w ks =>
      simp only [embed, Rose.appendKids, embedAll_map]
      rw [if_neg (by simp)]
      congr 2
      · congr 1
        rw [List.map_append, embed_kids, List.zipIdx_map, List.map_map, List.map_map]
        congr 1
        apply List.map_congr_left
        intro y _
        exact link_embed d.handle (a + y.2) h y.1
      · rw [embed_kids, List.length_map]
  · rw [if_neg hh, if_neg hh]
    rw [graft_embed]
    · rw [embed_kids, List.length_map]
      rfl
    · rw [embed_kids, List.length_map]

theorem takeContents_embed (q p : Nat) (o x : Rose α) :
    (embed q x).takeContents (embed p o) = embed q (x.withContents o) := by
  cases x with
  | node h w ks =>
    simp only [embed, TNode.takeContents, Rose.withContents, embed_value, embed_kids]
    congr 1
    rw [embedAll_map, List.map_map]
    exact List.map_congr_left fun y _ => setParent_embed _ _ _

theorem cnt_insertKid (a k : Nat) (b r : Rose α) :
    cnt a (r.insertKid k b).handles = cnt a r.handles + cnt a b.handles := by
  cases r with
  | node h v ks =>
    simp only [Rose.insertKid, Rose.handles, handlesAll_append, Rose.handlesAll]
    have : Rose.handlesAll ks = Rose.handlesAll (ks.take k) ++ Rose.handlesAll (ks.drop k) := by
      rw [← handlesAll_append, List.take_append_drop]
    rw [this]
    simp only [cnt, List.count_cons, List.count_append]
    omega

theorem cnt_relabel (a b : Nat) (r : Rose α) :
    cnt a (r.relabel b).handles + (if r.handle = a then 1 else 0)
      = cnt a r.handles + (if b = a then 1 else 0) := by
  cases r with
  | node h v ks =>
    simp only [Rose.relabel, Rose.handles, Rose.handle, cnt, List.count_cons]
    by_cases h1 : h = a <;> by_cases h2 : b = a <;> simp [h1, h2]

theorem cnt_relabelAll (a b : Nat) (ks : List (Rose α)) :
    cnt a (Rose.handlesAll (ks.zipIdx.map fun x => x.1.relabel (b + x.2)))
      ≤ cnt a (Rose.handlesAll ks) + (if b ≤ a ∧ a < b + ks.length then 1 else 0) := by
  suffices ∀ n, cnt a (Rose.handlesAll ((ks.zipIdx n).map fun x => x.1.relabel (b + x.2)))
      ≤ cnt a (Rose.handlesAll ks)
        + (if b + n ≤ a ∧ a < b + n + ks.length then 1 else 0) by
    simpa using this 0
  induction ks with
  | nil => intro n; simp [Rose.handlesAll]
  | cons k ks ih =>
    intro n
    simp only [List.zipIdx_cons, List.map_cons, Rose.handlesAll, cnt, List.count_append,
      List.length_cons]
    have h1 := ih (n + 1)
    have h2 := cnt_relabel a (b + n) k
    simp only [cnt] at h1 h2
    split_ifs at * <;> omega

theorem cnt_kids_le (a : Nat) (r : Rose α) :
    cnt a (Rose.handlesAll r.kids) ≤ cnt a r.handles := by
  cases r with
  | node h v ks =>
    simp only [Rose.kids, Rose.handles, cnt, List.count_cons]
    omega

theorem cnt_appendKids (a b : Nat) (m : List (Rose α)) (r : Rose α) :
    cnt a (r.appendKids b m).handles ≤ cnt a r.handles + cnt a (Rose.handlesAll m)
      + (if b ≤ a ∧ a < b + m.length then 1 else 0) := by
  cases r with
  | node h v ks =>
    have := cnt_relabelAll a b m
    simp only [Rose.appendKids, Rose.handles, handlesAll_append, cnt, List.count_cons,
      List.count_append] at this ⊢
    omega

theorem cnt_withContents (a : Nat) (o r : Rose α) :
    cnt a (r.withContents o).handles + (if o.handle = a then 1 else 0)
      = cnt a o.handles + (if r.handle = a then 1 else 0) := by
  cases r with
  | node h v ks =>
    cases o with
    | node b w ls =>
      simp only [Rose.withContents, Rose.handles, Rose.handle, Rose.val, Rose.kids, cnt,
        List.count_cons]
      by_cases h1 : h = a <;> by_cases h2 : b = a <;> simp [h1, h2]

/-! ## Failures -/

mutual
theorem modify_fail (n : Nat) (f : TNode α → Res (TNode α)) (e : Fail) (x : Rose α)
    (hf : ∀ q, f (embed q x) = .error e) (p : Nat) :
    ∀ r : Rose α, cnt n r.handles ≤ 1 → r.get n = some x →
    (embed p r).modify n f = .error e
  | .node h v ks => by
    simp only [Rose.handles, cnt, List.count_cons, Rose.get, embed, TNode.modify]
    intro hnd
    by_cases hn : h = n
    · rw [if_pos hn, if_pos hn]
      rintro ⟨⟩
      exact hf p
    · rw [if_neg hn, if_neg hn]
      intro hg
      rw [modifyAll_fail n f e x hf h ks (by rw [cnt]; omega) hg]
      rfl
theorem modifyAll_fail (n : Nat) (f : TNode α → Res (TNode α)) (e : Fail)
    (x : Rose α) (hf : ∀ q, f (embed q x) = .error e) (p : Nat) :
    ∀ ks : List (Rose α), cnt n (Rose.handlesAll ks) ≤ 1 → Rose.getAll n ks = some x →
    TNode.modifyAll n f (embedAll p ks) = .error e
  | [] => by simp [Rose.getAll]
  | k :: ks => by
    simp only [Rose.handlesAll, Rose.getAll, embedAll, TNode.modifyAll]
    intro hnd hg
    rw [cnt, List.count_append] at hnd
    have n1 : cnt n k.handles ≤ 1 := by rw [cnt]; omega
    have n2 : cnt n (Rose.handlesAll ks) ≤ 1 := by rw [cnt]; omega
    cases hk : k.get n with
    | none =>
      rw [hk] at hg
      dsimp only at hg
      have ha := (get_none_iff n k).mp hk
      rw [modify_absent n f p k ha, modifyAll_fail n f e x hf p ks n2 hg]
      rfl
    | some y =>
      rw [hk] at hg
      cases hg
      rw [modify_fail n f e x hf p k n1 hk]
      rfl
end

theorem emplace_fail (k a q : Nat) (v : α) (x : Rose α) (hk : x.kids.length < k) :
    TNode.emplace k a (TNode.fresh a v) (embed q x) = .error .ub := by
  cases x with
  | node h w ks =>
    simp only [Rose.kids] at hk
    simp only [embed, TNode.emplace, embedAll_map]
    rw [if_neg (by simp), if_pos (by simpa using hk)]

theorem graft_fail (k a q p : Nat) (d x : Rose α) (hk : x.kids.length < k) :
    graft k a (embed p d) (embed q x) = .error .ub := by
  cases x with
  | node h w ks =>
    simp only [Rose.kids] at hk
    simp only [embed, graft, embedAll_map]
    rw [if_neg (by simp), if_pos (by simpa using hk)]

theorem find_isSome {n p : Nat} {r : Rose α} (h : n ∈ r.handles) :
    ((embed p r).find n).isSome = true := by
  cases hg : r.get n with
  | none => exact absurd h ((get_none_iff n r).mp hg)
  | some x =>
    obtain ⟨q, hq⟩ := (find_embed n p r).2 x hg
    rw [hq]
    rfl

/-! ## Right links -/

mutual
theorem shape_embed (p : Nat) : ∀ r : Rose α, Shape (embed p r) r
  | .node h v ks => by
    simp only [embed, Shape, true_and]
    exact shapeAll_embed h ks
theorem shapeAll_embed (p : Nat) : ∀ ks : List (Rose α), ShapeAll (embedAll p ks) ks
  | [] => by simp [embedAll, ShapeAll]
  | k :: ks => by
    simp only [embedAll, ShapeAll]
    exact ⟨shape_embed p k, shapeAll_embed p ks⟩
end

mutual
theorem linked_embed (p : Nat) : ∀ r : Rose α, Linked p (embed p r)
  | .node h v ks => by
    simp only [embed, Linked, Option.isSome_some, true_and]
    exact linkedAll_embed h ks
theorem linkedAll_embed (p : Nat) : ∀ ks : List (Rose α), LinkedAll p (embedAll p ks)
  | [] => by simp [embedAll, LinkedAll]
  | k :: ks => by
    simp only [embedAll, LinkedAll]
    exact ⟨linked_embed p k, linkedAll_embed p ks⟩
end

mutual
theorem check_embed (p : Nat) : ∀ r : Rose α, (embed p r).check = .ok ()
  | .node h v ks => by
    simp only [embed, TNode.check]
    rw [if_neg (by simp), if_neg (by simp)]
    exact checkAll_embed h ks
theorem checkAll_embed (p : Nat) : ∀ ks : List (Rose α),
    TNode.checkAll p (embedAll p ks) = .ok ()
  | [] => rfl
  | k :: ks => by
    simp only [embedAll, TNode.checkAll]
    rw [if_neg (by rw [embed_addr, embed_self]; simp), if_neg (by rw [embed_parent]; simp),
      check_embed p k, checkAll_embed p ks]
    rfl
end

mutual
theorem size_embed (p : Nat) : ∀ r : Rose α, (embed p r).size = .ok r.values.length
  | .node h v ks => by
    simp only [embed, TNode.size, Rose.values, List.length_cons]
    rw [sizeAll_embed h ks]
    simp only [Res.ok_bind, Except.ok.injEq]
    omega
theorem sizeAll_embed (p : Nat) : ∀ ks : List (Rose α),
    TNode.sizeAll (embedAll p ks) = .ok (Rose.valuesAll ks).length
  | [] => rfl
  | k :: ks => by
    simp only [embedAll, TNode.sizeAll, Rose.valuesAll, List.length_append]
    rw [size_embed p k, sizeAll_embed p ks]
    rfl
end

mutual
theorem shape_unique (p : Nat) : ∀ r s : Rose α, Shape (embed p r) s → r = s
  | .node h v ks, .node h' v' ks' => by
    simp only [embed, Shape, Option.some.injEq]
    rintro ⟨rfl, rfl, hk⟩
    rw [shapeAll_unique h ks ks' hk]
theorem shapeAll_unique (p : Nat) : ∀ ks ls : List (Rose α), ShapeAll (embedAll p ks) ls → ks = ls
  | [], [] => fun _ => rfl
  | [], _ :: _ => by simp [embedAll, ShapeAll]
  | _ :: _, [] => by simp [embedAll, ShapeAll]
  | k :: ks, l :: ls => by
    simp only [embedAll, ShapeAll]
    rintro ⟨h1, h2⟩
    rw [shape_unique p k l h1, shapeAll_unique p ks ls h2]
end

end Tr
end FLPR
