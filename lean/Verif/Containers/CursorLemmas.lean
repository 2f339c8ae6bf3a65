import Verif.Containers.CursorSpec
import Verif.Containers.TreeLemmas
/-!
# Tree cursors: helper lemmas for C31
-/

namespace FLPR
namespace Tr

variable {α : Type}

open FLPR.Tr.Spec (Rose)

mutual
theorem linked_is_embed (p : Nat) : ∀ t : TNode α, Linked p t → ∃ r, t = embed p r
  | .mk a l q s v ks => by
    simp only [Linked]
    rintro ⟨rfl, rfl, rfl, hv, hk⟩
    obtain ⟨rs, hrs⟩ := linkedAll_is_embed s ks hk
    cases v with
    | none => exact absurd hv (by simp)
    | some x => exact ⟨.node s x rs, by simp only [embed, hrs]⟩
theorem linkedAll_is_embed (p : Nat) : ∀ ks : List (TNode α), LinkedAll p ks →
    ∃ rs, ks = embedAll p rs
  | [] => fun _ => ⟨[], rfl⟩
  | k :: ks => by
    simp only [LinkedAll]
    rintro ⟨h1, h2⟩
    obtain ⟨r, hr⟩ := linked_is_embed p k h1
    obtain ⟨rs, hrs⟩ := linkedAll_is_embed p ks h2
    exact ⟨r :: rs, by simp only [embedAll, hr, hrs]⟩
end

mutual
theorem addrs_embed (p : Nat) : ∀ r : Rose α, (embed p r).addrs = r.handles
  | .node h v ks => by simp only [embed, TNode.addrs, Rose.handles, addrsAll_embed h ks]
theorem addrsAll_embed (p : Nat) : ∀ ks : List (Rose α),
    TNode.addrsAll (embedAll p ks) = Rose.handlesAll ks
  | [] => rfl
  | k :: ks => by
    simp only [embedAll, TNode.addrsAll, Rose.handlesAll, addrs_embed p k, addrsAll_embed p ks]
end

theorem WellLinked.embed {t : TNode α} (h : WellLinked t) :
    ∃ r : Rose α, t = embedRoot r ∧ r.handles.Nodup := by
  obtain ⟨r, hr⟩ := linked_is_embed t.addr t h.linked
  have ha : t.addr = r.handle := by
    have := congrArg TNode.addr hr
    rwa [embed_addr] at this
  refine ⟨r, ?_, ?_⟩
  · rw [embedRoot, ← ha]; exact hr
  · have := h.unique
    rwa [hr, addrs_embed] at this

theorem wellLinked_embed {r : Rose α} (h : r.handles.Nodup) : WellLinked (embedRoot r) := by
  refine ⟨?_, by rw [embedRoot, addrs_embed]; exact h⟩
  rw [embedRoot, embed_addr]
  exact linked_embed _ r

theorem handle_mem (r : Rose α) : r.handle ∈ r.handles := by
  cases r; simp [Rose.handle, Rose.handles]

theorem mem_handlesAll {ks : List (Rose α)} {k : Rose α} (h : k ∈ ks) {n : Nat}
    (hn : n ∈ k.handles) : n ∈ Rose.handlesAll ks := by
  induction ks with
  | nil => simp at h
  | cons k' ks ih =>
    simp only [Rose.handlesAll, List.mem_append]
    rcases List.mem_cons.mp h with rfl | h'
    · exact .inl hn
    · exact .inr (ih h')

theorem mem_handlesAll_iff {ks : List (Rose α)} {n : Nat} :
    n ∈ Rose.handlesAll ks ↔ ∃ k ∈ ks, n ∈ k.handles := by
  induction ks with
  | nil => simp [Rose.handlesAll]
  | cons k ks ih => simp [Rose.handlesAll, ih]

theorem handles_eq (r : Rose α) : r.handles = r.handle :: Rose.handlesAll r.kids := by
  cases r; simp [Rose.handle, Rose.kids, Rose.handles]

/-! ## Paths -/

theorem at_append (p q : List Nat) (r : Rose α) :
    r.at (p ++ q) = (r.at p).bind (Rose.at q) := by
  induction p generalizing r with
  | nil => rfl
  | cons i p ih =>
    simp only [List.cons_append, Rose.at]
    cases r.kids[i]? with
    | none => rfl
    | some k => exact ih k

theorem at_snoc {p : List Nat} {i : Nat} {r y : Rose α} (h : r.at p = some y) :
    r.at (p ++ [i]) = y.kids[i]? := by
  rw [at_append, h]
  simp only [Option.bind_some, Rose.at]
  cases y.kids[i]? <;> rfl

theorem at_mem : ∀ (p : List Nat) {r x : Rose α}, r.at p = some x →
    ∀ n ∈ x.handles, n ∈ r.handles
  | [], r, x, h, n, hn => by
    simp only [Rose.at, Option.some.injEq] at h
    subst h; exact hn
  | i :: p, r, x, h, n, hn => by
    simp only [Rose.at, Option.bind_eq_some_iff] at h
    obtain ⟨k, hk, hx⟩ := h
    rw [handles_eq]
    exact List.mem_cons_of_mem _ (mem_handlesAll (List.mem_of_getElem? hk) (at_mem p hx n hn))

theorem kid_nodup {ks : List (Rose α)} (h : (Rose.handlesAll ks).Nodup) {i : Nat} {k : Rose α}
    (hk : ks[i]? = some k) : k.handles.Nodup := by
  induction ks generalizing i with
  | nil => simp at hk
  | cons k' ks ih =>
    simp only [Rose.handlesAll, List.nodup_append] at h
    cases i with
    | zero =>
      simp only [List.getElem?_cons_zero, Option.some.injEq] at hk
      subst hk; exact h.1
    | succ i => exact ih h.2.1 (by simpa using hk)

theorem kids_nodup {r : Rose α} (h : r.handles.Nodup) : (Rose.handlesAll r.kids).Nodup := by
  rw [handles_eq] at h
  exact (List.nodup_cons.mp h).2

theorem at_nodup : ∀ (p : List Nat) {r x : Rose α}, r.handles.Nodup → r.at p = some x →
    x.handles.Nodup
  | [], r, x, nd, h => by
    simp only [Rose.at, Option.some.injEq] at h
    subst h; exact nd
  | i :: p, r, x, nd, h => by
    simp only [Rose.at, Option.bind_eq_some_iff] at h
    obtain ⟨k, hk, hx⟩ := h
    exact at_nodup p (kid_nodup (kids_nodup nd) hk) hx

theorem kid_handle_ne {r : Rose α} (nd : r.handles.Nodup) {i : Nat} {k : Rose α}
    (hk : r.kids[i]? = some k) {n : Nat} (hn : n ∈ k.handles) : r.handle ≠ n := by
  rintro rfl
  rw [handles_eq, List.nodup_cons] at nd
  exact nd.1 (mem_handlesAll (List.mem_of_getElem? hk) hn)

/-- Every node has a path. -/
theorem exists_path_aux (n : Nat) (sz : Nat) : ∀ r : Rose α, r.values.length ≤ sz →
    n ∈ r.handles → ∃ p x, r.at p = some x ∧ x.handle = n := by
  induction sz with
  | zero =>
    intro r h
    cases r; simp [Rose.values] at h
  | succ sz ih =>
    intro r h hn
    rw [handles_eq] at hn
    rcases List.mem_cons.mp hn with rfl | hn
    · exact ⟨[], r, rfl, rfl⟩
    · obtain ⟨k, hk, hn⟩ := mem_handlesAll_iff.mp hn
      obtain ⟨i, hi⟩ := List.getElem?_of_mem hk
      have hlen : k.values.length ≤ sz := by
        have : ∀ ks : List (Rose α), k ∈ ks → k.values.length ≤ (Rose.valuesAll ks).length := by
          intro ks
          induction ks with
          | nil => simp
          | cons k' ks ih' =>
            intro hm
            simp only [Rose.valuesAll, List.length_append]
            rcases List.mem_cons.mp hm with rfl | hm
            · omega
            · have := ih' hm; omega
        have h1 := this r.kids hk
        cases r with
        | node h' v ks =>
          simp only [Rose.values, List.length_cons, Rose.kids] at h h1
          omega
      obtain ⟨p, x, hx, hh⟩ := ih k hlen hn
      exact ⟨i :: p, x, by simp only [Rose.at, hi, Option.bind_some, hx], hh⟩

theorem exists_path {n : Nat} {r : Rose α} (h : n ∈ r.handles) :
    ∃ p x, r.at p = some x ∧ x.handle = n :=
  exists_path_aux n _ r (Nat.le_refl _) h

/-! ## Looking up a node by its path -/

theorem findAll_kid (n q : Nat) : ∀ (ks : List (Rose α)) (i : Nat) (k : Rose α),
    (Rose.handlesAll ks).Nodup → ks[i]? = some k → n ∈ k.handles →
    TNode.findAll n (embedAll q ks) = (embed q k).find n
  | [], i, k => by simp
  | k' :: ks, 0, k => by
    intro nd hk hn
    simp only [List.getElem?_cons_zero, Option.some.injEq] at hk
    subst hk
    simp only [embedAll, TNode.findAll]
    have := find_isSome (p := q) hn
    cases hf : (embed q k').find n with
    | none => rw [hf] at this; exact absurd this (by simp)
    | some x => rfl
  | k' :: ks, i + 1, k => by
    intro nd hk hn
    simp only [List.getElem?_cons_succ] at hk
    simp only [Rose.handlesAll, List.nodup_append] at nd
    have hno : n ∉ k'.handles := fun hc =>
      nd.2.2 n hc n (mem_handlesAll (List.mem_of_getElem? hk) hn) rfl
    simp only [embedAll, TNode.findAll, (find_embed n q k').1 ((get_none_iff n k').mpr hno)]
    exact findAll_kid n q ks i k nd.2.1 hk hn

/-- The address of the node above the one at a path; `q` above the root. -/
def above (q : Nat) : List Nat → Rose α → Nat
  | [], _ => q
  | i :: p, r =>
    match r.kids[i]? with
    | none => q
    | some k => above r.handle p k

theorem above_snoc (p : List Nat) (i : Nat) : ∀ (q : Nat) (r y x : Rose α), r.at p = some y →
    y.kids[i]? = some x → above q (p ++ [i]) r = y.handle := by
  induction p with
  | nil =>
    intro q r y x h hx
    simp only [Rose.at, Option.some.injEq] at h
    subst h
    simp only [List.nil_append, above, hx]
  | cons j p ih =>
    intro q r y x h hx
    simp only [Rose.at, Option.bind_eq_some_iff] at h
    obtain ⟨k, hk, hy⟩ := h
    simp only [List.cons_append, above, hk]
    exact ih r.handle k y x hy hx

theorem find_at : ∀ (p : List Nat) (q : Nat) (r x : Rose α), r.handles.Nodup →
    r.at p = some x → (embed q r).find x.handle = some (embed (above q p r) x)
  | [], q, r, x, nd, h => by
    simp only [Rose.at, Option.some.injEq] at h
    subst h
    cases r
    simp only [embed, TNode.find, Rose.handle, above, if_true]
  | i :: p, q, r, x, nd, h => by
    simp only [Rose.at, Option.bind_eq_some_iff] at h
    obtain ⟨k, hk, hx⟩ := h
    have hmem := at_mem p hx _ (handle_mem x)
    have hne := kid_handle_ne nd hk hmem
    have hnd := kids_nodup nd
    simp only [above, hk]
    rw [← find_at p r.handle k x (kid_nodup hnd hk) hx]
    cases r with
    | node h v ks =>
      simp only [Rose.handle, Rose.kids] at hne hnd hk ⊢
      simp only [embed, TNode.find, if_neg hne]
      exact findAll_kid _ _ ks i k hnd hk hmem

mutual
theorem holder_absent (n q : Nat) : ∀ r : Rose α, n ∉ r.handles → (embed q r).holder n = none
  | .node h v ks => by
    simp only [Rose.handles, List.mem_cons, not_or, embed, TNode.holder]
    intro hh
    exact holderAll_absent n h h [] ks hh.2
theorem holderAll_absent (n own q : Nat) (pre : List Nat) : ∀ ks : List (Rose α),
    n ∉ Rose.handlesAll ks → TNode.holderAll n own pre (embedAll q ks) = none
  | [] => fun _ => rfl
  | k :: ks => by
    simp only [Rose.handlesAll, List.mem_append, not_or, embedAll, TNode.holderAll]
    intro hh
    rw [if_neg (by
      rw [embed_addr]
      intro e
      exact hh.1 (e ▸ handle_mem k)), holder_absent n q k hh.1]
    exact holderAll_absent n own q _ ks hh.2
end

theorem holderAll_kid (n own q : Nat) : ∀ (ks : List (Rose α)) (i : Nat) (k : Rose α)
    (pre : List Nat), (Rose.handlesAll ks).Nodup → ks[i]? = some k → n = k.handle →
    TNode.holderAll n own pre (embedAll q ks)
      = some (own, ((ks.take i).map Rose.handle).reverse ++ pre, (ks.drop (i + 1)).map Rose.handle)
  | [], i, k, pre => by simp
  | k' :: ks, 0, k, pre => by
    intro nd hk hn
    simp only [List.getElem?_cons_zero, Option.some.injEq] at hk
    subst hk
    simp only [embedAll, TNode.holderAll]
    rw [if_pos (by rw [embed_addr, hn]), embedAll_map, List.map_map]
    congr 3
    · exact List.map_congr_left fun y _ => embed_addr q y
  | k' :: ks, i + 1, k, pre => by
    intro nd hk hn
    simp only [List.getElem?_cons_succ] at hk
    simp only [Rose.handlesAll, List.nodup_append] at nd
    have hno : n ∉ k'.handles := fun hc =>
      nd.2.2 n hc n (mem_handlesAll (List.mem_of_getElem? hk) (hn ▸ handle_mem k)) rfl
    simp only [embedAll, TNode.holderAll]
    rw [if_neg (by
      rw [embed_addr]
      intro e
      exact hno (e ▸ handle_mem k')), holder_absent n q k' hno]
    dsimp only
    rw [holderAll_kid n own q ks i k _ nd.2.1 hk hn, embed_addr]
    simp

theorem holderAll_deep (n own q : Nat) (res : Nat × List Nat × List Nat) :
    ∀ (ks : List (Rose α)) (i : Nat) (k : Rose α) (pre : List Nat),
    (Rose.handlesAll ks).Nodup → ks[i]? = some k → n ∈ k.handles → n ≠ k.handle →
    (embed q k).holder n = some res →
    TNode.holderAll n own pre (embedAll q ks) = some res
  | [], i, k, pre => by simp
  | k' :: ks, 0, k, pre => by
    intro nd hk hn hne hh
    simp only [List.getElem?_cons_zero, Option.some.injEq] at hk
    subst hk
    simp only [embedAll, TNode.holderAll]
    rw [if_neg (by rw [embed_addr]; exact fun e => hne e.symm), hh]
  | k' :: ks, i + 1, k, pre => by
    intro nd hk hn hne hh
    simp only [List.getElem?_cons_succ] at hk
    simp only [Rose.handlesAll, List.nodup_append] at nd
    have hno : n ∉ k'.handles := fun hc =>
      nd.2.2 n hc n (mem_handlesAll (List.mem_of_getElem? hk) hn) rfl
    simp only [embedAll, TNode.holderAll]
    rw [if_neg (by
      rw [embed_addr]
      intro e
      exact hno (e ▸ handle_mem k')), holder_absent n q k' hno]
    exact holderAll_deep n own q res ks i k _ nd.2.1 hk hn hne hh

theorem holder_at : ∀ (p : List Nat) (i q : Nat) (r y x : Rose α), r.handles.Nodup →
    r.at p = some y → y.kids[i]? = some x →
    (embed q r).holder x.handle
      = some (y.handle, ((y.kids.take i).map Rose.handle).reverse,
          (y.kids.drop (i + 1)).map Rose.handle)
  | [], i, q, r, y, x, nd, h, hx => by
    simp only [Rose.at, Option.some.injEq] at h
    subst h
    have hnd := kids_nodup nd
    cases r with
    | node h v ks =>
      simp only [Rose.kids] at hx hnd ⊢
      simp only [embed, TNode.holder, Rose.handle]
      have := holderAll_kid x.handle h h ks i x [] hnd hx rfl
      simpa [Rose.handle] using this
  | j :: p, i, q, r, y, x, nd, h, hx => by
    simp only [Rose.at, Option.bind_eq_some_iff] at h
    obtain ⟨k, hk, hy⟩ := h
    have hnd := kids_nodup nd
    have hknd := kid_nodup hnd hk
    have hkx : k.at (p ++ [i]) = some x := by rw [at_snoc hy, hx]
    have hmem := at_mem _ hkx _ (handle_mem x)
    have hne : x.handle ≠ k.handle := by
      cases hp : p ++ [i] with
      | nil => simp at hp
      | cons a b =>
        rw [hp] at hkx
        simp only [Rose.at, Option.bind_eq_some_iff] at hkx
        obtain ⟨k2, hk2, hx2⟩ := hkx
        exact (kid_handle_ne hknd hk2 (at_mem b hx2 _ (handle_mem x))).symm
    have ih := holder_at p i r.handle k y x hknd hy hx
    cases r with
    | node h v ks =>
      simp only [Rose.kids, Rose.handle] at hk hnd ih ⊢
      simp only [embed, TNode.holder]
      exact holderAll_deep x.handle h h _ ks j k [] hnd hk hmem hne ih

end Tr
end FLPR
