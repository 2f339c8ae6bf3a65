import Verif.Containers.SafeListSpec
/-!
# `Safe_List`: helper lemmas for C28
-/

namespace FLPR
namespace SL

variable {α : Type}

theorem mkNodes_label (k : Nat) (vs : List α) : mkNodes k vs = Spec.label k vs := by
  unfold Spec.label
  suffices ∀ n, mkNodes (k + n) vs = (vs.zipIdx n).map fun p => (k + p.2, p.1) by
    simpa using this 0
  induction vs generalizing k with
  | nil => intro n; rfl
  | cons v vs ih =>
    intro n
    simp only [mkNodes, List.zipIdx_cons, List.map_cons, List.cons.injEq, true_and]
    exact ih k (n + 1)

theorem label_length (k : Nat) (vs : List α) : (Spec.label k vs).length = vs.length := by
  simp [Spec.label]

theorem label_map_snd (k : Nat) (vs : List α) : (Spec.label k vs).map (·.2) = vs := by
  unfold Spec.label
  rw [List.map_map]
  have : ((fun x => x.2) ∘ fun p : α × Nat => (k + p.2, p.1)) = Prod.fst := rfl
  rw [this, List.zipIdx_map_fst]

theorem label_map_fst (k : Nat) (vs : List α) :
    (Spec.label k vs).map (·.1) = List.range' k vs.length := by
  rw [← mkNodes_label]
  induction vs generalizing k with
  | nil => rfl
  | cons v vs ih => simp [mkNodes, ih, List.range'_succ]

theorem cut_mid (a b : Nodes α) (x : Nat × α) (h : x.1 ∉ a.map (·.1)) :
    cut x.1 (a ++ x :: b) = some (a, x :: b) := by
  induction a with
  | nil => simp [cut]
  | cons y a ih =>
    simp only [List.map_cons, List.mem_cons, not_or] at h
    simp only [List.cons_append, cut]
    rw [if_neg (fun e => h.1 e.symm), ih h.2]
    rfl

theorem cut_none (l : Nodes α) (n : Nat) (h : n ∉ l.map (·.1)) : cut n l = none := by
  induction l with
  | nil => rfl
  | cons y a ih =>
    simp only [List.map_cons, List.mem_cons, not_or] at h
    simp only [cut]
    rw [if_neg (fun e => h.1 e.symm), ih h.2]
    rfl

theorem walk_mid (a b : Nodes α) (x : Nat × α) (h : x.1 ∉ a.map (·.1)) :
    walk x.1 (a ++ x :: b) = .ok a := by
  induction a with
  | nil => simp [walk]
  | cons y a ih =>
    simp only [List.map_cons, List.mem_cons, not_or] at h
    simp only [List.cons_append, walk]
    rw [if_neg (fun e => h.1 e.symm), ih h.2]
    rfl

/-- The representation: the elements followed by the hidden one. -/
structure Rep (d : α) (l : SList α) (s : Spec.Seq α) : Prop where
  nodes : l.nodes = s.items ++ [(s.stop, d)]
  stop : l.myEnd = s.stop
  nodup : s.handles.Nodup

theorem Spec.Seq.stop_not_mem {s : Spec.Seq α} (h : s.handles.Nodup) :
    s.stop ∉ s.items.map (·.1) := by
  unfold Spec.Seq.handles at h
  rw [List.nodup_append] at h
  intro hm
  exact h.2.2 _ hm _ (List.mem_singleton.mpr rfl) rfl

theorem Spec.Seq.fst_nodup {s : Spec.Seq α} (h : s.handles.Nodup) :
    (s.items.map (·.1)).Nodup := by
  unfold Spec.Seq.handles at h
  exact (List.nodup_append.mp h).1

/-- A handle with an index cuts the nodes there. -/
theorem Rep.cut_index {d : α} {l : SList α} {s : Spec.Seq α} (r : Rep d l s) {h n : Nat}
    (hi : s.index h = some n) :
    n ≤ s.items.length ∧ cut h l.nodes = some (s.items.take n, s.items.drop n ++ [(s.stop, d)])
      ∧ (h ≠ s.stop → ∃ v, s.items[n]? = some (h, v)) := by
  unfold Spec.Seq.index at hi
  rw [r.nodes]
  split at hi
  · rename_i he
    cases hi
    refine ⟨Nat.le_refl _, ?_, fun hne => absurd he hne⟩
    rw [List.take_length, List.drop_length, List.nil_append, he]
    exact cut_mid s.items [] (s.stop, d) (Spec.Seq.stop_not_mem r.nodup)
  · rename_i hne
    rw [List.findIdx?_eq_some_iff_getElem] at hi
    obtain ⟨hlt, hx, hbefore⟩ := hi
    have hx' : (s.items[n]).1 = h := by simpa using hx
    have hsplit : s.items = s.items.take n ++ s.items[n] :: s.items.drop (n + 1) := by simp
    refine ⟨hlt.le, ?_, fun _ => ⟨(s.items[n]).2, ?_⟩⟩
    · have hnot : (s.items[n]).1 ∉ (s.items.take n).map (·.1) := by
        intro hm
        rw [List.mem_map] at hm
        obtain ⟨y, hy, hye⟩ := hm
        obtain ⟨j, hj, hjy⟩ := List.mem_iff_getElem.mp hy
        have hjn : j < n := by
          have := hj; rw [List.length_take] at this; omega
        have := hbefore j hjn
        rw [List.getElem_take] at hjy
        rw [hjy] at this
        simp [hye, hx'] at this
      have := cut_mid (s.items.take n) (s.items.drop (n + 1) ++ [(s.stop, d)]) s.items[n] hnot
      rw [hx'] at this
      have hd : s.items.drop n = s.items[n] :: s.items.drop (n + 1) := by simp
      have e1 : s.items ++ [(s.stop, d)]
          = s.items.take n ++ s.items[n] :: (s.items.drop (n + 1) ++ [(s.stop, d)]) := by
        conv_lhs => rw [hsplit]
        simp only [List.append_assoc, List.cons_append]
      rw [e1, this, hd, List.cons_append]
    · rw [List.getElem?_eq_getElem hlt, ← hx']

theorem cut_append_right {a b : Nodes α} {n : Nat} (h : n ∉ a.map (·.1)) :
    cut n (a ++ b) = (cut n b).map fun p => (a ++ p.1, p.2) := by
  induction a with
  | nil => simp
  | cons y a ih =>
    simp only [List.map_cons, List.mem_cons, not_or] at h
    simp only [List.cons_append, cut]
    rw [if_neg (fun e => h.1 e.symm), ih h.2, Option.map_map]
    rfl

theorem insert_nodup {a b new : List Nat} {k : Nat} (h : (a ++ b).Nodup) (hn : new.Nodup)
    (h1 : ∀ x ∈ new, k ≤ x) (h2 : ∀ x ∈ a ++ b, x < k) : (a ++ new ++ b).Nodup := by
  have hp : (a ++ new ++ b).Perm (new ++ (a ++ b)) := by
    rw [← List.append_assoc]
    exact List.Perm.append_right b List.perm_append_comm
  rw [hp.nodup_iff, List.nodup_append]
  refine ⟨hn, h, ?_⟩
  intro x hx y hy e
  have := h1 x hx
  have := h2 y hy
  omega

/-- What one operation does to the handles. -/
def Grows (old new : List Nat) (k k' : Nat) : Prop :=
  k ≤ k' ∧ ∀ h ∈ new, h ∈ old ∨ (k ≤ h ∧ h < k')

theorem handles_take_drop (s : Spec.Seq α) (n : Nat) :
    (s.items.take n).map (·.1) ++ ((s.items.drop n).map (·.1) ++ [s.stop]) = s.handles := by
  unfold Spec.Seq.handles
  rw [← List.append_assoc, ← List.map_append, List.take_append_drop]

/-- Inserting labelled elements at a handle. -/
theorem Rep.insert {d : α} {l : SList α} {s : Spec.Seq α} (r : Rep d l s) {h n k : Nat}
    (hk : ∀ x ∈ s.handles, x < k) (hi : s.index h = some n) (vs : List α) :
    insertAt l.nodes h (Spec.label k vs)
        = .ok ((s.items.take n ++ Spec.label k vs ++ s.items.drop n) ++ [(s.stop, d)]) ∧
      Rep d { l with nodes := (s.items.take n ++ Spec.label k vs ++ s.items.drop n)
                                ++ [(s.stop, d)] }
        { s with items := s.items.take n ++ Spec.label k vs ++ s.items.drop n } ∧
      Grows s.handles
        ({ s with items := s.items.take n ++ Spec.label k vs ++ s.items.drop n } :
          Spec.Seq α).handles k (k + vs.length) := by
  obtain ⟨hle, hcut, -⟩ := r.cut_index hi
  refine ⟨?_, ⟨rfl, r.stop, ?_⟩, by omega, ?_⟩
  · unfold insertAt
    rw [hcut]
    simp only [List.append_assoc]
  · have h0 := r.nodup
    rw [← handles_take_drop s n] at h0
    have hk' := hk
    rw [← handles_take_drop s n] at hk'
    have := insert_nodup (new := (Spec.label k vs).map (·.1)) (k := k) h0
      (by rw [label_map_fst]; exact List.nodup_range')
      (by
        intro x hx
        rw [label_map_fst, List.mem_range'_1] at hx
        exact hx.1) hk'
    simpa [Spec.Seq.handles, List.append_assoc] using this
  · intro x hx
    simp only [Spec.Seq.handles, List.map_append, List.append_assoc, List.mem_append] at hx
    rcases hx with hx | hx | hx | hx
    · left
      rw [← handles_take_drop s n]
      exact List.mem_append_left _ hx
    · right
      rw [label_map_fst, List.mem_range'_1] at hx
      exact hx
    · left
      rw [← handles_take_drop s n]
      exact List.mem_append_right _ (List.mem_append_left _ hx)
    · left
      unfold Spec.Seq.handles
      exact List.mem_append_right _ hx

/-- Removing elements. -/
theorem Rep.shrink {d : α} {l : SList α} {s : Spec.Seq α} (r : Rep d l s) {items : Nodes α}
    (hs : items.Sublist s.items) (k : Nat) :
    Rep d { l with nodes := items ++ [(s.stop, d)] } { s with items := items } ∧
      Grows s.handles ({ s with items := items } : Spec.Seq α).handles k k := by
  have hsub : ({ s with items := items } : Spec.Seq α).handles.Sublist s.handles := by
    unfold Spec.Seq.handles
    exact (hs.map _).append (List.Sublist.refl _)
  exact ⟨⟨rfl, r.stop, r.nodup.sublist hsub⟩, le_refl _, fun h hh => .inl (hsub.subset hh)⟩

theorem Spec.Seq.index_stop (s : Spec.Seq α) : s.index s.stop = some s.items.length := by
  unfold Spec.Seq.index
  rw [if_pos rfl]

theorem Rep.step {d : α} {l : SList α} {s s' : Spec.Seq α} {k k' : Nat} (o : Op α)
    (r : Rep d l s) (hk : ∀ x ∈ s.handles, x < k) (hs : s.step d k o = some (s', k')) :
    ∃ l', l.step d k o = .ok (l', k') ∧ Rep d l' s' ∧ Grows s.handles s'.handles k k' := by
  cases o with
  | pushBack v =>
    simp only [Spec.Seq.step, Option.some.injEq, Prod.mk.injEq] at hs
    obtain ⟨rfl, rfl⟩ := hs
    obtain ⟨h1, h2, h3⟩ := r.insert hk s.index_stop [v]
    simp only [Spec.label, List.zipIdx_cons, List.zipIdx_nil, List.map_cons, List.map_nil,
      Nat.add_zero, List.take_length, List.drop_length, List.append_nil] at h1 h2 h3
    refine ⟨_, ?_, h2, h3⟩
    simp only [SList.step]
    rw [r.stop, h1]
    rfl
  | pushFront v =>
    simp only [Spec.Seq.step, Option.some.injEq, Prod.mk.injEq] at hs
    obtain ⟨rfl, rfl⟩ := hs
    refine ⟨_, rfl, ⟨?_, r.stop, ?_⟩, by omega, ?_⟩
    · simp only [r.nodes, List.cons_append]
    · have := insert_nodup (a := []) (b := s.handles) (new := [k]) (k := k) r.nodup
        (by simp) (by simp) (by simpa using hk)
      simpa [Spec.Seq.handles] using this
    · intro x hx
      simp only [Spec.Seq.handles, List.map_cons, List.cons_append, List.mem_cons] at hx
      rcases hx with rfl | hx
      · right; omega
      · left; exact hx
  | insert h v =>
    simp only [Spec.Seq.step, Option.map_eq_some_iff] at hs
    obtain ⟨n, hi, hs⟩ := hs
    simp only [Prod.mk.injEq] at hs
    obtain ⟨rfl, rfl⟩ := hs
    obtain ⟨h1, h2, h3⟩ := r.insert hk hi [v]
    simp only [Spec.label, List.zipIdx_cons, List.zipIdx_nil, List.map_cons, List.map_nil,
      Nat.add_zero] at h1 h2 h3
    simp only [List.append_assoc, List.singleton_append] at h1 h2 h3
    refine ⟨_, ?_, h2, h3⟩
    simp only [SList.step]
    rw [h1]
    rfl
  | insertRange h vs =>
    simp only [Spec.Seq.step, Option.map_eq_some_iff] at hs
    obtain ⟨n, hi, hs⟩ := hs
    simp only [Prod.mk.injEq] at hs
    obtain ⟨rfl, rfl⟩ := hs
    obtain ⟨h1, h2, h3⟩ := r.insert hk hi vs
    refine ⟨_, ?_, h2, h3⟩
    simp only [SList.step]
    rw [mkNodes_label, h1]
    rfl
  | erase h =>
    simp only [Spec.Seq.step] at hs
    split at hs
    · exact absurd hs (by simp)
    · rename_i hne
      simp only [Option.map_eq_some_iff] at hs
      obtain ⟨n, hi, hs⟩ := hs
      simp only [Prod.mk.injEq] at hs
      obtain ⟨rfl, rfl⟩ := hs
      obtain ⟨hle, hcut, hv⟩ := r.cut_index hi
      obtain ⟨v, hv⟩ := hv hne
      obtain ⟨hlt, hget⟩ := List.getElem?_eq_some_iff.mp hv
      obtain ⟨h2, h3⟩ := r.shrink (List.eraseIdx_sublist s.items n) k
      refine ⟨_, ?_, h2, h3⟩
      have hd : s.items.drop n = s.items[n] :: s.items.drop (n + 1) := by simp
      simp only [SList.step, eraseAt]
      rw [hcut, hd]
      simp only [List.cons_append, Res.ok_bind, List.eraseIdx_eq_take_drop_succ,
        List.append_assoc]
  | eraseRange h g =>
    simp only [Spec.Seq.step] at hs
    split at hs
    · rename_i n m hi hj
      split at hs
      · rename_i hnm
        simp only [Option.some.injEq, Prod.mk.injEq] at hs
        obtain ⟨rfl, rfl⟩ := hs
        obtain ⟨hle, hcut, -⟩ := r.cut_index hi
        obtain ⟨hle', hcut', -⟩ := r.cut_index hj
        have hsub : (s.items.take n ++ s.items.drop m).Sublist s.items := by
          conv_rhs => rw [← List.take_append_drop n s.items]
          exact (List.Sublist.refl _).append (List.drop_sublist_drop_left _ hnm)
        obtain ⟨h2, h3⟩ := r.shrink hsub k
        refine ⟨_, ?_, h2, h3⟩
        -- the second cut, within what follows the first
        have hnot : g ∉ (s.items.take n).map (·.1) := by
          intro hm
          have hnd := r.nodup
          rw [← handles_take_drop s n, List.nodup_append] at hnd
          have hgin : g ∈ (s.items.drop n).map (·.1) ++ [s.stop] := by
            by_cases hgs : g = s.stop
            · rw [hgs]; simp
            · obtain ⟨-, -, hv⟩ := r.cut_index hj
              obtain ⟨v, hv⟩ := hv hgs
              apply List.mem_append_left
              rw [List.mem_map]
              refine ⟨(g, v), ?_, rfl⟩
              have : (s.items.drop n)[m - n]? = some (g, v) := by
                rw [List.getElem?_drop, Nat.add_sub_cancel' hnm]
                exact hv
              exact List.mem_of_getElem? this
          exact hnd.2.2 g hm g hgin rfl
        have hc2 : cut g (s.items.drop n ++ [(s.stop, d)])
            = some ((s.items.take m).drop n, s.items.drop m ++ [(s.stop, d)]) := by
          rw [r.nodes] at hcut'
          rw [← List.take_append_drop n s.items, List.append_assoc, cut_append_right hnot] at hcut'
          rw [Option.map_eq_some_iff] at hcut'
          obtain ⟨⟨p, q⟩, hpq, he⟩ := hcut'
          rw [List.take_append_drop] at he
          rw [hpq]
          simp only [Prod.mk.injEq] at he
          obtain ⟨e1, rfl⟩ := he
          have : p = (s.items.take m).drop n := by
            rw [← e1, List.drop_append_of_le_length (by simp [hle])]
            simp
          rw [this]
        simp only [SList.step, eraseBetween]
        rw [hcut]
        dsimp only
        rw [hc2]
        simp only [Res.ok_bind, List.append_assoc]
      · exact absurd hs (by simp)
    · exact absurd hs (by simp)
  | popBack =>
    simp only [Spec.Seq.step] at hs
    split at hs
    · exact absurd hs (by simp)
    · rename_i hne
      simp only [Option.some.injEq, Prod.mk.injEq] at hs
      obtain ⟨rfl, rfl⟩ := hs
      obtain ⟨h2, h3⟩ := r.shrink (List.dropLast_sublist s.items) k
      refine ⟨_, ?_, h2, h3⟩
      obtain ⟨-, hcut, -⟩ := r.cut_index s.index_stop
      rw [List.take_length, List.drop_length, List.nil_append] at hcut
      have hlast := List.getLast?_eq_some_getLast hne
      have hsplit := List.dropLast_concat_getLast hne
      have hnot : (s.items.getLast hne).1 ∉ s.items.dropLast.map (·.1) := by
        have hnd := Spec.Seq.fst_nodup r.nodup
        rw [← hsplit, List.map_append, List.nodup_append] at hnd
        intro hm
        exact hnd.2.2 _ hm _ (by simp) rfl
      have hc2 := cut_mid s.items.dropLast [(s.stop, d)] (s.items.getLast hne) hnot
      rw [← List.singleton_append, ← List.append_assoc, hsplit] at hc2
      simp only [SList.step, prevOf, eraseAt]
      rw [r.stop, hcut]
      dsimp only
      rw [hlast]
      dsimp only [Res.ok_bind]
      rw [r.nodes, hc2]
      rfl
  | clear =>
    simp only [Spec.Seq.step, Option.some.injEq, Prod.mk.injEq] at hs
    obtain ⟨rfl, rfl⟩ := hs
    refine ⟨_, rfl, ⟨rfl, rfl, ?_⟩, by omega, ?_⟩
    · simp [Spec.Seq.handles]
    · intro x hx
      simp only [Spec.Seq.handles, List.map_nil, List.nil_append, List.mem_singleton] at hx
      right; omega
  | removeIf p =>
    simp only [Spec.Seq.step] at hs
    split at hs
    · exact absurd hs (by simp)
    · rename_i hp
      simp only [Option.some.injEq, Prod.mk.injEq] at hs
      obtain ⟨rfl, rfl⟩ := hs
      obtain ⟨h2, h3⟩ := r.shrink (List.filter_sublist (p := fun x => !p x.2) (l := s.items)) k
      refine ⟨_, ?_, h2, h3⟩
      have hp' : p d = false := by simpa using hp
      simp only [SList.step]
      rw [r.nodes, List.filter_append]
      simp [hp']

/-! ## Whole programs -/

/-- The relation that every command keeps. -/
structure Inv (d : α) (w : World α) (v : Spec.World α) : Prop where
  fresh : w.fresh = v.fresh
  count : w.lists.length = v.seqs.length
  rep : ∀ (i : Nat) (s : Spec.Seq α), v.live i = some s →
    ∃ l, w.lists[i]? = some l ∧ Rep d l s
  old : ∀ (i : Nat) (s : Spec.Seq α), v.live i = some s → ∀ h ∈ s.handles, h < v.fresh
  apart : ∀ (i j : Nat) (s t : Spec.Seq α), v.live i = some s → v.live j = some t → i ≠ j →
    ∀ h ∈ s.handles, h ∉ t.handles

theorem Rep.shows {d : α} {l : SList α} {s : Spec.Seq α} (r : Rep d l s) : Shows l s := by
  have hns := Spec.Seq.stop_not_mem r.nodup
  refine ⟨?_, r.stop, ?_, ?_, ?_, ?_, ?_, ?_⟩
  · rw [r.nodes, r.stop]
    exact walk_mid s.items [] (s.stop, d) hns
  · unfold SList.begin Spec.Seq.handles
    rw [r.nodes]
    cases s.items <;> rfl
  · unfold SList.size
    rw [r.nodes, List.length_append, List.length_singleton]
    have : s.items.length + 1 + (2 ^ 64 - 1) = s.items.length + 2 ^ 64 := by omega
    rw [this, Nat.add_mod_right]
  · unfold SList.empty
    rw [r.nodes]
    cases s.items <;> simp
  · intro hne
    unfold SList.front
    rw [r.nodes]
    cases hi : s.items with
    | nil => exact absurd hi hne
    | cons x xs => rfl
  · intro hne
    obtain ⟨-, hcut, -⟩ := r.cut_index s.index_stop
    rw [List.take_length, List.drop_length, List.nil_append] at hcut
    have hlast := List.getLast?_eq_some_getLast hne
    have hsplit := List.dropLast_concat_getLast hne
    have hnot : (s.items.getLast hne).1 ∉ s.items.dropLast.map (·.1) := by
      have hnd := Spec.Seq.fst_nodup r.nodup
      rw [← hsplit, List.map_append, List.nodup_append] at hnd
      intro hm
      exact hnd.2.2 _ hm _ (by simp) rfl
    have hc2 := cut_mid s.items.dropLast [(s.stop, d)] (s.items.getLast hne) hnot
    rw [← List.singleton_append, ← List.append_assoc, hsplit] at hc2
    simp only [SList.back, prevOf]
    rw [r.stop, hcut]
    dsimp only
    rw [hlast]
    dsimp only
    rw [Res.ok_bind]
    unfold derefAt
    rw [r.nodes, hc2]
    rfl
  · intro h v hm
    obtain ⟨a, b, he⟩ := List.append_of_mem hm
    have hnd := Spec.Seq.fst_nodup r.nodup
    rw [he, List.map_append, List.nodup_append] at hnd
    have hnot : h ∉ a.map (·.1) := fun hh => hnd.2.2 h hh h (by simp) rfl
    have := cut_mid a (b ++ [(s.stop, d)]) (h, v) hnot
    unfold derefAt
    rw [r.nodes, he, List.append_assoc, List.cons_append, this]

theorem live_set_self {v : Spec.World α} {i k : Nat} {x : Option (Spec.Seq α)}
    (hi : i < v.seqs.length) :
    ({ seqs := v.seqs.set i x, fresh := k } : Spec.World α).live i = x := by
  simp [Spec.World.live, hi]

theorem live_set_ne {v : Spec.World α} {i j k : Nat} {x : Option (Spec.Seq α)} (h : i ≠ j) :
    ({ seqs := v.seqs.set i x, fresh := k } : Spec.World α).live j = v.live j := by
  simp [Spec.World.live, List.getElem?_set_ne h]

theorem live_lt {v : Spec.World α} {i : Nat} {s : Spec.Seq α} (h : v.live i = some s) :
    i < v.seqs.length := by
  unfold Spec.World.live at h
  by_contra hc
  rw [List.getElem?_eq_none (by omega)] at h
  exact absurd h (by simp)

/-- Replacing one sequence by one whose handles are its own or new. -/
theorem Inv.replace {d : α} {w : World α} {v : Spec.World α} (inv : Inv d w v) {i k' : Nat}
    {l' : SList α} {s' : Spec.Seq α} {old : List Nat} (hi : i < v.seqs.length)
    (ho : ∀ s, v.live i = some s → ∀ h ∈ old, h ∈ s.handles)
    (ho' : v.live i = none → old = [])
    (r : Rep d l' s') (hg : Grows old s'.handles v.fresh k') :
    Inv d { lists := w.lists.set i l', fresh := k' }
      { seqs := v.seqs.set i (some s'), fresh := k' } := by
  have hil : i < w.lists.length := by rw [inv.count]; exact hi
  have hold : ∀ h ∈ old, h < v.fresh ∧ ∀ j t, j ≠ i → v.live j = some t → h ∉ t.handles := by
    intro h hh
    cases hl : v.live i with
    | none => rw [ho' hl] at hh; exact absurd hh (by simp)
    | some s =>
      have hm := ho s hl h hh
      exact ⟨inv.old i s hl h hm, fun j t hj ht => inv.apart i j s t hl ht hj.symm h hm⟩
  refine ⟨rfl, by simp [inv.count], ?_, ?_, ?_⟩
  · intro j s hs
    by_cases hj : i = j
    · subst hj
      rw [live_set_self hi] at hs
      cases hs
      exact ⟨l', by simp [hil], r⟩
    · rw [live_set_ne hj] at hs
      obtain ⟨l, hl, hr⟩ := inv.rep j s hs
      exact ⟨l, by simp [List.getElem?_set_ne hj, hl], hr⟩
  · intro j s hs h hh
    dsimp only
    by_cases hj : i = j
    · subst hj
      rw [live_set_self hi] at hs
      cases hs
      rcases hg.2 h hh with hm | hm
      · have := (hold h hm).1
        have := hg.1
        omega
      · exact hm.2
    · rw [live_set_ne hj] at hs
      have := inv.old j s hs h hh
      have := hg.1
      omega
  · intro j1 j2 s t hs ht hne h hh hh'
    by_cases h1 : i = j1
    · subst h1
      rw [live_set_self hi] at hs
      rw [live_set_ne hne] at ht
      cases hs
      rcases hg.2 h hh with hm | hm
      · exact (hold h hm).2 j2 t hne.symm ht hh'
      · have := inv.old j2 t ht h hh'
        omega
    · rw [live_set_ne h1] at hs
      by_cases h2 : i = j2
      · subst h2
        rw [live_set_self hi] at ht
        cases ht
        rcases hg.2 h hh' with hm | hm
        · exact (hold h hm).2 j1 s hne hs hh
        · have := inv.old j1 s hs h hh
          omega
      · rw [live_set_ne h2] at ht
        exact inv.apart j1 j2 s t hs ht hne h hh hh'

theorem live_append_lt {v : Spec.World α} {i k : Nat} {x : Option (Spec.Seq α)}
    (hi : i < v.seqs.length) :
    ({ seqs := v.seqs ++ [x], fresh := k } : Spec.World α).live i = v.live i := by
  simp [Spec.World.live, List.getElem?_append_left hi]

theorem live_append_self {v : Spec.World α} {k : Nat} {x : Option (Spec.Seq α)} :
    ({ seqs := v.seqs ++ [x], fresh := k } : Spec.World α).live v.seqs.length = x := by
  simp [Spec.World.live]

/-- Adding a new sequence with new handles. -/
theorem Inv.append {d : α} {w : World α} {v : Spec.World α} (inv : Inv d w v) {k' : Nat}
    {l' : SList α} {s' : Spec.Seq α} (r : Rep d l' s') (hk : v.fresh ≤ k')
    (hg : ∀ h ∈ s'.handles, (v.fresh ≤ h ∧ h < k')) :
    Inv d { lists := w.lists ++ [l'], fresh := k' }
      { seqs := v.seqs ++ [some s'], fresh := k' } := by
  have hcases : ∀ j s, ({ seqs := v.seqs ++ [some s'], fresh := k' } : Spec.World α).live j
      = some s → (j < v.seqs.length ∧ v.live j = some s) ∨ (j = v.seqs.length ∧ s = s') := by
    intro j s hs
    have hlt := live_lt hs
    simp only [List.length_append, List.length_singleton] at hlt
    by_cases hj : j < v.seqs.length
    · rw [live_append_lt hj] at hs
      exact .inl ⟨hj, hs⟩
    · have : j = v.seqs.length := by omega
      subst this
      rw [live_append_self] at hs
      cases hs
      exact .inr ⟨rfl, rfl⟩
  refine ⟨rfl, by simp [inv.count], ?_, ?_, ?_⟩
  · intro j s hs
    rcases hcases j s hs with ⟨hj, hs⟩ | ⟨rfl, rfl⟩
    · obtain ⟨l, hl, hr⟩ := inv.rep j s hs
      refine ⟨l, ?_, hr⟩
      rw [List.getElem?_append_left (by rw [inv.count]; exact hj)]
      exact hl
    · refine ⟨l', ?_, r⟩
      rw [← inv.count]
      simp
  · intro j s hs h hh
    rcases hcases j s hs with ⟨hj, hs⟩ | ⟨rfl, rfl⟩
    · have := inv.old j s hs h hh
      dsimp only
      omega
    · exact (hg h hh).2
  · intro j1 j2 s t hs ht hne h hh hh'
    rcases hcases j1 s hs with ⟨hj, hs'⟩ | ⟨rfl, rfl⟩ <;>
      rcases hcases j2 t ht with ⟨hj', ht'⟩ | ⟨rfl, rfl⟩
    · exact inv.apart j1 j2 s t hs' ht' hne h hh hh'
    · have := inv.old j1 s hs' h hh
      have := (hg h hh').1
      omega
    · have := inv.old j2 t ht' h hh'
      have := (hg h hh).1
      omega
    · exact hne rfl

/-- Forgetting a sequence. -/
theorem Inv.drop {d : α} {w : World α} {v : Spec.World α} (inv : Inv d w v) {i : Nat}
    (l' : SList α) :
    Inv d { w with lists := w.lists.set i l' } { v with seqs := v.seqs.set i none } := by
  have hcases : ∀ j s, ({ v with seqs := v.seqs.set i none } : Spec.World α).live j
      = some s → j ≠ i ∧ v.live j = some s := by
    intro j s hs
    by_cases hj : i = j
    · subst hj
      have hlt := live_lt hs
      rw [List.length_set] at hlt
      rw [live_set_self hlt] at hs
      exact absurd hs (by simp)
    · rw [live_set_ne hj] at hs
      exact ⟨fun e => hj e.symm, hs⟩
  refine ⟨inv.fresh, by simp [inv.count], ?_, ?_, ?_⟩
  · intro j s hs
    obtain ⟨hj, hs⟩ := hcases j s hs
    obtain ⟨l, hl, hr⟩ := inv.rep j s hs
    exact ⟨l, by simp [List.getElem?_set_ne hj.symm, hl], hr⟩
  · intro j s hs
    exact inv.old j s (hcases j s hs).2
  · intro j1 j2 s t hs ht
    exact inv.apart j1 j2 s t (hcases j1 s hs).2 (hcases j2 t ht).2

/-- A new list of labelled elements. -/
theorem rep_fill (d : α) (k : Nat) (vs : List α) :
    Rep d { nodes := Spec.label k vs ++ [(k + vs.length, d)], myEnd := k + vs.length }
      (Spec.fill k vs) ∧
    ∀ h ∈ (Spec.fill k vs).handles, k ≤ h ∧ h < k + vs.length + 1 := by
  have hh : (Spec.fill k vs).handles = List.range' k (vs.length + 1) := by
    simp only [Spec.Seq.handles, Spec.fill, label_map_fst]
    rw [List.range'_concat]
    simp
  refine ⟨⟨rfl, rfl, ?_⟩, ?_⟩
  · rw [hh]; exact List.nodup_range'
  · intro h hm
    rw [hh, List.mem_range'_1] at hm
    omega

theorem mkNodes_append (k : Nat) (a b : List α) :
    mkNodes k (a ++ b) = mkNodes k a ++ mkNodes (k + a.length) b := by
  induction a generalizing k with
  | nil => simp [mkNodes]
  | cons x a ih =>
    simp only [List.cons_append, mkNodes, ih, List.length_cons]
    congr 3
    omega

/-- Copying the nodes of a list, the hidden element included. -/
theorem copy_nodes {d : α} {l : SList α} {s : Spec.Seq α} (r : Rep d l s) (k : Nat) :
    mkNodes k (l.nodes.map (·.2)) = Spec.label k (s.items.map (·.2)) ++
      [(k + (s.items.map (·.2)).length, d)] := by
  rw [r.nodes, List.map_append, mkNodes_append, mkNodes_label]
  rfl

theorem lastNode_concat (a : Nodes α) (x : Nat × α) : lastNode (a ++ [x]) = .ok x.1 := by
  simp [lastNode]

theorem Inv.step {d : α} {w : World α} {v v' : Spec.World α} (inv : Inv d w v) (c : Cmd α)
    (hs : v.step d c = some v') : ∃ w', w.step d c = .ok w' ∧ Inv d w' v' := by
  cases c with
  | new vs =>
    simp only [Spec.World.step, Option.some.injEq] at hs
    subst hs
    obtain ⟨h1, h2⟩ := rep_fill d v.fresh vs
    refine ⟨_, rfl, ?_⟩
    simp only [mkNodes_label, inv.fresh]
    exact inv.append h1 (by omega) h2
  | op i o =>
    simp only [Spec.World.step, Option.bind_eq_some_iff, Option.map_eq_some_iff] at hs
    obtain ⟨s, hl, ⟨s', k'⟩, hstep, rfl⟩ := hs
    obtain ⟨l, hw, r⟩ := inv.rep i s hl
    obtain ⟨l', h1, h2, h3⟩ := r.step o (inv.old i s hl) hstep
    refine ⟨{ lists := w.lists.set i l', fresh := k' }, ?_, ?_⟩
    · simp only [World.step, hw, inv.fresh, h1]
      rfl
    · exact inv.replace (live_lt hl) (fun t ht => by rw [hl] at ht; cases ht; exact fun h => id)
        (fun hn => by rw [hl] at hn; exact absurd hn (by simp)) h2 h3
  | copy i =>
    simp only [Spec.World.step, Option.map_eq_some_iff] at hs
    obtain ⟨s, hl, rfl⟩ := hs
    obtain ⟨l, hw, r⟩ := inv.rep i s hl
    obtain ⟨h1, h2⟩ := rep_fill d v.fresh (s.items.map (·.2))
    refine ⟨_, ?_, inv.append (k' := v.fresh + s.items.length + 1) h1 (by omega)
      (by simpa using h2)⟩
    simp only [World.step, hw, inv.fresh, copy_nodes r, lastNode_concat, Res.ok_bind,
      List.length_append, List.length_singleton, label_length, List.length_map]
    rfl
  | move i =>
    simp only [Spec.World.step, Option.map_eq_some_iff] at hs
    obtain ⟨s, hl, rfl⟩ := hs
    obtain ⟨l, hw, r⟩ := inv.rep i s hl
    have hlt := live_lt hl
    have hdrop := inv.drop (i := i) { l with nodes := [] }
    refine ⟨{ w with lists := w.lists.set i { l with nodes := [] } ++
      [{ nodes := l.nodes, myEnd := s.stop }] }, ?_, ?_⟩
    · simp only [World.step, hw]
      rw [show lastNode l.nodes = .ok s.stop by rw [r.nodes, lastNode_concat]]
      rfl
    · have hcases : ∀ j t, ({ v with seqs := v.seqs.set i none ++ [some s] } :
          Spec.World α).live j = some t →
          (j < v.seqs.length ∧ j ≠ i ∧ v.live j = some t) ∨ (j = v.seqs.length ∧ t = s) := by
        intro j t ht
        have hltj := live_lt ht
        simp only [List.length_append, List.length_set, List.length_singleton] at hltj
        by_cases hj : j < v.seqs.length
        · left
          have : ({ v with seqs := v.seqs.set i none ++ [some s] } : Spec.World α).live j
              = ({ v with seqs := v.seqs.set i none } : Spec.World α).live j :=
            live_append_lt (v := { v with seqs := v.seqs.set i none }) (by simpa using hj)
          rw [this] at ht
          by_cases hij : i = j
          · subst hij
            rw [live_set_self hj] at ht
            exact absurd ht (by simp)
          · rw [live_set_ne hij] at ht
            exact ⟨hj, fun e => hij e.symm, ht⟩
        · right
          have hje : j = v.seqs.length := by omega
          subst hje
          have : ({ v with seqs := v.seqs.set i none ++ [some s] } : Spec.World α).live
              v.seqs.length = some s := by
            have := live_append_self (v := { v with seqs := v.seqs.set i none }) (k := v.fresh)
              (x := some s)
            simpa using this
          rw [this] at ht
          cases ht
          exact ⟨rfl, rfl⟩
      refine ⟨inv.fresh, by simp [inv.count], ?_, ?_, ?_⟩
      · intro j t ht
        rcases hcases j t ht with ⟨hj, hne, ht⟩ | ⟨rfl, rfl⟩
        · obtain ⟨m, hm, hr⟩ := inv.rep j t ht
          refine ⟨m, ?_, hr⟩
          rw [List.getElem?_append_left (by simpa [inv.count] using hj),
            List.getElem?_set_ne hne.symm]
          exact hm
        · refine ⟨{ nodes := l.nodes, myEnd := t.stop }, ?_, r.nodes, rfl, r.nodup⟩
          have : v.seqs.length = (w.lists.set i { l with nodes := [] }).length := by
            simp [inv.count]
          rw [this]
          simp
      · intro j t ht
        rcases hcases j t ht with ⟨hj, hne, ht⟩ | ⟨rfl, rfl⟩
        · exact inv.old j t ht
        · exact inv.old i t hl
      · intro j1 j2 t1 t2 h1 h2 hne
        rcases hcases j1 t1 h1 with ⟨hj, hne1, g1⟩ | ⟨rfl, rfl⟩ <;>
          rcases hcases j2 t2 h2 with ⟨hj', hne2, g2⟩ | ⟨rfl, rfl⟩
        · exact inv.apart j1 j2 t1 t2 g1 g2 hne
        · exact inv.apart j1 i t1 t2 g1 hl hne1
        · exact inv.apart i j2 t1 t2 hl g2 hne2.symm
        · exact absurd rfl hne
  | assign i j =>
    simp only [Spec.World.step] at hs
    split at hs
    · rename_i x s hx hl
      obtain ⟨l, hw, r⟩ := inv.rep j s hl
      have hi : i < v.seqs.length := (List.getElem?_eq_some_iff.mp hx).1
      have hil : i < w.lists.length := by rw [inv.count]; exact hi
      have hwi := List.getElem?_eq_getElem hil
      by_cases hij : i = j
      · rw [if_pos hij] at hs
        cases hs
        subst hij
        refine ⟨w, ?_, inv⟩
        simp only [World.step, hw]
        rw [if_pos trivial, show lastNode l.nodes = .ok s.stop by rw [r.nodes, lastNode_concat],
          Res.ok_bind]
        have : ({ l with myEnd := s.stop } : SList α) = l := by rw [← r.stop]
        rw [this]
        obtain ⟨hlt, hget⟩ := List.getElem?_eq_some_iff.mp hw
        rw [← hget, List.set_getElem_self]
      · rw [if_neg hij] at hs
        cases hs
        obtain ⟨h1, h2⟩ := rep_fill d v.fresh (s.items.map (·.2))
        refine ⟨_, ?_, inv.replace (old := []) (k' := v.fresh + s.items.length + 1) hi
          (by simp) (by simp) h1 ⟨by omega, fun h hh => .inr (by simpa using h2 h hh)⟩⟩
        simp only [World.step, hw, hwi]
        rw [if_neg hij]
        simp only [inv.fresh, copy_nodes r, lastNode_concat, Res.ok_bind, List.length_append,
          List.length_singleton, label_length, List.length_map]
        rfl
    · exact absurd hs (by simp)
  | moveAssign i j =>
    simp only [Spec.World.step] at hs
    split at hs
    · rename_i x s hx hl
      obtain ⟨l, hw, r⟩ := inv.rep j s hl
      have hi : i < v.seqs.length := (List.getElem?_eq_some_iff.mp hx).1
      have hil : i < w.lists.length := by rw [inv.count]; exact hi
      have hwi := List.getElem?_eq_getElem hil
      by_cases hij : i = j
      · rw [if_pos hij] at hs
        cases hs
        subst hij
        refine ⟨w, ?_, inv⟩
        simp only [World.step, hw]
        rw [if_pos trivial]
      · rw [if_neg hij] at hs
        cases hs
        refine ⟨{ w with lists :=
          (w.lists.set i { nodes := l.nodes, myEnd := s.stop }).set j { l with nodes := [] } },
          ?_, ?_⟩
        · simp only [World.step, hw, hwi]
          rw [if_neg hij, show lastNode l.nodes = .ok s.stop by rw [r.nodes, lastNode_concat]]
          rfl
        · have hcases : ∀ m t, ({ v with seqs := (v.seqs.set i (some s)).set j none } :
              Spec.World α).live m = some t →
              (m ≠ i ∧ m ≠ j ∧ v.live m = some t) ∨ (m = i ∧ t = s) := by
            intro m t ht
            have hjm : j ≠ m := by
              rintro rfl
              have hlt := live_lt hl
              have := live_set_self (v := { v with seqs := v.seqs.set i (some s) })
                (k := v.fresh) (x := none) (i := j) (by simpa using hlt)
              simp only [] at this
              rw [this] at ht
              exact absurd ht (by simp)
            have := live_set_ne (v := { v with seqs := v.seqs.set i (some s) })
                (k := v.fresh) (x := none) hjm
            simp only [] at this
            rw [this] at ht
            by_cases him : i = m
            · subst him
              rw [live_set_self hi] at ht
              cases ht
              exact .inr ⟨rfl, rfl⟩
            · rw [live_set_ne him] at ht
              exact .inl ⟨fun e => him e.symm, hjm.symm, ht⟩
          refine ⟨inv.fresh, by simp [inv.count], ?_, ?_, ?_⟩
          · intro m t ht
            rcases hcases m t ht with ⟨h1, h2, ht⟩ | ⟨rfl, rfl⟩
            · obtain ⟨q, hq, hr⟩ := inv.rep m t ht
              refine ⟨q, ?_, hr⟩
              rw [List.getElem?_set_ne h2.symm, List.getElem?_set_ne h1.symm]
              exact hq
            · refine ⟨{ nodes := l.nodes, myEnd := t.stop }, ?_, r.nodes, rfl, r.nodup⟩
              rw [List.getElem?_set_ne (fun e => hij e.symm)]
              simp [hil]
          · intro m t ht
            rcases hcases m t ht with ⟨h1, h2, ht⟩ | ⟨rfl, rfl⟩
            · exact inv.old m t ht
            · exact inv.old j t hl
          · intro m1 m2 t1 t2 h1 h2 hne
            rcases hcases m1 t1 h1 with ⟨a1, b1, g1⟩ | ⟨rfl, rfl⟩ <;>
              rcases hcases m2 t2 h2 with ⟨a2, b2, g2⟩ | ⟨rfl, rfl⟩
            · exact inv.apart m1 m2 t1 t2 g1 g2 hne
            · exact inv.apart m1 j t1 t2 g1 hl b1
            · exact inv.apart j m2 t1 t2 hl g2 b2.symm
            · exact absurd rfl hne
    · exact absurd hs (by simp)

end SL
end FLPR
