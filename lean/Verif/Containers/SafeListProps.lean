import Verif.Containers.SafeListLemmas
/-!
# `Safe_List`: properties (C28)
-/

namespace FLPR
namespace SL

variable {α : Type}

/-- No lists yet. -/
def World.start : World α := { lists := [], fresh := 0 }
/-- No sequences yet. -/
def Spec.World.start : Spec.World α := { seqs := [], fresh := 0 }

theorem inv_start (d : α) : Inv d (World.start : World α) Spec.World.start := by
  refine ⟨rfl, rfl, ?_, ?_, ?_⟩ <;> simp [Spec.World.start, Spec.World.live]

theorem inv_run {d : α} {w : World α} {v v' : Spec.World α} (inv : Inv d w v)
    (cs : List (Cmd α)) (hs : v.run d cs = some v') :
    ∃ w', w.run d cs = .ok w' ∧ Inv d w' v' := by
  induction cs generalizing w v with
  | nil =>
    simp only [Spec.World.run, Option.some.injEq] at hs
    subst hs
    exact ⟨w, rfl, inv⟩
  | cons c cs ih =>
    simp only [Spec.World.run, Option.bind_eq_some_iff] at hs
    obtain ⟨v1, h1, h2⟩ := hs
    obtain ⟨w1, hw, inv1⟩ := inv.step c h1
    obtain ⟨w', hw', inv'⟩ := ih inv1 h2
    refine ⟨w', ?_, inv'⟩
    simp only [World.run, hw, Res.ok_bind, hw']

/-- **C28.**  Every history of commands that the interface allows (no iterator of an erased
element or of another list, no `erase(end())`, no `pop_back` on an empty list, no `remove_if`
that would remove a default element, nothing but assignment done to a moved-from list) runs
without undefined behaviour, and afterwards every list shows exactly its abstract sequence:
the same elements in the same order under the same iterators, the same `end()`, the same
`begin()`, `size()`, `empty()`, `front()` and `back()`. -/
theorem C28_history_partial (d : α) (cs : List (Cmd α)) (v : Spec.World α)
    (h : Spec.World.start.run d cs = some v) :
    ∃ w, World.start.run d cs = .ok w ∧ Matches w v := by
  obtain ⟨w, hw, inv⟩ := inv_run (inv_start d) cs h
  refine ⟨w, hw, inv.fresh, inv.count, ?_⟩
  intro i l s hl hs
  obtain ⟨l', hl', r⟩ := inv.rep i s (by simp [Spec.World.live, hs])
  rw [hl] at hl'
  cases hl'
  exact r.shows

/-- An element of some live sequence, or the end of one (`none`). -/
def Spec.World.Refers (v : Spec.World α) (h : Nat) (x : Option α) : Prop :=
  ∃ i s, v.live i = some s ∧
    match x with
    | some a => (h, a) ∈ s.items
    | none => h = s.stop

/-- **C28.**  A command ends only the handles it is documented to end: every other iterator, and
every other `end()`, refers to what it referred to before (possibly in the list its element was
moved to). -/
theorem C28_survive_step (d : α) (v v' : Spec.World α) (c : Cmd α) (hs : v.step d c = some v')
    (h : Nat) (x : Option α) (hr : v.Refers h x) (hend : h ∉ v.ended c) : v'.Refers h x := by
  obtain ⟨i, s, hl, hx⟩ := hr
  -- a list that is neither changed nor dropped keeps its handles
  have keep : ∀ j y k, j ≠ i →
      ({ seqs := v.seqs.set j y, fresh := k } : Spec.World α).Refers h x := by
    intro j y k hj
    exact ⟨i, s, by rw [live_set_ne hj]; exact hl, hx⟩
  cases c with
  | new vs =>
    simp only [Spec.World.step, Option.some.injEq] at hs
    subst hs
    exact ⟨i, s, by rw [live_append_lt (live_lt hl)]; exact hl, hx⟩
  | copy j =>
    simp only [Spec.World.step, Option.map_eq_some_iff] at hs
    obtain ⟨t, -, rfl⟩ := hs
    exact ⟨i, s, by rw [live_append_lt (live_lt hl)]; exact hl, hx⟩
  | move j =>
    simp only [Spec.World.step, Option.map_eq_some_iff] at hs
    obtain ⟨t, ht, rfl⟩ := hs
    by_cases hj : j = i
    · subst hj
      rw [hl] at ht
      cases ht
      refine ⟨v.seqs.length, s, ?_, hx⟩
      have := live_append_self (v := { v with seqs := v.seqs.set j none }) (k := v.fresh)
        (x := some s)
      simpa using this
    · refine ⟨i, s, ?_, hx⟩
      have := live_append_lt (v := { v with seqs := v.seqs.set j none }) (k := v.fresh)
        (x := some t) (i := i) (by simpa using live_lt hl)
      rw [show ({ v with seqs := v.seqs.set j none ++ [some t] } : Spec.World α).live i = _ from
        this, live_set_ne hj]
      exact hl
  | assign j m =>
    simp only [Spec.World.step] at hs
    split at hs
    · rename_i y t hy ht
      split at hs
      · cases hs
        exact ⟨i, s, hl, hx⟩
      · rename_i hjm
        cases hs
        apply keep
        rintro rfl
        simp only [Spec.World.ended, if_neg hjm, hl, Option.map_some, Option.getD_some] at hend
        apply hend
        unfold Spec.Seq.handles
        cases x with
        | none => rw [show h = s.stop from hx]; simp
        | some a => exact List.mem_append_left _ (List.mem_map.mpr ⟨_, hx, rfl⟩)
    · exact absurd hs (by simp)
  | moveAssign j m =>
    simp only [Spec.World.step] at hs
    split at hs
    · rename_i y t hy ht
      split at hs
      · cases hs
        exact ⟨i, s, hl, hx⟩
      · rename_i hjm
        cases hs
        have hji : j ≠ i := by
          rintro rfl
          simp only [Spec.World.ended, if_neg hjm, hl, Option.map_some, Option.getD_some] at hend
          apply hend
          unfold Spec.Seq.handles
          cases x with
          | none => rw [show h = s.stop from hx]; simp
          | some a => exact List.mem_append_left _ (List.mem_map.mpr ⟨_, hx, rfl⟩)
        by_cases hmi : m = i
        · subst hmi
          rw [hl] at ht
          cases ht
          have hjlt : j < v.seqs.length := (List.getElem?_eq_some_iff.mp hy).1
          refine ⟨j, s, ?_, hx⟩
          have := live_set_ne (v := { v with seqs := v.seqs.set j (some s) }) (k := v.fresh)
            (x := none) (i := m) (j := j) (fun e => hjm e.symm)
          simp only [] at this
          rw [this, live_set_self hjlt]
        · refine ⟨i, s, ?_, hx⟩
          have := live_set_ne (v := { v with seqs := v.seqs.set j (some t) }) (k := v.fresh)
            (x := none) hmi
          simp only [] at this
          rw [this, live_set_ne hji]
          exact hl
    · exact absurd hs (by simp)
  | op j o =>
    simp only [Spec.World.step, Option.bind_eq_some_iff, Option.map_eq_some_iff] at hs
    obtain ⟨t, ht, ⟨t', k'⟩, hstep, rfl⟩ := hs
    by_cases hj : j = i
    · subst hj
      rw [hl] at ht
      cases ht
      refine ⟨j, t', live_set_self (live_lt hl), ?_⟩
      simp only [Spec.World.ended, hl] at hend
      cases o with
      | pushBack a =>
        simp only [Spec.Seq.step, Option.some.injEq, Prod.mk.injEq] at hstep
        obtain ⟨rfl, -⟩ := hstep
        cases x with
        | none => exact hx
        | some b => exact List.mem_append_left _ hx
      | pushFront a =>
        simp only [Spec.Seq.step, Option.some.injEq, Prod.mk.injEq] at hstep
        obtain ⟨rfl, -⟩ := hstep
        cases x with
        | none => exact hx
        | some b => exact List.mem_cons_of_mem _ hx
      | insert g a =>
        simp only [Spec.Seq.step, Option.map_eq_some_iff, Prod.mk.injEq] at hstep
        obtain ⟨n, -, rfl, -⟩ := hstep
        cases x with
        | none => exact hx
        | some b =>
          have hx' : (h, b) ∈ s.items.take n ++ s.items.drop n := by
            rw [List.take_append_drop]; exact hx
          simp only [List.mem_append, List.mem_cons] at hx' ⊢
          rcases hx' with h1 | h1
          · exact .inl h1
          · exact .inr (.inr h1)
      | insertRange g vs =>
        simp only [Spec.Seq.step, Option.map_eq_some_iff, Prod.mk.injEq] at hstep
        obtain ⟨n, -, rfl, -⟩ := hstep
        cases x with
        | none => exact hx
        | some b =>
          have hx' : (h, b) ∈ s.items.take n ++ s.items.drop n := by
            rw [List.take_append_drop]; exact hx
          simp only [List.mem_append] at hx' ⊢
          rcases hx' with h1 | h1
          · exact .inl (.inl h1)
          · exact .inr h1
      | erase g =>
        simp only [Spec.Seq.step] at hstep
        split at hstep
        · exact absurd hstep (by simp)
        rename_i hg
        simp only [Option.map_eq_some_iff, Prod.mk.injEq] at hstep
        obtain ⟨n, hn, rfl, -⟩ := hstep
        cases x with
        | none => exact hx
        | some b =>
          have hx' : (h, b) ∈ s.items.take n ++ s.items.drop n := by
            rw [List.take_append_drop]; exact hx
          simp only [Spec.Seq.index, if_neg hg] at hn
          obtain ⟨hlt, he, -⟩ := List.findIdx?_eq_some_iff_getElem.mp hn
          have he' : (s.items[n]).1 = g := by simpa using he
          have hd : s.items.drop n = s.items[n] :: s.items.drop (n + 1) := by simp
          rw [hd] at hx'
          simp only [List.eraseIdx_eq_take_drop_succ, List.mem_append, List.mem_cons] at hx' ⊢
          rcases hx' with h1 | h1 | h1
          · exact .inl h1
          · exfalso
            apply hend
            rw [List.mem_singleton, ← he', ← h1]
          · exact .inr h1
      | eraseRange g f =>
        simp only [Spec.Seq.step] at hstep
        split at hstep
        · rename_i n m hn hm
          split at hstep
          · rename_i hnm
            simp only [Option.some.injEq, Prod.mk.injEq] at hstep
            obtain ⟨rfl, -⟩ := hstep
            cases x with
            | none => exact hx
            | some b =>
              simp only [hn, hm] at hend
              have hx' : (h, b) ∈ (s.items.take m).take n ++ (s.items.take m).drop n
                  ++ s.items.drop m := by
                rw [List.take_append_drop, List.take_append_drop]; exact hx
              simp only [List.mem_append, List.take_take, Nat.min_eq_left hnm] at hx' ⊢
              rcases hx' with (h1 | h1) | h1
              · exact .inl h1
              · exact absurd (List.mem_map.mpr ⟨_, h1, rfl⟩) hend
              · exact .inr h1
          · exact absurd hstep (by simp)
        · exact absurd hstep (by simp)
      | popBack =>
        simp only [Spec.Seq.step] at hstep
        split at hstep
        · exact absurd hstep (by simp)
        rename_i hne
        simp only [Option.some.injEq, Prod.mk.injEq] at hstep
        obtain ⟨rfl, -⟩ := hstep
        cases x with
        | none => exact hx
        | some b =>
          have hx' := show (h, b) ∈ s.items from hx
          rw [← List.dropLast_concat_getLast hne] at hx'
          rw [List.mem_append, List.mem_singleton] at hx'
          rcases hx' with h1 | h1
          · exact h1
          · exfalso
            apply hend
            rw [List.getLast?_eq_some_getLast hne, ← h1]
            simp
      | clear =>
        exfalso
        apply hend
        unfold Spec.Seq.handles
        cases x with
        | none => rw [show h = s.stop from hx]; simp
        | some a => exact List.mem_append_left _ (List.mem_map.mpr ⟨_, hx, rfl⟩)
      | removeIf p =>
        simp only [Spec.Seq.step] at hstep
        split at hstep
        · exact absurd hstep (by simp)
        simp only [Option.some.injEq, Prod.mk.injEq] at hstep
        obtain ⟨rfl, -⟩ := hstep
        cases x with
        | none => exact hx
        | some b =>
          simp only [List.mem_filter]
          refine ⟨hx, ?_⟩
          cases hp : p b with
          | false => rfl
          | true =>
            exfalso
            apply hend
            exact List.mem_map.mpr ⟨(h, b), List.mem_filter.mpr ⟨hx, hp⟩, rfl⟩
    · exact keep j _ _ hj

/-- The same for a history: a handle that no command ends keeps its meaning. -/
theorem C28_survive (d : α) (cs : List (Cmd α)) (v v' : Spec.World α)
    (hs : v.run d cs = some v') (h : Nat) (x : Option α) (hr : v.Refers h x)
    (hend : ∀ (pre post : List (Cmd α)) (c : Cmd α) (u : Spec.World α), cs = pre ++ c :: post →
      v.run d pre = some u → h ∉ u.ended c) : v'.Refers h x := by
  induction cs generalizing v with
  | nil =>
    simp only [Spec.World.run, Option.some.injEq] at hs
    subst hs
    exact hr
  | cons c cs ih =>
    simp only [Spec.World.run, Option.bind_eq_some_iff] at hs
    obtain ⟨v1, h1, h2⟩ := hs
    refine ih v1 h2 (C28_survive_step d v v1 c h1 h x hr (hend [] cs c v rfl rfl)) ?_
    intro pre post c' u he hu
    refine hend (c :: pre) post c' u (by rw [he]; rfl) ?_
    simp only [Spec.World.run, h1, Option.bind_some, hu]

/-- **C28.**  Every member function except `clear` leaves `end()` as it is, whatever the state
of the list. -/
theorem C28_end (d : α) (l l' : SList α) (k k' : Nat) (o : Op α) (ho : o ≠ .clear)
    (h : l.step d k o = .ok (l', k')) : l'.myEnd = l.myEnd := by
  cases o with
  | clear => exact absurd rfl ho
  | pushBack v =>
    simp only [SList.step] at h
    rbind h with x hx
    cases h; rfl
  | pushFront v => cases h; rfl
  | insert p v =>
    simp only [SList.step] at h
    rbind h with x hx
    cases h; rfl
  | insertRange p vs =>
    simp only [SList.step] at h
    rbind h with x hx
    cases h; rfl
  | erase p =>
    simp only [SList.step] at h
    rbind h with x hx
    cases h; rfl
  | eraseRange p q =>
    simp only [SList.step] at h
    rbind h with x hx
    cases h; rfl
  | popBack =>
    simp only [SList.step] at h
    rbind h with x hx
    rbind h with y hy
    cases h; rfl
  | removeIf p =>
    simp only [SList.step] at h
    split at h
    · exact absurd h (by simp)
    · cases h; rfl

/-! ## Where the code departs from the property -/

/-- `clear()` destroys the hidden element that `end()` was: a stored `end()` is invalid after
it (inserting there is undefined), for every list. -/
theorem C28_violation_clear (d v : α) (l : SList α) (s : Spec.Seq α) (r : Rep d l s) (k : Nat)
    (hk : ∀ h ∈ s.handles, h < k) :
    ∃ l', l.step d k .clear = .ok (l', k + 1) ∧ l'.myEnd ≠ l.myEnd ∧
      l'.step d (k + 1) (.insert l.myEnd v) = .error .ub := by
  have hlt : s.stop < k := hk _ (by simp [Spec.Seq.handles])
  refine ⟨{ nodes := [(k, d)], myEnd := k }, rfl, ?_, ?_⟩
  · rw [r.stop]
    dsimp only
    omega
  · simp only [SList.step, insertAt]
    rw [cut_none]
    · rfl
    · rw [r.stop]
      simp
      omega

/-- `remove_if` with a predicate that holds of a default-constructed element: when an element
stays, the hidden element is gone without replacement and the next `push_back` is undefined;
when none stays, `std::prev` of the end of an empty list is taken, which is undefined. -/
theorem C28_violation_remove_if (d v : α) (l : SList α) (s : Spec.Seq α) (r : Rep d l s)
    (k : Nat) (p : α → Bool) (hp : p d = true) :
    l.step d k (.removeIf p) = .error .ub ∨
      ∃ l', l.step d k (.removeIf p) = .ok (l', k) ∧ l'.step d k (.pushBack v) = .error .ub := by
  have hf : l.nodes.filter (fun x => !p x.2) = s.items.filter (fun x => !p x.2) := by
    rw [r.nodes, List.filter_append]
    simp [hp]
  simp only [SList.step]
  rw [hf]
  by_cases he : (s.items.filter (fun x => !p x.2)).isEmpty = true
  · left
    rw [if_pos he]
  · right
    rw [if_neg he]
    refine ⟨_, rfl, ?_⟩
    simp only [insertAt]
    rw [cut_none]
    · rfl
    · rw [r.stop]
      intro hm
      obtain ⟨y, hy, hye⟩ := List.mem_map.mp hm
      exact Spec.Seq.stop_not_mem r.nodup (List.mem_map.mpr ⟨y, (List.mem_filter.mp hy).1, hye⟩)

/-- A list that has been moved from has no hidden element: its `size()` is 2^64 - 1 and a
`push_back` on it is undefined. -/
theorem C28_violation_moved_from (d v : α) (w w' : World α) (i : Nat)
    (h : w.step d (.move i) = .ok w') :
    ∃ l', w'.lists[i]? = some l' ∧ l'.size = 2 ^ 64 - 1 ∧
      l'.step d w'.fresh (.pushBack v) = .error .ub := by
  simp only [World.step] at h
  split at h
  · exact absurd h (by simp)
  · rename_i s hs
    rbind h with e he
    cases h
    have hlt : i < w.lists.length := (List.getElem?_eq_some_iff.mp hs).1
    refine ⟨{ s with nodes := [] }, ?_, by simp [SList.size], rfl⟩
    rw [List.getElem?_append_left (by simpa using hlt)]
    simp [hlt]

/-! ## Examples -/

/-- A program with two lists: insertions at both ends and before a stored iterator, an erase, a
move, an assignment. -/
def demo : List (Cmd Nat) :=
  [.new [10, 20, 30], .op 0 (.insert 1 15), .op 0 (.erase 2), .op 0 (.pushFront 5),
   .op 0 (.insert 3 99), .move 0, .op 1 (.removeIf (· == 10)), .assign 0 1, .op 1 .popBack,
   .op 1 (.eraseRange 4 1)]

/-- The program is allowed, and its two lists hold `5 15 20 99` and `20`. -/
example : ∃ v, Spec.World.start.run 0 demo = some v ∧
    (v.live 0).map (fun s => s.items.map (·.2)) = some [5, 15, 20, 99] ∧
    (v.live 1).map (fun s => s.items) = some [(5, 5), (1, 20)] ∧
    (v.live 1).map (fun s => s.stop) = some 3 := ⟨_, rfl, by decide, by decide, by decide⟩

example : ∃ w, World.start.run 0 demo = .ok w ∧
    w.lists.map (fun l => l.nodes.map (·.2)) = [[5, 15, 20, 99, 0], [5, 20, 0]] :=
  ⟨_, rfl, by decide⟩

/-- `1, 0, 2` with `remove_if(x == 0)`: the hidden element, which is 0, is removed too. -/
example : (do
    let w ← World.start.run 0 [.new [1, 0, 2], .op 0 (.removeIf (· == 0))]
    w.run 0 [.op 0 (.pushBack 7)]) = (.error .ub : Res (World Nat)) := by decide

end SL
end FLPR
