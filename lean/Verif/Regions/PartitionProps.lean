import Verif.Regions.PartitionLemmas
/-!
# C33: a partition into regions (src/flpr/Range_Partition.hh)
-/

namespace FLPR
namespace Reg
open Spec

/-- A history of appends in region order, whatever else, without looks. -/
def Ascending (ops : List (Nat × List Nat)) : Prop :=
  ((ops.filter (fun o => !o.2.isEmpty)).map (·.1)).Pairwise (· ≤ ·)

/-- A list of appends as a history. -/
def asOps (ops : List (Nat × List Nat)) : List ROp := ops.map (fun o => .app o.1 o.2)

theorem orderly_of_ascending {n : Nat} : ∀ (ops : List (Nat × List Nat)) (seen : List Nat),
    (∀ o ∈ ops, o.1 < n) → Ascending ops → (∀ o ∈ ops, o.2 ≠ [] → ∀ a ∈ seen, a ≤ o.1) →
    Orderly n seen (asOps ops) := by
  intro ops
  induction ops with
  | nil => intro _ _ _ _; trivial
  | cons o ops ih =>
    intro seen h1 h2 h3
    obtain ⟨i, xs⟩ := o
    refine ⟨h1 _ (by simp), fun hx => h3 _ (List.mem_cons_self ..) hx, ih _ (fun o ho => h1 o (by simp [ho])) ?_ ?_⟩
    · rw [Ascending] at h2 ⊢
      by_cases hx : xs = []
      · simpa [hx] using h2
      · simp only [List.filter_cons] at h2
        rw [if_pos (by simp [hx])] at h2
        exact (List.pairwise_cons.mp h2).2
    · intro o ho hne a ha
      rcases List.mem_append.mp ha with ha | ha
      · exact h3 o (by simp [ho]) hne a ha
      · cases xs with
        | nil => cases ha
        | cons x xs =>
          simp only [ROp.touches, List.mem_singleton] at ha
          subst ha
          rw [Ascending, List.filter_cons, if_pos (by simp), List.map_cons] at h2
          refine (List.pairwise_cons.mp h2).1 o.1 (List.mem_map.mpr ⟨o, List.mem_filter.mpr ⟨ho, ?_⟩, rfl⟩)
          simpa using hne

/-- The elements of a region lie between its iterators. -/
theorem delimits {act : Nat → Prop} {c : Nat → List Nat} {pre post : List Nat} {n i s : Nat} (hp : post ≠ [])
    (hi : i ≤ n) (hn : IsNext act n i s) (hc : ∀ k, k < n → ¬ act k → c k = []) :
    Delimits (pre ++ rest c post n 0) (rest c post n i).head? (rest c post n s).head? (c i) := by
  have hpre : ∀ i, i ≤ n → ∃ q, rest c post n 0 = q ++ rest c post n i := by
    intro i
    induction i with
    | zero => intro _; exact ⟨[], rfl⟩
    | succ i ih =>
      intro h
      obtain ⟨q, hq⟩ := ih (by omega)
      exact ⟨q ++ c i, by rw [hq, rest_step (by omega), List.append_assoc]⟩
  obtain ⟨q, hq⟩ := hpre i hi
  have hr := rest_next (post := post) hn hc
  refine ⟨pre ++ q, rest c post n s, ?_, ?_, ?_, rfl⟩
  · rw [hq, hr]; simp [List.append_assoc]
  · rw [rest]; simp [hp]
  · rw [hr]

/-- What C33 says about a partition of the elements `l` with `n` regions whose contents are `c`. -/
structure Right {T : Type} (r : RP T) (n : Nat) (l : List Nat) (c : Nat → List Nat) : Prop where
  /-- the iterators of each region, if it was ever made active, delimit its elements -/
  here : ∀ i, i < n → c i ≠ [] → ∃ b e, r.cbegin i = .ok b ∧ r.cend i = .ok e ∧ Delimits l b e (c i)
  /-- a region with no elements is empty, one with elements is not -/
  empty : ∀ i, i < n → r.empty i = .ok (c i).isEmpty
  /-- each region ends where the next that has elements begins -/
  meet : ∀ i j, i < j → j < n → c i ≠ [] → c j ≠ [] → (∀ k, i < k → k < j → c k = []) →
    r.cend i = r.cbegin j

theorem right_of {T : Type} {r : RP T} {n : Nat} {act : Nat → Prop} {c : Nat → List Nat} {pre post : List Nat}
    (h : Links r n act) (hb : Begins r n act c post) (hp : post ≠ [])
    (hd : (pre ++ rest c post n 0).Nodup) : Right r n (pre ++ rest c post n 0) c := by
  have hact : ∀ i, i < n → c i ≠ [] → act i := by
    intro i hi hc
    by_contra hh
    exact hc (hb.off i hi hh)
  refine ⟨?_, ?_, ?_⟩
  · intro i hi hc
    obtain ⟨b, e, h1, h2, h3, _⟩ := query h hb hi
    obtain ⟨s, hs, rfl, rfl⟩ := h3 (hact i hi hc)
    exact ⟨_, _, h1, h2, delimits hp (by omega) hs hb.off⟩
  · intro i hi
    obtain ⟨b, e, h1, h2, h3, h4⟩ := query h hb hi
    rw [RP.empty, h1, Res.ok_bind, h2, Res.ok_bind]
    congr 1
    by_cases ha : act i
    · obtain ⟨s, hs, rfl, rfl⟩ := h3 ha
      rw [rest_next hs hb.off]
      cases hc : c i with
      | nil => simp
      | cons x xs =>
        have : ((x :: xs) ++ rest c post n s).Nodup := by
          rw [← hc, ← rest_next hs hb.off]
          have hsub : (rest c post n i).Sublist (rest c post n 0) := by
            have hpre : ∀ i, i ≤ n → (rest c post n i).Sublist (rest c post n 0) := by
              intro i
              induction i with
              | zero => intro _; exact List.Sublist.refl _
              | succ i ih =>
                intro h
                refine List.Sublist.trans ?_ (ih (by omega))
                rw [rest_step (i := i) (by omega)]
                exact List.sublist_append_right ..
            exact hpre i (by omega)
          exact ((List.nodup_append.mp hd).2.1).sublist hsub
        have hne := head_ne (List.cons_ne_nil x xs) (by rw [rest]; simp [hp]) this
        simpa using hne
    · obtain ⟨rfl, e2⟩ := h4 ha
      simp [e2]
  · intro i j hij hj h1 h2 h3
    obtain ⟨b, e, q1, q2, q3, _⟩ := query h hb (show i < n by omega)
    obtain ⟨b', e', q1', q2', q3', _⟩ := query h hb hj
    obtain ⟨s, hs, rfl, rfl⟩ := q3 (hact i (by omega) h1)
    obtain ⟨s', hs', rfl, rfl⟩ := q3' (hact j hj h2)
    rw [q2, q1']
    congr 2
    have hsj : s ≤ j := by
      by_contra hc
      exact hs.2.2.2 j hij (by omega) (hact j hj h2)
    exact rest_skip hsj (by omega) (fun k hk1 hk2 => h3 k (by have := hs.1; omega) hk2)

theorem rest_all {n : Nat} {post : List Nat} : ∀ (ops : List ROp) (seen : List Nat), Orderly n seen ops →
    (∀ c : Nat → List Nat, (∀ k, k < n → c k ≠ [] → k ∈ seen) →
      rest (fun k => c k ++ regionOf ops k) post n 0 = rest c (ops.flatMap ROp.elems ++ post) n 0) := by
  intro ops
  induction ops with
  | nil =>
    intro seen _ c _
    have : (fun k => c k ++ regionOf [] k) = c := by funext k; simp [regionOf]
    rw [this]; rfl
  | cons o ops ih =>
    intro seen ho c hc
    cases o with
    | look i =>
      obtain ⟨o1, _, o3⟩ := ho
      have := ih _ o3 c (fun k hk hx => by simp [hc k hk hx])
      rw [show (fun k => c k ++ regionOf (.look i :: ops) k) = (fun k => c k ++ regionOf ops k) by
        funext k; simp [regionOf], this]
      simp [ROp.elems]
    | app i xs =>
      obtain ⟨o1, o2, o3⟩ := ho
      have h1 := ih _ o3 (addTo c i xs) (by
        intro k hk hx
        by_cases hki : k = i
        · subst hki
          cases xs with
          | nil =>
            rw [addTo, if_pos rfl, List.append_nil] at hx
            simp [hc k hk hx]
          | cons x xs => simp [ROp.touches]
        · rw [addTo, if_neg hki] at hx
          simp [hc k hk hx])
      rw [show (fun k => c k ++ regionOf (.app i xs :: ops) k) = (fun k => addTo c i xs k ++ regionOf ops k) by
        funext k
        by_cases hk : k = i
        · subst hk; simp [regionOf, addTo]
        · have : ¬ i = k := fun e => hk e.symm
          simp [regionOf, addTo, hk, this], h1]
      simp only [List.flatMap_cons, ROp.elems, List.append_assoc]
      by_cases hx : xs = []
      · subst hx
        have : addTo c i [] = c := by funext k; rw [addTo]; split <;> simp_all
        rw [this]; rfl
      · exact rest_addTo o1 (fun j h1 h2 => by
          by_contra hne
          have := o2 hx j (hc j h2 hne)
          omega) 0 (by omega)

theorem rest_nil {n : Nat} {post : List Nat} : rest (fun _ => []) post n 0 = post := by
  rw [rest_skip (s := n) (by omega) (le_refl _) (fun _ _ _ => rfl), rest_end]

/-- C33: after elements of a list are appended in order to a new partition, each append to a region not
before the last, every region has just the elements that were appended to it, and consecutive regions
meet.  The list has the elements `pre`, those appended, and `post` (at least the hidden end element). -/
theorem C33_appends (T : Type) (n : Nat) (h0 : 0 < n) (hn : n < badIdx) (ops : List (Nat × List Nat))
    (pre post : List Nat) (hp : post ≠ []) (hd : (pre ++ ops.flatMap (·.2) ++ post).Nodup)
    (hi : ∀ o ∈ ops, o.1 < n) (ho : Ascending ops) :
    ∃ (r0 r : RP T), RP.make n = .ok r0 ∧ runOps r0 (ops.flatMap (·.2) ++ post) (asOps ops) = .ok r ∧
      Right r n (pre ++ ops.flatMap (·.2) ++ post) (regionOf (asOps ops)) := by
  have hel : (asOps ops).flatMap ROp.elems = ops.flatMap (·.2) := by
    rw [asOps, List.flatMap_map]; rfl
  have hor := orderly_of_ascending ops [] hi ho (by simp)
  obtain ⟨r0, m1, m2, m3⟩ := make_ok T h0 hn (ops.flatMap (·.2) ++ post)
  rw [← hel] at m3 hd ⊢
  obtain ⟨r, e1, e2, e3⟩ := run_ok (asOps ops) r0 [] (fun _ => []) post
    (by simpa using m2) (by simpa using m3) (by rw [List.append_assoc] at hd; exact (List.nodup_append.mp hd).2.1) hp hor
  refine ⟨r0, r, m1, e1, ?_⟩
  have hall := rest_all (post := post) (asOps ops) [] hor (fun _ => []) (by simp)
  simp only [List.nil_append] at e3 hall
  rw [rest_nil] at hall
  rw [List.append_assoc] at hd ⊢
  rw [← hall] at hd ⊢
  exact right_of e2 e3 hp hd

/-- Three statements, then two in region 3 and none in region 1, between others. -/
example : ∃ (r0 r : RP Unit), RP.make 8 = .ok r0 ∧
    runOps r0 [10, 11, 12, 13, 14, 15, 99] (asOps [(0, [10]), (1, []), (3, [11, 12]), (3, [13]), (7, [14, 15])]) = .ok r ∧
    Right r 8 [5, 10, 11, 12, 13, 14, 15, 99] (regionOf (asOps [(0, [10]), (1, []), (3, [11, 12]), (3, [13]), (7, [14, 15])])) :=
  C33_appends Unit 8 (by decide) (by decide) [(0, [10]), (1, []), (3, [11, 12]), (3, [13]), (7, [14, 15])] [5] [99]
    (by decide) (by decide) (by decide) (by unfold Ascending; decide)

/-- C33 with uses of the functions `begin(idx)`, `end(idx)` that are not const, which make regions
active: the regions stay right provided at least two are active at each such use.  Missing: such uses
with fewer active regions, where it fails (`C33_violation_*`). -/
theorem C33_looks_partial (T : Type) (n : Nat) (h0 : 0 < n) (hn : n < badIdx) (ops : List ROp)
    (pre post : List Nat) (hp : post ≠ []) (hd : (pre ++ ops.flatMap ROp.elems ++ post).Nodup)
    (ho : Orderly n [] ops) :
    ∃ (r0 r : RP T), RP.make n = .ok r0 ∧ runOps r0 (ops.flatMap ROp.elems ++ post) ops = .ok r ∧
      Right r n (pre ++ ops.flatMap ROp.elems ++ post) (regionOf ops) := by
  obtain ⟨r0, m1, m2, m3⟩ := make_ok T h0 hn (ops.flatMap ROp.elems ++ post)
  obtain ⟨r, e1, e2, e3⟩ := run_ok ops r0 [] (fun _ => []) post
    (by simpa using m2) (by simpa using m3) (by rw [List.append_assoc] at hd; exact (List.nodup_append.mp hd).2.1) hp ho
  refine ⟨r0, r, m1, e1, ?_⟩
  have hall := rest_all (post := post) ops [] ho (fun _ => []) (by simp)
  simp only [List.nil_append] at e3 hall
  rw [rest_nil] at hall
  rw [List.append_assoc] at hd ⊢
  rw [← hall] at hd ⊢
  exact right_of e2 e3 hp hd

example : ∃ (r0 r : RP Unit), RP.make 4 = .ok r0 ∧
    runOps r0 [10, 11, 12, 99] [.app 0 [10], .app 2 [11], .look 1, .look 2, .app 3 [12]] = .ok r ∧
    Right r 4 [10, 11, 12, 99] (regionOf [.app 0 [10], .app 2 [11], .look 1, .look 2, .app 3 [12]]) :=
  C33_looks_partial Unit 4 (by decide) (by decide) [.app 0 [10], .app 2 [11], .look 1, .look 2, .app 3 [12]]
    [] [99] (by decide) (by decide) (by simp [Orderly, ROp.touches])

/-- C33: after an orderly history `validate` returns normally when no region or at least two are active,
and fails its assertion when just one is. -/
theorem C33_validate_partial (T : Type) (n : Nat) (h0 : 0 < n) (hn : n < badIdx) (ops : List ROp)
    (post : List Nat) (hp : post ≠ []) (hd : (ops.flatMap ROp.elems ++ post).Nodup)
    (ho : Orderly n [] ops) :
    ∃ (r0 r : RP T), RP.make n = .ok r0 ∧ runOps r0 (ops.flatMap ROp.elems ++ post) ops = .ok r ∧
      ((ops.flatMap ROp.touches = [] ∨ ∃ a ∈ ops.flatMap ROp.touches, ∃ b ∈ ops.flatMap ROp.touches, a ≠ b) →
        r.validate = .ok ()) ∧
      (∀ a ∈ ops.flatMap ROp.touches, (∀ b ∈ ops.flatMap ROp.touches, b = a) →
        r.validate = .error .assertion) := by
  obtain ⟨r0, m1, m2, m3⟩ := make_ok T h0 hn (ops.flatMap ROp.elems ++ post)
  obtain ⟨r, e1, e2, e3⟩ := run_ok ops r0 [] (fun _ => []) post
    (by simpa using m2) (by simpa using m3) hd hp ho
  rw [List.nil_append] at e2
  refine ⟨r0, r, m1, e1, fun hh => validate_ok e2 (fun k p hk ha => ?_), fun a ha hb => validate_sole e2 ha hb⟩
  rcases hh with hh | ⟨a, ha, b, hb, hab⟩
  · rw [hh] at ha; cases ha
  · refine active_of_two e2 hk ‹_› ?_
    by_cases hk : a = k
    · exact ⟨b, hb, by omega⟩
    · exact ⟨a, ha, hk⟩

example : ∃ (r0 r : RP Unit), RP.make 4 = .ok r0 ∧ runOps r0 [10, 11, 99] [.app 0 [10], .app 2 [11]] = .ok r ∧
    r.validate = .ok () := by
  obtain ⟨r0, r, h1, h2, h3, _⟩ := C33_validate_partial Unit 4 (by decide) (by decide) [.app 0 [10], .app 2 [11]] [99]
    (by decide) (by decide) (by simp [Orderly, ROp.touches])
  exact ⟨r0, r, h1, h2, h3 (.inr ⟨0, by decide, 2, by decide, by decide⟩)⟩

/-- C33: an append that is out of place fails an assertion: to a region before the last that has
elements, or of elements that do not follow those appended so far. -/
theorem C33_rejects (T : Type) (n : Nat) (h0 : 0 < n) (hn : n < badIdx) (ops : List ROp)
    (post : List Nat) (hp : post ≠ []) (hd : (ops.flatMap ROp.elems ++ post).Nodup)
    (ho : Orderly n [] ops) (i : Nat) (hi : i < n) (b e : It) (hbe : b ≠ e)
    (hne : ops.flatMap ROp.touches ≠ [])
    (hbad : b ≠ post.head? ∨ ∃ a ∈ ops.flatMap ROp.touches, i < a) :
    ∃ (r0 r : RP T), RP.make n = .ok r0 ∧ runOps r0 (ops.flatMap ROp.elems ++ post) ops = .ok r ∧
      r.append i b e = .error .assertion := by
  obtain ⟨r0, m1, m2, m3⟩ := make_ok T h0 hn (ops.flatMap ROp.elems ++ post)
  obtain ⟨r, e1, e2, e3⟩ := run_ok ops r0 [] (fun _ => []) post
    (by simpa using m2) (by simpa using m3) hd hp ho
  rw [List.nil_append] at e2 e3
  refine ⟨r0, r, m1, e1, ?_⟩
  obtain ⟨a0, ha0⟩ := List.exists_mem_of_ne_nil _ hne
  obtain ⟨pe, hpe, hback, hee⟩ := e2.back
  obtain ⟨-, hprev⟩ := hee.last rfl
  have hbeg := e3.last pe hpe ⟨a0, ha0⟩
  rcases hprev with ⟨x1, x2⟩ | ⟨x1, x2, x3, x4⟩
  · exact absurd ha0 (x2 a0 (e2.lt a0 ha0))
  · have hem : (pe.pred == r.endIdx) = false := by rw [e2.idx]; simp; omega
    rw [RP.append, e2.checkValid hi, Res.ok_bind, if_neg hbe, RP.activeEmpty, hback, Res.ok_bind, Res.ok_bind, hem]
    have hen : r.endAll = .ok pe.begin := by rw [RP.endAll, e2.idx, part_ok hpe]; rfl
    rw [hen, Res.ok_bind, hbeg, Bool.false_or]
    by_cases hb : b = post.head?
    · rw [if_pos (by simp [hb]), RP.lastActive, hback, Res.ok_bind, Res.ok_bind, Bool.false_or]
      obtain ⟨a, ha, hia⟩ := hbad.resolve_left (fun h => h hb)
      have hal : a ≤ pe.pred := by
        by_contra hc
        exact x4 a (by omega) (e2.lt a ha) ha
      rw [if_neg (by simp; omega), if_neg (by omega)]
    · rw [if_neg (by simpa using hb)]

example : ∃ (r0 r : RP Unit), RP.make 4 = .ok r0 ∧ runOps r0 [10, 11, 99] [.app 0 [10], .app 2 [11]] = .ok r ∧
    r.append 1 (some 99) (some 100) = .error .assertion :=
  C33_rejects Unit 4 (by decide) (by decide) [.app 0 [10], .app 2 [11]] [99] (by decide) (by decide)
    (by simp [Orderly, ROp.touches]) 1 (by decide) _ _ (by decide) (by decide) (.inr ⟨2, by decide, by decide⟩)

/-! ### Where it fails -/

/-- A partition with the one statement 10 in region `i` of 4, in front of the end 99. -/
def sole (i : Nat) : Res (RP Unit) := do
  let r ← RP.make 4
  r.append i (some 10) (some 99)

/-- C33 fails for one active region: using `begin(idx)` that is not const empties the region. -/
theorem C33_violation_sole_emptied :
    ∃ r b r', sole 2 = .ok r ∧ r.empty 2 = .ok false ∧ r.mbegin 2 = .ok (b, r') ∧ b = some 99 ∧
      r'.empty 2 = .ok true :=
  ⟨_, _, _, rfl, rfl, rfl, rfl, rfl⟩

/-- C33 fails for one active region: using `begin(idx)` of a region in front of it puts that region
behind it, and the next append to the active region drops what was in it: statement 10 is in no region
any more. -/
theorem C33_violation_sole_order :
    ∃ r b r' r'', sole 2 = .ok r ∧ r.mbegin 1 = .ok (b, r') ∧ r'.validate = .error .assertion ∧
      r'.append 2 (some 99) (some 100) = .ok r'' ∧ r''.cbegin 2 = .ok (some 99) ∧
      ∀ i, i < 4 → r''.cbegin i ≠ .ok (some 10) := by
  refine ⟨_, _, _, _, rfl, rfl, rfl, rfl, rfl, ?_⟩
  intro i hi
  match i, hi with
  | 0, _ => intro h; cases h
  | 1, _ => intro h; cases h
  | 2, _ => intro h; cases h
  | 3, _ => intro h; cases h

/-- C33 fails for a new partition: after `begin(idx)` nothing can be appended. -/
theorem C33_violation_fresh :
    ∃ (r : RP Unit) (b : It) (r' : RP Unit), RP.make 4 = .ok r ∧ r.mbegin 1 = .ok (b, r') ∧
      r'.append 1 (some 10) (some 99) = .error .assertion :=
  ⟨_, _, _, rfl, rfl, rfl⟩

/-- C33 fails for one active region: `validate` fails its assertion. -/
theorem C33_violation_validate : ∃ r, sole 2 = .ok r ∧ r.validate = .error .assertion :=
  ⟨_, rfl, rfl⟩

theorem reaches_back {pre post : List Nat} {a b : Nat} (hd : (pre ++ [a, b] ++ post).Nodup) :
    RP.reaches (pre ++ [a, b] ++ post) (some b) (some a) = false := by
  rw [List.append_assoc] at hd ⊢
  obtain ⟨h1, h2, h3⟩ := List.nodup_append.mp hd
  have hpre : ∀ x ∈ pre, (x != b) = true := by
    intro x hx
    have := h3 x hx b (by simp)
    simpa using this
  rw [RP.reaches, List.dropWhile_append_of_pos hpre]
  simp only [List.cons_append, List.nil_append, List.nodup_cons, List.mem_cons, not_or] at h2
  have hab : (a != b) = true := by simpa using h2.1.1
  simp only [List.cons_append, List.nil_append]
  rw [List.dropWhile_cons_of_pos (p := fun x => x != b) hab, List.dropWhile_cons_of_neg (by simp)]
  simp only [List.contains_eq_mem, List.mem_cons, decide_eq_false_iff_not, not_or]
  exact ⟨h2.1.1, h2.1.2⟩

/-- C33 fails for the only use of `insert` (Procedure.hh:182): `emplace_stmt` passes the old position
first and the new statement, which is in front of it, second.  `std::distance` from the first to the
second is undefined, whatever the partition is. -/
theorem C33_violation_emplace {T : Type} (r : RP T) (i : Nat) (pre post : List Nat) (pos new : Nat)
    (hd : (pre ++ [new, pos] ++ post).Nodup) (ha : r.activeIdx i = .ok true) :
    r.insert (pre ++ [new, pos] ++ post) i (some pos) (some new) = .error .ub := by
  rw [RP.insert, ha, Res.ok_bind, if_pos rfl, reaches_back hd, if_neg (by simp)]

/-- Region 0 with statement 10, region 2 with statement 11. -/
def pair : Res (RP Unit) := do
  let r ← sole 0
  r.append 2 (some 99) (some 98)

/-- C33 fails for `insert` with its arguments as the names of the parameters say, in front of a region
that is not the first: the region keeps its old begin, so that the new statement 50 in front of
statement 99 is in the region before. -/
theorem C33_violation_insert : ∃ r r', pair = .ok r ∧ r.activeIdx 2 = .ok true ∧
    r.insert [10, 50, 99, 98] 2 (some 50) (some 99) = .ok r' ∧ r'.cbegin 2 = .ok (some 99) ∧
    r'.cend 0 = .ok (some 99) :=
  ⟨_, _, rfl, rfl, rfl, rfl, rfl⟩

/-- C33 for `insert` in front of the first region, which is all that works: the elements `new` in front
of the old begin belong to it afterwards.  Missing: all other regions (`C33_violation_insert`). -/
theorem C33_insert_partial (T : Type) (n : Nat) (h0 : 0 < n) (hn : n < badIdx) (ops : List (Nat × List Nat))
    (pre new post : List Nat) (hp : post ≠ []) (hnew : new ≠ [])
    (hd : (pre ++ new ++ ops.flatMap (·.2) ++ post).Nodup)
    (hi : ∀ o ∈ ops, o.1 < n) (ho : Ascending ops) (i : Nat) (hin : i < n) (hne : regionOf (asOps ops) i ≠ [])
    (hfirst : ∀ k, k < i → regionOf (asOps ops) k = [])
    (htwo : ∃ k, i < k ∧ k < n ∧ regionOf (asOps ops) k ≠ []) :
    ∃ (r0 r r' : RP T) (b : It), RP.make n = .ok r0 ∧ runOps r0 (ops.flatMap (·.2) ++ post) (asOps ops) = .ok r ∧
      r.cbegin i = .ok b ∧
      r.insert (pre ++ new ++ ops.flatMap (·.2) ++ post) i new.head? b = .ok r' ∧
      Right r' n (pre ++ new ++ ops.flatMap (·.2) ++ post)
        (fun k => if k = i then new ++ regionOf (asOps ops) i else regionOf (asOps ops) k) := by
  have hel : (asOps ops).flatMap ROp.elems = ops.flatMap (·.2) := by
    rw [asOps, List.flatMap_map]; rfl
  have hor := orderly_of_ascending ops [] hi ho (by simp)
  obtain ⟨r0, m1, m2, m3⟩ := make_ok T h0 hn (ops.flatMap (·.2) ++ post)
  rw [← hel] at m3 hd ⊢
  have hd2 : ((asOps ops).flatMap ROp.elems ++ post).Nodup := by
    rw [List.append_assoc] at hd; exact (List.nodup_append.mp hd).2.1
  obtain ⟨r, e1, e2, e3⟩ := run_ok (asOps ops) r0 [] (fun _ => []) post
    (by simpa using m2) (by simpa using m3) hd2 hp hor
  have hall := rest_all (post := post) (asOps ops) [] hor (fun _ => []) (by simp)
  simp only [List.nil_append] at e2 e3 hall
  rw [rest_nil] at hall
  have hmem : ∀ k, k ∈ (asOps ops).flatMap ROp.touches → regionOf (asOps ops) k ≠ [] := by
    intro k hk
    obtain ⟨o, ho1, ho2⟩ := List.mem_flatMap.mp hk
    obtain ⟨q, hq1, rfl⟩ := List.mem_map.mp ho1
    obtain ⟨j, xs⟩ := q
    cases xs with
    | nil => cases ho2
    | cons x xs =>
      simp only [ROp.touches, List.mem_singleton] at ho2
      subst ho2
      intro he
      rw [regionOf, List.flatMap_eq_nil_iff] at he
      have := he _ ho1
      simp at this
  have hact : ∀ k, k < n → regionOf (asOps ops) k ≠ [] → k ∈ (asOps ops).flatMap ROp.touches := by
    intro k hk hc
    by_contra hh
    exact hc (e3.off k hk hh)
  have hai := hact i hin hne
  obtain ⟨k, hk1, hk2, hk3⟩ := htwo
  obtain ⟨pi, hpi, hei⟩ := e2.ent i (by omega)
  have hb := e3.on i pi hpi hai
  have hcb : r.cbegin i = .ok pi.begin := by
    rw [RP.cbegin, e2.checkValid hin, Res.ok_bind, part_ok hpi]; rfl
  have hacti : r.activeIdx i = .ok true := by
    rw [RP.activeIdx, e2.validIdx, Res.ok_bind, decide_eq_true hin, if_pos rfl, part_ok hpi, Res.ok_bind,
      active_of_two e2 hpi hai ⟨k, hact k hk2 hk3, by omega⟩]
  have hrest : rest (regionOf (asOps ops)) post n 0 = rest (regionOf (asOps ops)) post n i :=
    rest_skip (by omega) (by omega) (fun k _ h2 => hfirst k h2)
  -- the first active region is `i`
  have hbegin : r.beginAll = .ok pi.begin := by
    obtain ⟨pe, hpe, hee⟩ := e2.ent n (le_refl _)
    obtain ⟨⟨f1, f2, f3⟩, _⟩ := hee.last rfl
    have hf : pe.succ = i := by
      rcases Nat.lt_trichotomy pe.succ i with hh | hh | hh
      · exact absurd (hfirst _ hh) (hmem _ (f2 (by omega)))
      · exact hh
      · exact absurd hai (f3 i hh)
    rw [RP.beginAll, e2.idx, part_ok hpe, Res.ok_bind, hf, part_ok hpi]; rfl
  obtain ⟨x, new', hx⟩ := List.exists_cons_of_ne_nil hnew
  have hreach : RP.reaches (pre ++ new ++ (asOps ops).flatMap ROp.elems ++ post) new.head? pi.begin = true := by
    rw [hb, ← hrest, hall]
    obtain ⟨y, ys, hy⟩ : ∃ y ys, (asOps ops).flatMap ROp.elems ++ post = y :: ys := by
      cases hh : (asOps ops).flatMap ROp.elems ++ post with
      | nil => simp at hh; exact absurd hh.2 hp
      | cons y ys => exact ⟨y, ys, rfl⟩
    rw [List.append_assoc, hy, hx]
    rw [List.append_assoc, hy, hx, List.append_assoc] at hd
    have hpre : ∀ z ∈ pre, (z != x) = true := by
      intro z hz
      have := (List.nodup_append.mp hd).2.2 z hz x (by simp)
      simpa using this
    rw [List.append_assoc]
    simp only [List.head?_cons, RP.reaches]
    rw [List.dropWhile_append_of_pos hpre, List.cons_append, List.dropWhile_cons_of_neg (by simp)]
    simp
  obtain ⟨r', g1, g2, g3⟩ := modify_begin e2 (show i ≤ n by omega) new.head?
  refine ⟨r0, r, r', pi.begin, m1, e1, hcb, ?_, ?_⟩
  · rw [RP.insert, hacti, Res.ok_bind, if_pos rfl, if_pos hreach, hbegin, Res.ok_bind, if_pos rfl, g1]
  · let c' : Nat → List Nat := fun k => if k = i then new ++ regionOf (asOps ops) i else regionOf (asOps ops) k
    have hafter : ∀ k, i < k → k ≤ n → rest c' post n k = rest (regionOf (asOps ops)) post n k := by
      intro k hk hkn
      simp only [rest]
      rw [List.flatMap_def, List.flatMap_def]
      congr 2
      refine List.map_congr_left (fun j hj => ?_)
      have := List.mem_range'_1.mp hj
      show (if j = i then _ else _) = _
      rw [if_neg (by omega)]
    have hati : rest c' post n i = new ++ rest (regionOf (asOps ops)) post n i := by
      rw [rest_step hin, rest_step (c := regionOf (asOps ops)) hin, hafter (i + 1) (by omega) (by omega)]
      show (if i = i then _ else _) ++ _ = _
      rw [if_pos rfl, List.append_assoc]
    have hzero : rest c' post n 0 = new ++ ((asOps ops).flatMap ROp.elems ++ post) := by
      rw [rest_skip (c := c') (s := i) (by omega) (by omega), hati, ← hrest, hall]
      intro k _ h2
      show (if k = i then _ else _) = _
      rw [if_neg (by omega)]; exact hfirst k h2
    have hb' : Begins r' n (· ∈ (asOps ops).flatMap ROp.touches) c' post := by
      refine ⟨?_, ?_, ?_⟩
      · intro k q hq hak
        obtain ⟨q0, hq0, rfl⟩ := e2.getPart g3 (le_of_lt (e2.lt k hak)) hq
        by_cases hki : k = i
        · subst hki
          rw [if_pos rfl, hati, hx]; rfl
        · rw [if_neg hki]
          have hik : i < k := by
            by_contra hc
            exact hmem k hak (hfirst k (by omega))
          rw [hafter k hik (le_of_lt (e2.lt k hak))]
          exact e3.on k q0 hq0 hak
      · intro k hk hnk
        show (if k = i then _ else _) = _
        rw [if_neg (fun e : k = i => hnk (e ▸ hai))]
        exact e3.off k hk hnk
      · intro q hq hex
        obtain ⟨q0, hq0, rfl⟩ := e2.getPart g3 (le_refl n) hq
        rw [if_neg (by omega)]
        exact e3.last q0 hq0 hex
    have := right_of (pre := pre) g2 hb' hp (by rw [hzero]; simpa [List.append_assoc] using hd)
    rw [hzero] at this
    simpa [List.append_assoc] using this

example : ∃ (r0 r r' : RP Unit) (b : It), RP.make 4 = .ok r0 ∧ runOps r0 [10, 11, 99] (asOps [(1, [10]), (2, [11])]) = .ok r ∧
    r.cbegin 1 = .ok b ∧ r.insert [5, 10, 11, 99] 1 (some 5) b = .ok r' ∧
    Right r' 4 [5, 10, 11, 99] (fun k => if k = 1 then [5, 10] else regionOf (asOps [(1, [10]), (2, [11])]) k) :=
  C33_insert_partial Unit 4 (by decide) (by decide) [(1, [10]), (2, [11])] [] [5] [99] (by decide) (by decide)
    (by decide) (by decide) (by unfold Ascending; decide) 1 (by decide) (by decide)
    (by intro k hk; have : k = 0 := by omega
        subst this; decide) ⟨2, by decide, by decide, by decide⟩

end Reg
end FLPR
