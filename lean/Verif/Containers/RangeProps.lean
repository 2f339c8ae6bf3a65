import Verif.Containers.Range
/-!
# `SL_Range`: specification and properties (C29)
-/

namespace FLPR
namespace SL

variable {α : Type}

/-- Every node of a list has its own address. -/
def Distinct (l : Nodes α) : Prop := (l.map (·.1)).Nodup

/-- The range denotes exactly the elements `items`, a contiguous piece of the list: `begin()` is
the first of them, `end()` the element after the last, `size()` their number. -/
def View (l : Nodes α) (r : Range) (items : Nodes α) : Prop :=
  r.bad = false ∧ ∃ a c, l = a ++ (items ++ c) ∧ r.begin_ = iterTo (items ++ c) ∧
    r.end_ = iterTo c ∧ r.size_ = items.length

/-- A range without a place in a list: default-constructed, or after `clear()`. -/
def Unset (r : Range) : Prop := r.bad = true ∧ r.size_ = 0

/-- The range is consistent with the list. -/
def Consistent (l : Nodes α) (r : Range) : Prop := Unset r ∨ ∃ items, View l r items

/-- The iterator belongs to the list. -/
def InList (l : Nodes α) (it : Iter) : Prop := ∃ a c, l = a ++ c ∧ it = iterTo c

/-- The operands of the operations belong to the list. -/
def OpIn (l : Nodes α) : RangeOp → Prop
  | .pushFront adj => Consistent l adj
  | .pushBack adj => Consistent l adj
  | .updateEnd it => InList l it
  | .clear => True
  | .clearAt it => InList l it

/-! ## Lemmas -/

theorem Distinct.notin {a : Nodes α} {x : Nat × α} {b : Nodes α} (h : Distinct (a ++ x :: b)) :
    x.1 ∉ a.map (·.1) := by
  unfold Distinct at h
  rw [List.map_append, List.nodup_append] at h
  intro hm
  exact h.2.2 _ hm _ (by simp) rfl

theorem suffixAt_iterTo {a b : Nodes α} (h : Distinct (a ++ b)) :
    suffixAt (a ++ b) (iterTo b) = .ok b := by
  cases b with
  | nil => rfl
  | cons x b =>
    simp only [iterTo, List.head?_cons, Option.map_some, suffixAt]
    rw [cut_mid a b x h.notin]

theorem Distinct.right {a b : Nodes α} (h : Distinct (a ++ b)) : Distinct b := by
  unfold Distinct at *
  rw [List.map_append, List.nodup_append] at h
  exact h.2.1

theorem Distinct.left {a b : Nodes α} (h : Distinct (a ++ b)) : Distinct a := by
  unfold Distinct at *
  rw [List.map_append, List.nodup_append] at h
  exact h.1

/-- Two pieces of a list that start at the same iterator are the same. -/
theorem iterTo_inj {a b a' b' : Nodes α} (h : Distinct (a ++ b)) (he : a ++ b = a' ++ b')
    (hi : iterTo b = iterTo b') : b = b' := by
  have h1 := suffixAt_iterTo h
  have h2 := suffixAt_iterTo (a := a') (b := b') (he ▸ h)
  rw [hi, he, h2] at h1
  exact (Except.ok.inj h1).symm

theorem advance_iterTo {a b : Nodes α} (h : Distinct (a ++ b)) {k : Nat} (hk : k ≤ b.length) :
    advance (a ++ b) (iterTo b) k = .ok (iterTo (b.drop k)) := by
  unfold advance
  rw [suffixAt_iterTo h, Res.ok_bind, if_pos hk]

theorem distance_iterTo {a b c : Nodes α} (h : Distinct (a ++ (b ++ c))) :
    distance (a ++ (b ++ c)) (iterTo (b ++ c)) (iterTo c) = .ok b.length := by
  unfold distance
  rw [suffixAt_iterTo h, Res.ok_bind]
  cases c with
  | nil => simp [iterTo]
  | cons x c =>
    simp only [iterTo, List.head?_cons, Option.map_some]
    rw [cut_mid b c x (h.right).notin]

theorem View.empty_eq {l : Nodes α} (hl : Distinct l) {r : Range} {items : Nodes α}
    (v : View l r items) : r.empty l = .ok items.isEmpty := by
  obtain ⟨hb, a, c, rfl, h1, h2, h3⟩ := v
  unfold Range.empty
  rw [hb, h1, h2, h3, advance_iterTo hl (by simp)]
  simp only [Res.ok_bind, List.drop_left, Range.empty', hb, h3]
  cases items <;> simp

theorem Unset.empty_eq {l : Nodes α} {r : Range} (v : Unset r) : r.empty l = .ok true := by
  unfold Range.empty
  simp [v.1, Range.empty']

theorem View.nonempty_begin {l : Nodes α} (hl : Distinct l) {r : Range} {items : Nodes α}
    (v : View l r items) (hne : items ≠ []) : r.begin_ ≠ r.end_ := by
  obtain ⟨hb, a, c, rfl, h1, h2, h3⟩ := v
  intro he
  rw [h1, h2] at he
  have := iterTo_inj (a := a) (b := items ++ c) (a' := a ++ items) (b' := c) hl (by simp) he
  have h := congrArg List.length this
  simp only [List.length_append] at h
  exact hne (List.eq_nil_of_length_eq_zero (by omega))

/-! ## Properties -/

/-- **C29.**  What a user sees of a consistent range is its piece of the list: emptiness, size,
first and last element, and walking it. -/
theorem C29_view {l : Nodes α} (hl : Distinct l) {r : Range} {items : Nodes α}
    (v : View l r items) :
    r.empty l = .ok items.isEmpty ∧ r.size = items.length ∧
      distance l r.begin_ r.end_ = .ok items.length ∧
      (r.front l = match items.head? with | none => .error .assertion | some x => .ok x.2) ∧
      (r.back l = match items.getLast? with | none => .error .assertion | some x => .ok x.2) := by
  have hemp := v.empty_eq hl
  refine ⟨hemp, ?_, ?_, ?_, ?_⟩
  · unfold Range.size
    obtain ⟨hb, a, c, -, -, -, h3⟩ := v
    simp [hb, h3]
  · obtain ⟨hb, a, c, rfl, h1, h2, h3⟩ := v
    rw [h1, h2, distance_iterTo hl]
  · unfold Range.front
    rw [hemp, Res.ok_bind]
    obtain ⟨hb, a, c, rfl, h1, h2, h3⟩ := v
    cases items with
    | nil => rfl
    | cons x xs =>
      simp only [List.isEmpty_cons, Bool.false_eq_true, if_false, List.head?_cons]
      unfold deref
      rw [h1, suffixAt_iterTo hl]
      rfl
  · unfold Range.back Range.last
    rw [hemp, Res.ok_bind]
    obtain ⟨hb, a, c, rfl, h1, h2, h3⟩ := v
    by_cases hne : items = []
    · subst hne; rfl
    · have hsplit := List.dropLast_concat_getLast hne
      have hei : items.isEmpty = false := by simpa using hne
      rw [List.getLast?_eq_some_getLast hne, hei]
      simp only [Bool.false_eq_true, if_false]
      rw [h1, h3, Res.ok_bind, advance_iterTo hl (by simp; omega)]
      simp only [Bool.false_eq_true, if_false, Res.ok_bind]
      have hdrop : (items ++ c).drop (items.length - 1) = items.getLast hne :: c := by
        conv_lhs => rw [← hsplit]
        rw [List.append_assoc]
        have : (items.dropLast ++ [items.getLast hne]).length - 1 = items.dropLast.length := by
          simp
        rw [this, List.drop_left]
        rfl
      rw [hdrop]
      have e1 : a ++ (items ++ c) = (a ++ items.dropLast) ++ (items.getLast hne :: c) := by
        conv_lhs => rw [← hsplit]
        simp
      have hd : Distinct ((a ++ items.dropLast) ++ (items.getLast hne :: c)) := e1 ▸ hl
      unfold deref
      rw [e1, suffixAt_iterTo hd]
      rfl

/-- **C29.**  The constructors give consistent ranges: a whole list, a pair of iterators, a
single element. -/
theorem C29_construct (l : Nodes α) (hl : Distinct l) (a items c : Nodes α)
    (h : l = a ++ (items ++ c)) :
    (∃ r, Range.ofPair l (iterTo (items ++ c)) (iterTo c) = .ok r ∧ View l r items) ∧
      (∀ x, items = [x] → ∃ r, Range.ofOnly l (iterTo (items ++ c)) = .ok r ∧ View l r items) := by
  subst h
  constructor
  · refine ⟨⟨iterTo (items ++ c), items.length, iterTo c, false⟩, ?_, rfl, a, c, rfl, rfl, rfl,
      rfl⟩
    unfold Range.ofPair
    rw [distance_iterTo hl]
    rfl
  · rintro x rfl
    refine ⟨⟨iterTo ([x] ++ c), 1, iterTo c, false⟩, ?_, rfl, a, c, rfl, rfl, rfl, rfl⟩
    unfold Range.ofOnly
    rw [advance_iterTo hl (by simp)]
    rfl

/-- **C29.**  A range made from a whole `Safe_List` holds its elements. -/
theorem C29_construct_list (d : α) (s : SList α) (q : Spec.Seq α) (r : Rep d s q)
    (hsz : q.items.length < 2 ^ 64) : View s.nodes (Range.ofSeq s) q.items := by
  refine ⟨rfl, [], [(q.stop, d)], by simp [r.nodes], ?_, ?_, ?_⟩
  · simp [Range.ofSeq, r.nodes]
  · simp [Range.ofSeq, r.stop, iterTo]
  · show s.size = _
    rw [r.shows.size, Nat.mod_eq_of_lt hsz]

/-- **C29.**  Appending a range that starts where this one ends gives the range of both. -/
theorem C29_push_back {l : Nodes α} (hl : Distinct l) {r t : Range} {x y : Nodes α}
    (hr : View l r x) (ht : View l t y) (hadj : r.end_ = t.begin_) :
    ∃ r', r.pushBack l t = .ok r' ∧ View l r' (x ++ y) := by
  unfold Range.pushBack
  rw [ht.empty_eq hl, hr.empty_eq hl]
  simp only [Res.ok_bind]
  by_cases hy : y = []
  · subst hy
    exact ⟨r, rfl, by simpa using hr⟩
  · have hy' : y.isEmpty = false := by simpa using hy
    rw [hy']
    by_cases hx : x = []
    · subst hx
      exact ⟨t, rfl, ht⟩
    · have hx' : x.isEmpty = false := by simpa using hx
      rw [hx']
      simp only [Bool.false_eq_true, if_false]
      have hne := ht.nonempty_begin hl hy
      rw [if_pos (by rw [hadj]; exact fun e => hne e.symm), if_pos hadj]
      refine ⟨_, rfl, ?_⟩
      obtain ⟨hb, a, c, he, h1, h2, h3⟩ := hr
      obtain ⟨hb', a', c', he', h1', h2', h3'⟩ := ht
      have hcy : c = y ++ c' := by
        refine iterTo_inj (a := a ++ x) (a' := a') ?_ ?_ ?_
        · rw [List.append_assoc, ← he]; exact hl
        · rw [List.append_assoc, ← he, he']
        · rw [← h2, hadj, h1']
      refine ⟨hb, a, c', ?_, ?_, h2', ?_⟩
      · rw [he, hcy, List.append_assoc]
      · simp only
        rw [h1, hcy, List.append_assoc]
      · simp [Range.size, hb', h3, h3']

/-- **C29.**  Prepending a range that ends where this one starts gives the range of both. -/
theorem C29_push_front {l : Nodes α} (hl : Distinct l) {r t : Range} {x y : Nodes α}
    (hr : View l r x) (ht : View l t y) (hadj : t.end_ = r.begin_) :
    ∃ r', r.pushFront l t = .ok r' ∧ View l r' (y ++ x) := by
  unfold Range.pushFront
  rw [ht.empty_eq hl, hr.empty_eq hl]
  simp only [Res.ok_bind]
  by_cases hy : y = []
  · subst hy
    exact ⟨r, rfl, hr⟩
  · have hy' : y.isEmpty = false := by simpa using hy
    rw [hy']
    by_cases hx : x = []
    · subst hx
      exact ⟨t, rfl, by simpa using ht⟩
    · have hx' : x.isEmpty = false := by simpa using hx
      rw [hx']
      simp only [Bool.false_eq_true, if_false]
      have hne := ht.nonempty_begin hl hy
      rw [if_pos (by rw [← hadj]; exact hne), if_pos hadj.symm]
      refine ⟨_, rfl, ?_⟩
      obtain ⟨hb, a, c, he, h1, h2, h3⟩ := hr
      obtain ⟨hb', a', c', he', h1', h2', h3'⟩ := ht
      have hcy : c' = x ++ c := by
        refine iterTo_inj (a := a' ++ y) (a' := a) ?_ ?_ ?_
        · rw [List.append_assoc, ← he']; exact hl
        · rw [List.append_assoc, ← he', he]
        · rw [← h2', hadj, h1]
      refine ⟨hb, a', c, ?_, ?_, h2, ?_⟩
      · rw [he', hcy, List.append_assoc]
      · simp only
        rw [h1', hcy, List.append_assoc]
      · simp only [Range.size, hb', Bool.false_eq_true, if_false, h3, h3', List.length_append]
        omega

/-- **C29.**  Appending to a range that is not set, and appending a range that is not set. -/
theorem C29_push_unset {l : Nodes α} (hl : Distinct l) {r t : Range} (hr : Unset r)
    {y : Nodes α} (ht : View l t y) :
    (y ≠ [] → r.pushBack l t = .ok t ∧ r.pushFront l t = .ok t) ∧
      t.pushBack l r = .ok t ∧ t.pushFront l r = .ok t := by
  refine ⟨fun hy => ?_, ?_⟩
  · have hy' : y.isEmpty = false := by simpa using hy
    constructor
    · unfold Range.pushBack
      rw [ht.empty_eq hl, hr.empty_eq, hy']
      rfl
    · unfold Range.pushFront
      rw [ht.empty_eq hl, hr.empty_eq, hy']
      rfl
  · constructor
    · unfold Range.pushBack
      rw [hr.empty_eq]
      rfl
    · unfold Range.pushFront
      rw [hr.empty_eq]
      rfl

/-- A range operation keeps consistency, or stops at an assertion. -/
theorem C29_step {l : Nodes α} (hl : Distinct l) {r : Range} (hr : Consistent l r)
    (o : RangeOp) (ho : OpIn l o) :
    (∃ r', r.step l o = .ok r' ∧ Consistent l r') ∨ r.step l o = .error .assertion := by
  cases o with
  | clear => exact .inl ⟨_, rfl, .inl ⟨rfl, rfl⟩⟩
  | clearAt it =>
    obtain ⟨a, c, he, hi⟩ := ho
    exact .inl ⟨_, rfl, .inr ⟨[], rfl, a, c, by simpa using he, by simpa [Range.clearAt] using hi,
      by simpa [Range.clearAt] using hi, rfl⟩⟩
  | updateEnd it =>
    simp only [Range.step, Range.updateEnd]
    by_cases he : r.empty' = true
    · rw [if_pos he]
      refine .inl ⟨_, rfl, .inr ⟨[], rfl, ?_⟩⟩
      obtain ⟨a, c, hl', hi⟩ := ho
      refine ⟨a, c, by simpa using hl', by simpa using hi, by simpa using hi, ?_⟩
      rcases hr with hu | ⟨items, v⟩
      · exact hu.2
      · obtain ⟨hb, -⟩ := v
        simpa [Range.empty', hb] using he
    · rw [if_neg he]
      rcases hr with hu | ⟨items, v⟩
      · exact absurd (by simp [Range.empty', hu.1]) he
      · obtain ⟨hb, a, c, rfl, h1, h2, h3⟩ := v
        rw [h1, h3, advance_iterTo hl (by simp), Res.ok_bind, List.drop_left]
        by_cases hi : iterTo c = it
        · rw [if_pos hi]
          exact .inl ⟨_, rfl, .inr ⟨items, hb, a, c, rfl, by simp, by simp [hi], by simp⟩⟩
        · rw [if_neg hi]
          exact .inr rfl
  | pushBack t =>
    simp only [Range.step]
    rcases ho with hu | ⟨y, ht⟩
    · left
      refine ⟨r, ?_, hr⟩
      unfold Range.pushBack
      rw [hu.empty_eq]
      rfl
    · rcases hr with hu | ⟨x, v⟩
      · unfold Range.pushBack
        rw [ht.empty_eq hl, hu.empty_eq]
        cases hy : y.isEmpty
        · exact .inl ⟨t, rfl, .inr ⟨y, ht⟩⟩
        · exact .inl ⟨r, rfl, .inl hu⟩
      · by_cases hadj : r.end_ = t.begin_
        · obtain ⟨r', h1, h2⟩ := C29_push_back hl v ht hadj
          exact .inl ⟨r', h1, .inr ⟨_, h2⟩⟩
        · unfold Range.pushBack
          rw [ht.empty_eq hl, v.empty_eq hl]
          simp only [Res.ok_bind]
          rw [if_neg hadj]
          split
          · exact .inl ⟨r, rfl, .inr ⟨x, v⟩⟩
          · split
            · exact .inl ⟨t, rfl, .inr ⟨y, ht⟩⟩
            · split
              · exact .inr rfl
              · exact .inl ⟨r, rfl, .inr ⟨x, v⟩⟩
  | pushFront t =>
    simp only [Range.step]
    rcases ho with hu | ⟨y, ht⟩
    · left
      refine ⟨r, ?_, hr⟩
      unfold Range.pushFront
      rw [hu.empty_eq]
      rfl
    · rcases hr with hu | ⟨x, v⟩
      · unfold Range.pushFront
        rw [ht.empty_eq hl, hu.empty_eq]
        cases hy : y.isEmpty
        · exact .inl ⟨t, rfl, .inr ⟨y, ht⟩⟩
        · exact .inl ⟨r, rfl, .inl hu⟩
      · by_cases hadj : t.end_ = r.begin_
        · obtain ⟨r', h1, h2⟩ := C29_push_front hl v ht hadj
          exact .inl ⟨r', h1, .inr ⟨_, h2⟩⟩
        · unfold Range.pushFront
          rw [ht.empty_eq hl, v.empty_eq hl]
          simp only [Res.ok_bind]
          have hadj' : ¬ r.begin_ = t.end_ := fun e => hadj e.symm
          rw [if_neg hadj']
          split
          · exact .inl ⟨r, rfl, .inr ⟨x, v⟩⟩
          · split
            · exact .inl ⟨t, rfl, .inr ⟨y, ht⟩⟩
            · split
              · exact .inr rfl
              · exact .inl ⟨r, rfl, .inr ⟨x, v⟩⟩

/-- **C29.**  After every history of `push_front`, `push_back`, `update_end` and `clear` on a
list, the range is consistent with the list, unless an assertion stopped the program; nothing in
the history is undefined. -/
theorem C29_history {l : Nodes α} (hl : Distinct l) (os : List RangeOp) (r : Range)
    (hr : Consistent l r) (ho : ∀ o ∈ os, OpIn l o) :
    (∃ r', r.run l os = .ok r' ∧ Consistent l r') ∨ r.run l os = .error .assertion := by
  induction os generalizing r with
  | nil => exact .inl ⟨r, rfl, hr⟩
  | cons o os ih =>
    rcases C29_step hl hr o (ho o (by simp)) with ⟨r1, h1, hc⟩ | h1
    · rcases ih r1 hc (fun o' h' => ho o' (by simp [h'])) with ⟨r', h2, hc'⟩ | h2
      · refine .inl ⟨r', ?_, hc'⟩
        simp only [Range.run, h1, Res.ok_bind, h2]
      · refine .inr ?_
        simp only [Range.run, h1, Res.ok_bind, h2]
    · refine .inr ?_
      simp only [Range.run, h1, Res.error_bind]

/-- **C29.**  Elements inserted before the range or after its end leave it as it is.  (Inserting
exactly at `end()` is not one of these cases when the range is not empty.) -/
theorem C29_insert_outside (r : Range) (items a c new : Nodes α)
    (hb : r.bad = false) (h1 : r.begin_ = iterTo (items ++ c)) (h2 : r.end_ = iterTo c)
    (h3 : r.size_ = items.length) :
    View (a ++ (items ++ c)) r items ∧ View (a ++ new ++ (items ++ c)) r items ∧
      (∀ x c', c = x :: c' → View (a ++ (items ++ (x :: (new ++ c')))) r items) := by
  refine ⟨⟨hb, a, c, rfl, h1, h2, h3⟩, ⟨hb, a ++ new, c, rfl, h1, h2, h3⟩, ?_⟩
  rintro x c' rfl
  refine ⟨hb, a, x :: (new ++ c'), rfl, ?_, ?_, h3⟩
  · rw [h1]
    cases items <;> rfl
  · rw [h2]; rfl

/-- **C29.**  Elements inserted within the range or at its end make the stored size wrong, and
every use of the range then stops at the assertion in `empty()` instead of going on with a wrong
size. -/
theorem C29_insert_inside (r : Range) (x : Nat × α) (i1 i2 a c new : Nodes α)
    (hl : Distinct (a ++ (x :: i1 ++ new ++ i2 ++ c))) (hn : new ≠ [])
    (hb : r.bad = false) (h1 : r.begin_ = some x.1) (h2 : r.end_ = iterTo c)
    (h3 : r.size_ = (x :: i1 ++ i2).length) :
    r.empty (a ++ (x :: i1 ++ new ++ i2 ++ c)) = .error .assertion := by
  unfold Range.empty
  have hi : r.begin_ = iterTo (x :: i1 ++ new ++ i2 ++ c) := by rw [h1]; rfl
  rw [hb, hi, h3, advance_iterTo hl (by simp; omega)]
  simp only [Bool.false_eq_true, if_false, Res.ok_bind]
  rw [if_neg]
  intro he
  rw [h2] at he
  have hk : (x :: i1 ++ i2).length ≤ (x :: i1 ++ new ++ i2 ++ c).length := by simp; omega
  have := iterTo_inj (a := a ++ (x :: i1 ++ new ++ i2 ++ c).take (x :: i1 ++ i2).length)
    (b := (x :: i1 ++ new ++ i2 ++ c).drop (x :: i1 ++ i2).length)
    (a' := a ++ (x :: i1 ++ new ++ i2)) (b' := c)
    (by rw [List.append_assoc, List.take_append_drop]; exact hl)
    (by rw [List.append_assoc, List.take_append_drop]; simp) he
  have h := congrArg List.length this
  simp only [List.length_drop, List.length_append, List.length_cons] at h
  have : 0 < new.length := List.length_pos_iff.mpr hn
  omega

/-- **C29.**  `rebase` gives the range of the same positions in a copy of the list. -/
theorem C29_rebase (a items c a' items' c' : Nodes α) (r : Range)
    (hl : Distinct (a ++ (items ++ c))) (hl' : Distinct (a' ++ (items' ++ c')))
    (hb : r.begin_ = iterTo (items ++ c))
    (he : r.end_ = iterTo c)
    (ha : a.length = a'.length) (hi : items.length = items'.length) :
    ∃ r', rebase (a ++ (items ++ c)) r (a' ++ (items' ++ c')) = .ok r' ∧
      View (a' ++ (items' ++ c')) r' items' := by
  have d1 : distance (a ++ (items ++ c)) (iterTo (a ++ (items ++ c))) r.begin_ = .ok a.length := by
    rw [hb]
    exact distance_iterTo (a := []) (b := a) (c := items ++ c) hl
  have d2 : distance (a ++ (items ++ c)) (iterTo (a ++ (items ++ c))) r.end_
      = .ok (a.length + items.length) := by
    rw [he]
    have := distance_iterTo (a := []) (b := a ++ items) (c := c) (by simpa using hl)
    simpa using this
  have n1 : advance (a' ++ (items' ++ c')) (iterTo (a' ++ (items' ++ c'))) a.length
      = .ok (iterTo (items' ++ c')) := by
    have := advance_iterTo (a := []) (b := a' ++ (items' ++ c')) hl' (k := a.length)
      (by simp [ha])
    rw [ha, List.drop_left] at this
    rw [ha]
    exact this
  have n2 : advance (a' ++ (items' ++ c')) (iterTo (a' ++ (items' ++ c')))
      (a.length + items.length) = .ok (iterTo c') := by
    have := advance_iterTo (a := []) (b := a' ++ (items' ++ c')) hl'
      (k := a.length + items.length) (by simp [ha, hi])
    have hd : (a' ++ (items' ++ c')).drop (a.length + items.length) = c' := by
      rw [ha, hi, ← List.append_assoc, ← List.length_append, List.drop_left]
    rw [hd] at this
    exact this
  obtain ⟨⟨r', h1, h2⟩, -⟩ := C29_construct _ hl' a' items' c' rfl
  refine ⟨r', ?_, h2⟩
  unfold rebase
  rw [d1, d2]
  simp only [Res.ok_bind]
  rw [n1]
  simp only [Res.ok_bind]
  rw [n2]
  simp only [Res.ok_bind]
  exact h1

/-- The elements that a loop `for (SL_Range_Iterator i(r); i; i.advance())` visits. -/
def visit (l : Nodes α) : Nat → RangeIter → Res (List α)
  | 0, i => if i.good then .error .ub else .ok []
  | n + 1, i =>
    if i.good then do
      let x ← deref l i.curr
      let p ← i.advance l
      let xs ← visit l n p.2
      .ok (x :: xs)
    else .ok []

/-- **C29.**  `advance` of a range iterator says whether the iterator is still good, and keeps its
range. -/
theorem C29_advance {l : Nodes α} {i j : RangeIter} {b : Bool}
    (h : i.advance l = .ok (b, j)) : b = j.good ∧ j.range = i.range := by
  unfold RangeIter.advance at h
  by_cases hc : i.curr ≠ i.range.end_
  · rw [if_pos hc] at h
    rbind h with c hc'
    cases h
    exact ⟨rfl, rfl⟩
  · rw [if_neg hc] at h
    cases h
    have hc2 : i.curr = i.range.end_ := by simpa using hc
    exact ⟨by simp [RangeIter.good, hc2], rfl⟩

/-- **C29.**  A loop with an `SL_Range_Iterator` visits exactly the elements of the range, in
order. -/
theorem C29_iterate {l : Nodes α} (hl : Distinct l) {r : Range} {items : Nodes α}
    (v : View l r items) (n : Nat) (hn : items.length ≤ n) :
    visit l n (RangeIter.ofRange r) = .ok (items.map (·.2)) := by
  obtain ⟨hb, a, c, rfl, h1, h2, h3⟩ := v
  suffices ∀ (rest a' : Nodes α) (n : Nat), a ++ (items ++ c) = a' ++ (rest ++ c) →
      rest.length ≤ n → visit (a ++ (items ++ c)) n
        { range := r, curr := iterTo (rest ++ c) } = .ok (rest.map (·.2)) by
    have := this items a n rfl hn
    unfold RangeIter.ofRange
    rw [h1]
    exact this
  intro rest
  induction rest with
  | nil =>
    intro a' n _ _
    have hg : ({ range := r, curr := iterTo ([] ++ c) } : RangeIter).good = false := by
      simp [RangeIter.good, h2]
    cases n with
    | zero => simp only [visit, hg]; rfl
    | succ n => simp only [visit, hg]; rfl
  | cons x rest ih =>
    intro a' n he hn
    obtain ⟨n, rfl⟩ : ∃ m, n = m + 1 := ⟨n - 1, by simp at hn; omega⟩
    have hd : Distinct (a' ++ (x :: rest ++ c)) := he ▸ hl
    have hg : ({ range := r, curr := iterTo (x :: rest ++ c) } : RangeIter).good = true := by
      simp only [RangeIter.good, h2, bne_iff_ne, ne_eq]
      intro hc
      have := iterTo_inj (a := a') (b := x :: rest ++ c) (a' := a' ++ (x :: rest)) (b' := c) hd
        (by simp) hc
      have h := congrArg List.length this
      simp at h
      omega
    simp only [visit, hg, if_true]
    rw [he]
    unfold deref
    rw [suffixAt_iterTo hd]
    simp only [Res.ok_bind, List.cons_append]
    unfold RangeIter.advance
    rw [if_pos (by simpa [RangeIter.good] using hg)]
    have hadv := advance_iterTo (a := a') (b := x :: rest ++ c) hd (k := 1) (by simp)
    simp only [List.cons_append] at hadv
    rw [hadv]
    simp only [Res.ok_bind, List.drop_succ_cons, List.drop_zero]
    have := ih (a' ++ [x]) n (by rw [he]; simp) (by simpa using hn)
    rw [he] at this
    simp only [List.cons_append] at this
    rw [this]
    rfl

/-! ## Where the code departs from the property -/

/-- `push_back` compares only the ends: a range that ends at the same place is taken to be part
of this one, so what lies before this range is not added. -/
theorem C29_violation_same_end {l : Nodes α} (hl : Distinct l) {r t : Range} {x y : Nodes α}
    (hr : View l r x) (ht : View l t y) (hx : x ≠ []) (hy : y ≠ []) (he : t.end_ = r.end_) :
    r.pushBack l t = .ok r := by
  unfold Range.pushBack
  rw [ht.empty_eq hl, hr.empty_eq hl]
  have hx' : x.isEmpty = false := by simpa using hx
  have hy' : y.isEmpty = false := by simpa using hy
  simp [hx', hy', he]

/-! ## Examples -/

/-- Nodes of `a b c d` and the hidden element. -/
def letters : Nodes Char := [(7, 'a'), (3, 'b'), (9, 'c'), (1, 'd'), (4, '-')]

example : Distinct letters := by unfold Distinct letters; decide

/-- The ranges `b` and `c d`. -/
def rb : Range := { begin_ := some 3, size_ := 1, end_ := some 9, bad := false }
def rcd : Range := { begin_ := some 9, size_ := 2, end_ := some 4, bad := false }

example : View letters rb [(3, 'b')] :=
  ⟨rfl, [(7, 'a')], [(9, 'c'), (1, 'd'), (4, '-')], rfl, rfl, rfl, rfl⟩
example : View letters rcd [(9, 'c'), (1, 'd')] :=
  ⟨rfl, [(7, 'a'), (3, 'b')], [(4, '-')], rfl, rfl, rfl, rfl⟩
example : rb.end_ = rcd.begin_ := rfl
example : rb.pushBack letters rcd =
    .ok { begin_ := some 3, size_ := 3, end_ := some 4, bad := false } := by decide
/-- Not adjacent: the assertion. -/
example : rcd.pushBack letters rb = .error .assertion := by decide
/-- `a b c d` pushed onto `c d` is dropped. -/
example : rcd.pushBack letters { begin_ := some 7, size_ := 4, end_ := some 4, bad := false }
    = .ok rcd := by decide

end SL
end FLPR
