import Verif.LogicalFile.StmtEdit
import Verif.LogicalFile.SplitStmtMore
/-!
# Inserting, changing and labelling statements: specification and helper lemmas (C64)
-/

namespace FLPR
open Spec

namespace Spec

/-- The prefix of a statement: lines in order, between the previous line that has statements and its own; only the
first statement of a line has one. -/
def PrefixOk (lines : List LLine) (x : FStmt) (q : Place) : Prop :=
  x.s.pre.Pairwise (· < ·) ∧ (x.s.pre ≠ [] → q.idx = 0) ∧
  ∀ k ∈ x.s.pre, k < q.line ∧ ∀ m, k ≤ m → m < q.line → ∃ l, lines[m]? = some l ∧ l.stmts = []

/-- The statements of a file are those of its lines, and their prefixes are the lines in front of them. -/
structure Tidy (fl : LFile) : Prop where
  consistent : Consistent fl
  prefixes : List.Forall₂ (PrefixOk fl.lines) fl.stmts (places 0 fl.lines)

end Spec
open Spec

/-! ## Inserting a line and its statement -/

/-- The line `ll` in front of line `i`, the statement `y` in front of statement `pos`. -/
def LFile.ins (a : LFile) (pos i : Nat) (ll : LLine) (y : FStmt) : LFile :=
  ⟨a.lines.take i ++ ll :: a.lines.drop i, (a.stmts.map (·.push i)).take pos ++ y :: (a.stmts.map (·.push i)).drop pos⟩

theorem lines_push (C D : List LLine) (ll : LLine) (q : Nat) :
    (C ++ ll :: D)[pushPos C.length q]? = (C ++ D)[q]? := by
  unfold pushPos
  by_cases h : C.length ≤ q
  · rw [if_pos h, List.getElem?_append_right (by omega), List.getElem?_append_right (by omega),
      show q + 1 - C.length = q - C.length + 1 by omega, List.getElem?_cons_succ]
  · rw [if_neg h, List.getElem?_append_left (by omega), List.getElem?_append_left (by omega)]

theorem push_lt {x : FStmt} {i p : Nat} (hl : x.s.line = some p) (hp : p < i) (hk : ∀ k ∈ x.s.pre, k < i) :
    x.push i = x := by
  have e : x.s.pre.map (pushPos i) = x.s.pre := by
    conv => rhs; rw [← List.map_id x.s.pre]
    apply List.map_congr_left
    intro k hk'
    have := hk k hk'
    simp [pushPos]
    omega
  unfold FStmt.push
  rw [e, hl]
  simp only [Option.map_some, pushPos]
  rw [if_neg (by omega), ← hl]

theorem stands_push {x : FStmt} {q : Place} {i : Nat} (h : Stands x q) (hp : i ≤ q.line) :
    Stands (x.push i) { q with line := q.line + 1 } := by
  obtain ⟨h1, h2, h3, h4, h5⟩ := h
  refine ⟨?_, h2, h3, h4, h5⟩
  simp only [FStmt.push, h1, Option.map_some, pushPos]
  rw [if_pos hp]

theorem places_no_stmts (p : Nat) (ls : List LLine) (h : ∀ l ∈ ls, l.stmts = []) : places p ls = [] := by
  induction ls generalizing p with
  | nil => rfl
  | cons l ls ih =>
    simp only [places, h l (by simp), linePlaces, List.nil_append]
    exact ih _ (fun l hl => h l (by simp [hl]))

theorem f2_and {α β : Type} {R S : α → β → Prop} {xs : List α} {ys : List β} (h : List.Forall₂ R xs ys)
    (h' : List.Forall₂ S xs ys) : List.Forall₂ (fun x y => R x y ∧ S x y) xs ys := by
  induction h with
  | nil => exact .nil
  | cons h _ ih =>
    cases h' with
    | cons h1 h2 => exact .cons ⟨h, h1⟩ (ih h2)

/-- The invariant and the relation of the old statements, after an insertion. -/
theorem insert_tidy {a : LFile} (ht : Tidy a) {pos i : Nat} {ll : LLine} {y : FStmt} {r : Nat × Nat}
    (hi : i ≤ a.lines.length) (hpos : (places 0 (a.lines.take i)).length = pos)
    (hpre : ∀ (j : Nat) x, pos ≤ j → a.stmts[j]? = some x → ∀ k ∈ x.s.pre, i ≤ k)
    (hl : ll.stmts = [r]) (hl' : ll.stmts = ll.initStmts.stmts) (hy : Stands y ⟨i, r, 0, 1, ll.label⟩)
    (hyp : PrefixOk a.lines y ⟨i, r, 0, 1, ll.label⟩) :
    Tidy (a.ins pos i ll y) ∧ (∀ x ∈ a.stmts, SameStmt a (a.ins pos i ll y) x (x.push i)) := by
  obtain ⟨C, D, hCD, hC, hD⟩ : ∃ C D, a.lines = C ++ D ∧ a.lines.take i = C ∧ a.lines.drop i = D :=
    ⟨_, _, (List.take_append_drop i a.lines).symm, rfl, rfl⟩
  have hCi : C.length = i := by rw [← hC, List.length_take]; omega
  have hlines' : (a.ins pos i ll y).lines = C ++ ll :: D := by simp only [LFile.ins, hC, hD]
  have hall := f2_and ht.consistent.stmts ht.prefixes
  have epl : places 0 a.lines = places 0 C ++ places i D := by
    conv => lhs; rw [hCD]
    rw [places_append, Nat.zero_add, hCi]
  rw [epl] at hall
  obtain ⟨S1, S2, eS, f1, f2⟩ := f2_split hall
  have hS1 : S1.length = pos := by rw [f1.length_eq, ← hpos, hC]
  have hst' : (a.ins pos i ll y).stmts = S1.map (·.push i) ++ y :: S2.map (·.push i) := by
    simp only [LFile.ins, eS, List.map_append]
    rw [List.take_left' (by simp [hS1]), List.drop_left' (by simp [hS1])]
  have epl' : places 0 (C ++ ll :: D) = places 0 C ++ (⟨i, r, 0, 1, ll.label⟩ : Place) ::
      (places i D).map (fun q => { q with line := q.line + 1 }) := by
    rw [places_append, Nat.zero_add, hCi]
    simp only [places, hl, linePlaces, List.length_singleton, if_true]
    rw [places_shift]
    rfl
  have hbC := places_line_bounds (p := 0) (lines := C)
  have hbD := places_line_bounds (p := i) (lines := D)
  -- the old statements
  have hsame : ∀ x ∈ a.stmts, SameStmt a (a.ins pos i ll y) x (x.push i) := by
    intro x hx
    obtain ⟨j, hj, hxj⟩ := List.mem_iff_getElem.mp hx
    obtain ⟨q, hq⟩ : ∃ q, (places 0 a.lines)[j]? = some q :=
      ⟨_, List.getElem?_eq_getElem (by rw [← ht.consistent.stmts.length_eq]; exact hj)⟩
    obtain ⟨s1, s2, _⟩ := f2_get ht.consistent.stmts (by rw [List.getElem?_eq_getElem hj, hxj]) hq
    obtain ⟨A, l, B, e1, e2, _⟩ := places_locate hq
    have hl0 : a.lines[q.line]? = some l := by rw [e2, e1]; simp
    refine ⟨rfl, rfl, ?_, slice l.frags q.range, slice l.frags q.range, ?_, ?_, sameToken_refl _⟩
    · show (x.s.pre.map (pushPos i)).map _ = _
      rw [List.map_map]
      apply List.map_congr_left
      intro k _
      show (a.ins pos i ll y).lines[pushPos i k]? = _
      rw [hlines', ← hCi, lines_push, ← hCD]
    · unfold stmtToks; rw [s1, s2]; simp [hl0]
    · unfold stmtToks FStmt.push
      simp only [s1, s2, Option.map_some]
      rw [hlines', ← hCi, lines_push, ← hCD, hl0]
      rfl
  -- statements in front
  have g1 : List.Forall₂ (fun x q => Stands x q ∧ PrefixOk (C ++ ll :: D) x q) (S1.map (·.push i)) (places 0 C) := by
    refine f2_of_get (by rw [List.length_map, f1.length_eq]) ?_
    intro j x q hx hq
    rw [List.getElem?_map] at hx
    obtain ⟨x0, hx0, rfl⟩ := Option.map_eq_some_iff.mp hx
    obtain ⟨hs, hp⟩ := f2_get f1 hx0 hq
    have hqb := hbC q (List.mem_of_getElem? hq)
    have hlt : ∀ k ∈ x0.s.pre, k < i := fun k hk => by
      have := (hp.2.2 k hk).1
      omega
    rw [push_lt hs.1 (by omega) hlt]
    refine ⟨hs, hp.1, hp.2.1, ?_⟩
    intro k hk
    refine ⟨(hp.2.2 k hk).1, ?_⟩
    intro m hm hm'
    obtain ⟨l0, h1, h2⟩ := (hp.2.2 k hk).2 m hm hm'
    refine ⟨l0, ?_, h2⟩
    rw [hCD, List.getElem?_append_left (by omega)] at h1
    rw [List.getElem?_append_left (by omega), h1]
  -- statements behind
  have g2 : List.Forall₂ (fun x q => Stands x q ∧ PrefixOk (C ++ ll :: D) x q) (S2.map (·.push i))
      ((places i D).map (fun q => { q with line := q.line + 1 })) := by
    refine f2_of_get (by rw [List.length_map, List.length_map, f2.length_eq]) ?_
    intro j x q hx hq
    rw [List.getElem?_map] at hx hq
    obtain ⟨x0, hx0, rfl⟩ := Option.map_eq_some_iff.mp hx
    obtain ⟨q0, hq0, rfl⟩ := Option.map_eq_some_iff.mp hq
    obtain ⟨hs, hp⟩ := f2_get f2 hx0 hq0
    have hqb := hbD q0 (List.mem_of_getElem? hq0)
    have hge : ∀ k ∈ x0.s.pre, i ≤ k := by
      refine hpre (pos + j) x0 (by omega) ?_
      rw [eS, List.getElem?_append_right (by omega), hS1, Nat.add_sub_cancel_left]
      exact hx0
    have epre : (x0.push i).s.pre = x0.s.pre.map (· + 1) := by
      show x0.s.pre.map (pushPos i) = _
      apply List.map_congr_left
      intro k hk
      simp only [pushPos]
      rw [if_pos (hge k hk)]
    refine ⟨stands_push hs hqb.1, ?_, ?_, ?_⟩
    · rw [epre]
      exact hp.1.map _ (by intros; omega)
    · rw [epre]
      intro hne
      exact hp.2.1 (by intro hh; rw [hh] at hne; simp at hne)
    · rw [epre]
      intro k hk
      obtain ⟨k0, hk0, rfl⟩ := List.mem_map.mp hk
      have hk1 := hp.2.2 k0 hk0
      refine ⟨by show k0 + 1 < q0.line + 1; omega, ?_⟩
      intro m hm hm'
      have hm'' : m < q0.line + 1 := hm'
      have := hge k0 hk0
      obtain ⟨l0, h1, h2⟩ := hk1.2 (m - 1) (by omega) (by omega)
      refine ⟨l0, ?_, h2⟩
      rw [← h1, hCD, ← lines_push C D ll (m - 1), hCi]
      unfold pushPos
      rw [if_pos (by omega), show m - 1 + 1 = m by omega]
  have gy : PrefixOk (C ++ ll :: D) y ⟨i, r, 0, 1, ll.label⟩ := by
    refine ⟨hyp.1, hyp.2.1, ?_⟩
    intro k hk
    refine ⟨(hyp.2.2 k hk).1, ?_⟩
    intro m hm hm'
    obtain ⟨l0, h1, h2⟩ := (hyp.2.2 k hk).2 m hm hm'
    have hm'' : m < i := hm'
    refine ⟨l0, ?_, h2⟩
    rw [hCD, List.getElem?_append_left (by omega)] at h1
    rw [List.getElem?_append_left (by omega), h1]
  have gall : List.Forall₂ (fun x q => Stands x q ∧ PrefixOk (C ++ ll :: D) x q) (a.ins pos i ll y).stmts
      (places 0 (a.ins pos i ll y).lines) := by
    rw [hst', hlines', epl']
    exact f2_append g1 (.cons ⟨hy, gy⟩ g2)
  refine ⟨⟨⟨?_, gall.imp (fun _ _ h => h.1), ?_⟩, ?_⟩, hsame⟩
  · intro l0 hl0
    rw [hlines'] at hl0
    rcases List.mem_append.mp hl0 with hl0 | hl0
    · exact ht.consistent.lines l0 (by rw [hCD]; simp [hl0])
    · rcases List.mem_cons.mp hl0 with rfl | hl0
      · exact hl'
      · exact ht.consistent.lines l0 (by rw [hCD]; simp [hl0])
  · intro x hx k hk
    obtain ⟨j, hj, hxj⟩ := List.mem_iff_getElem.mp hx
    obtain ⟨q, hq⟩ : ∃ q, (places 0 (a.ins pos i ll y).lines)[j]? = some q :=
      ⟨_, List.getElem?_eq_getElem (by rw [← gall.length_eq]; exact hj)⟩
    obtain ⟨_, hp⟩ := f2_get gall (by rw [List.getElem?_eq_getElem hj, hxj]) hq
    rw [hlines']
    exact (hp.2.2 k hk).2 k (le_refl _) (hp.2.2 k hk).1
  · rw [hlines']
    rw [hlines'] at gall
    exact gall.imp (fun _ _ h => h.2)

/-! ## Changing a line and its statements -/

theorem places_set {lines : List LLine} {p : Nat} {l l' : LLine} (hp : lines[p]? = some l)
    (hn : l'.stmts.length = l.stmts.length) :
    (places 0 (lines.set p l')).length = (places 0 lines).length ∧
    ∀ (j : Nat) q, (places 0 lines)[j]? = some q →
      (q.line ≠ p → (places 0 (lines.set p l'))[j]? = some q) ∧
      (q.line = p → ∃ r', l'.stmts[q.idx]? = some r' ∧
        (places 0 (lines.set p l'))[j]? = some ⟨p, r', q.idx, q.num, if q.idx = 0 then l'.label else 0⟩) := by
  obtain ⟨hlt, hpe⟩ := List.getElem?_eq_some_iff.mp hp
  obtain ⟨A, B, e, hA⟩ : ∃ A B, lines = A ++ l :: B ∧ A.length = p := by
    refine ⟨lines.take p, lines.drop (p + 1), ?_, by rw [List.length_take]; omega⟩
    rw [← hpe, List.getElem_cons_drop, List.take_append_drop]
  have e' : lines.set p l' = A ++ l' :: B := by
    rw [e, ← hA]; simp
  have e1 : places 0 lines = places 0 A ++ (linePlaces p l.stmts.length l.label 0 l.stmts ++ places (p + 1) B) := by
    rw [e, places_append]; simp only [places, Nat.zero_add, hA]
  have e2 : places 0 (lines.set p l') = places 0 A ++ (linePlaces p l'.stmts.length l'.label 0 l'.stmts ++ places (p + 1) B) := by
    rw [e', places_append]; simp only [places, Nat.zero_add, hA]
  refine ⟨by rw [e1, e2]; simp [linePlaces_length, hn], ?_⟩
  intro j q hq
  rw [e1] at hq
  rw [e2]
  by_cases h1 : j < (places 0 A).length
  · rw [List.getElem?_append_left h1] at hq
    have := places_line_bounds q (List.mem_of_getElem? hq)
    rw [List.getElem?_append_left h1]
    exact ⟨fun _ => hq, fun hh => by omega⟩
  rw [List.getElem?_append_right (by omega)] at hq
  rw [List.getElem?_append_right (by omega)]
  by_cases h2 : j - (places 0 A).length < l.stmts.length
  · rw [List.getElem?_append_left (by rw [linePlaces_length]; exact h2), linePlaces_get] at hq
    obtain ⟨r0, hr0, rfl⟩ := Option.map_eq_some_iff.mp hq
    refine ⟨fun hh => absurd rfl hh, fun _ => ⟨l'.stmts[j - (places 0 A).length]'(by omega), ?_, ?_⟩⟩
    · dsimp only
      rw [Nat.zero_add]
      exact List.getElem?_eq_getElem _
    · rw [List.getElem?_append_left (by rw [linePlaces_length]; omega), linePlaces_get,
        List.getElem?_eq_getElem (by omega)]
      simp [hn]
  · rw [List.getElem?_append_right (by rw [linePlaces_length]; omega), linePlaces_length] at hq
    rw [List.getElem?_append_right (by rw [linePlaces_length]; omega), linePlaces_length, hn]
    have := places_line_bounds q (List.mem_of_getElem? hq)
    exact ⟨fun _ => hq, fun hh => by omega⟩

/-- The invariant and the relation of the statements elsewhere, after a line has changed. -/
theorem change_tidy {a : LFile} (ht : Tidy a) {p : Nat} {l l' : LLine} {S' : List FStmt}
    (hp : a.lines[p]? = some l) (hne : l.stmts ≠ []) (hn : l'.stmts.length = l.stmts.length)
    (hl' : l'.stmts = l'.initStmts.stmts) (hS : S'.length = a.stmts.length)
    (h : ∀ (j : Nat) x x' q, a.stmts[j]? = some x → S'[j]? = some x' → (places 0 a.lines)[j]? = some q →
      (q.line ≠ p → x' = x) ∧
      (q.line = p → x'.s.pre = x.s.pre ∧ ∀ r', l'.stmts[q.idx]? = some r' →
        Stands x' ⟨p, r', q.idx, q.num, if q.idx = 0 then l'.label else 0⟩)) :
    Tidy ⟨a.lines.set p l', S'⟩ ∧
    ∀ (j : Nat) x q, a.stmts[j]? = some x → (places 0 a.lines)[j]? = some q → q.line ≠ p →
      S'[j]? = some x ∧ SameStmt a ⟨a.lines.set p l', S'⟩ x x := by
  obtain ⟨c1, c2⟩ := places_set hp hn
  have hlt := (List.getElem?_eq_some_iff.mp hp).1
  have hlen := ht.consistent.stmts.length_eq
  have hkeep : ∀ (m : Nat) l0, a.lines[m]? = some l0 → l0.stmts = [] → (a.lines.set p l')[m]? = some l0 := by
    intro m l0 hm h0
    have : m ≠ p := by
      rintro rfl
      rw [hp] at hm
      obtain rfl := Option.some.inj hm
      exact hne h0
    rw [List.getElem?_set_ne (Ne.symm this)]
    exact hm
  have gall : List.Forall₂ (fun x q => Stands x q ∧ PrefixOk (a.lines.set p l') x q) S' (places 0 (a.lines.set p l')) := by
    refine f2_of_get (by rw [hS, c1, hlen]) ?_
    intro j x' q' hx' hq'
    have hj := (List.getElem?_eq_some_iff.mp hx').1
    obtain ⟨x, hx⟩ : ∃ x, a.stmts[j]? = some x := ⟨_, List.getElem?_eq_getElem (by omega)⟩
    obtain ⟨q, hq⟩ : ∃ q, (places 0 a.lines)[j]? = some q := ⟨_, List.getElem?_eq_getElem (by omega)⟩
    obtain ⟨h1, h2⟩ := h j x x' q hx hx' hq
    obtain ⟨d1, d2⟩ := c2 j q hq
    have hpo := f2_get ht.prefixes hx hq
    by_cases hqp : q.line = p
    · obtain ⟨r', hr', d3⟩ := d2 hqp
      rw [d3] at hq'
      obtain rfl := Option.some.inj hq'
      obtain ⟨k1, k2⟩ := h2 hqp
      refine ⟨k2 r' hr', ?_, ?_, ?_⟩
      · rw [k1]; exact hpo.1
      · rw [k1]; exact hpo.2.1
      · rw [k1]
        intro k hk
        obtain ⟨k3, k4⟩ := hpo.2.2 k hk
        refine ⟨by show k < p; omega, fun m hm hm' => ?_⟩
        have hm'' : m < p := hm'
        obtain ⟨l0, m1, m2⟩ := k4 m hm (by omega)
        exact ⟨l0, hkeep m l0 m1 m2, m2⟩
    · have d3 := d1 hqp
      rw [d3] at hq'
      obtain rfl := Option.some.inj hq'
      rw [h1 hqp]
      refine ⟨f2_get ht.consistent.stmts hx hq, hpo.1, hpo.2.1, ?_⟩
      intro k hk
      obtain ⟨k3, k4⟩ := hpo.2.2 k hk
      refine ⟨k3, fun m hm hm' => ?_⟩
      obtain ⟨l0, m1, m2⟩ := k4 m hm hm'
      exact ⟨l0, hkeep m l0 m1 m2, m2⟩
  refine ⟨⟨⟨?_, gall.imp (fun _ _ h => h.1), ?_⟩, gall.imp (fun _ _ h => h.2)⟩, ?_⟩
  · intro l0 hl0
    rcases List.mem_or_eq_of_mem_set hl0 with hl0 | rfl
    · exact ht.consistent.lines l0 hl0
    · exact hl'
  · intro x hx k hk
    obtain ⟨j, hj, hxj⟩ := List.mem_iff_getElem.mp hx
    obtain ⟨q, hq⟩ : ∃ q, (places 0 (a.lines.set p l'))[j]? = some q :=
      ⟨_, List.getElem?_eq_getElem (by rw [← gall.length_eq]; exact hj)⟩
    obtain ⟨_, hpo⟩ := f2_get gall (by rw [List.getElem?_eq_getElem hj, hxj]) hq
    exact (hpo.2.2 k hk).2 k (le_refl _) (hpo.2.2 k hk).1
  · intro j x q hx hq hqp
    have hj := (List.getElem?_eq_some_iff.mp hx).1
    have hx' : S'[j]? = some (S'[j]'(by omega)) := List.getElem?_eq_getElem (by omega)
    have e := (h j x _ q hx hx' hq).1 hqp
    refine ⟨by rw [hx', e], rfl, rfl, ?_, ?_⟩
    · apply List.map_congr_left
      intro k hk
      obtain ⟨l0, m1, m2⟩ := ht.consistent.pre x (List.mem_of_getElem? hx) k hk
      show (a.lines.set p l')[k]? = _
      rw [hkeep k l0 m1 m2, m1]
    · obtain ⟨s1, s2, _⟩ := f2_get ht.consistent.stmts hx hq
      obtain ⟨A, l0, B, e1, e2, _⟩ := places_locate hq
      have hl0 : a.lines[q.line]? = some l0 := by rw [e2, e1]; simp
      refine ⟨slice l0.frags q.range, slice l0.frags q.range, ?_, ?_, sameToken_refl _⟩
      · unfold stmtToks; rw [s1, s2]; simp [hl0]
      · unfold stmtToks
        rw [s1, s2]
        dsimp only
        rw [List.getElem?_set_ne (Ne.symm hqp), hl0]
        rfl

/-! ## Splitting keeps the prefixes in front of the statements -/

theorem SplitDone.pre_of {fl fl' : LFile} {pos : Nat} {A : List LLine} {l : LLine} {B : List LLine} {l1 n1 : LLine}
    {idx : Nat} {r : Nat × Nat} (h : SplitDone fl fl' pos A l B l1 n1 idx r) {j : Nat} {x x' : FStmt}
    (hx : fl.stmts[j]? = some x) (hx' : fl'.stmts[j]? = some x') : x'.s.pre = x.s.pre.map (bumpPos A.length) := by
  obtain ⟨xs, hxs, hst⟩ := h.stmts'
  have hcut : ∀ z : FStmt, ((z.cut A.length (r.2 - 1) l.frags.length).bump A.length).s.pre = z.s.pre.map (bumpPos A.length) := by
    intro z
    show (z.cut _ _ _).s.pre.map _ = _
    rw [(cutStmt_parts z A.length (r.2 - 1) l.frags.length).1]
  have hxsj : xs[j]? = some ((x.cut A.length (r.2 - 1) l.frags.length).bump A.length) := by
    rw [hxs]; simp [hx]
  rw [hst] at hx'
  have hjx := (List.getElem?_eq_some_iff.mp hxsj).1
  by_cases h1 : j < pos
  · rw [List.getElem?_append_left (by rw [List.length_take]; omega), List.getElem?_take, if_pos h1, hxsj] at hx'
    rw [← Option.some.inj hx']
    exact hcut x
  · by_cases hpl : xs.length ≤ pos
    · omega
    rw [List.getElem?_append_right (by rw [List.length_take]; omega), List.length_take,
      show min pos xs.length = pos by omega] at hx'
    have hzl : (List.zipWith FStmt.update ((xs.drop pos).take (l.stmts.length - (idx + 1)))
      (lineStmts (A.length + 1) n1.label (if n1.initStmts.stmts.length > 1 then 1 else 0) [] n1.initStmts.stmts)).length
        = min (min (l.stmts.length - (idx + 1)) (xs.length - pos)) (l.stmts.length - (idx + 1)) := by
      rw [List.length_zipWith, List.length_take, List.length_drop, lineStmts_len, h.right]
    by_cases h2 : j - pos < l.stmts.length - (idx + 1)
    · rw [List.getElem?_append_left (by rw [hzl]; omega), List.getElem?_zipWith, List.getElem?_take, if_pos h2,
        List.getElem?_drop, show pos + (j - pos) = j by omega, hxsj] at hx'
      cases hls : (lineStmts (A.length + 1) n1.label (if n1.initStmts.stmts.length > 1 then 1 else 0) [] n1.initStmts.stmts)[j - pos]? with
      | none => rw [hls] at hx'; simp at hx'
      | some s =>
        rw [hls] at hx'
        rw [← Option.some.inj hx']
        exact hcut x
    · rw [List.getElem?_append_right (by rw [hzl]; omega), List.getElem?_drop, List.getElem?_drop, hzl,
        show pos + (l.stmts.length - (idx + 1) + (j - pos - min (min (l.stmts.length - (idx + 1)) (xs.length - pos)) (l.stmts.length - (idx + 1)))) = j by omega,
        hxsj] at hx'
      rw [← Option.some.inj hx']
      exact hcut x

/-- A place that is the first of its line. -/
theorem SplitDone.first_place {fl fl' : LFile} {pos : Nat} {A : List LLine} {l : LLine} {B : List LLine} {l1 n1 : LLine}
    {idx : Nat} {r : Nat × Nat} (h : SplitDone fl fl' pos A l B l1 n1 idx r) {j : Nat} {q q' : Place}
    (hq : (places 0 fl.lines)[j]? = some q) (hq' : (places 0 fl'.lines)[j]? = some q') (h0 : q.idx = 0) :
    q'.idx = 0 ∧ q'.line = bumpPos A.length q.line := by
  have hnum := h.num
  have hright := h.right
  have hll : l1.initStmts.stmts.length = idx + 1 := by
    rw [h.left, List.length_take]; omega
  rw [h.lines', places_append] at hq'
  rw [h.lines, places_append] at hq
  simp only [places, Nat.zero_add] at hq hq'
  by_cases h1 : j < (places 0 A).length
  · rw [List.getElem?_append_left h1] at hq hq'
    rw [hq] at hq'
    obtain rfl := Option.some.inj hq'
    have := places_line_bounds q (List.mem_of_getElem? hq)
    refine ⟨h0, ?_⟩
    simp only [bumpPos]
    rw [if_neg (by omega)]
  rw [List.getElem?_append_right (by omega)] at hq hq'
  by_cases h2 : j - (places 0 A).length < l.stmts.length
  · rw [List.getElem?_append_left (by rw [linePlaces_length]; exact h2), linePlaces_get] at hq
    obtain ⟨r0, hr0, rfl⟩ := Option.map_eq_some_iff.mp hq
    have hz : j - (places 0 A).length = 0 := by simpa using h0
    rw [hz] at hq'
    rw [List.getElem?_append_left (by rw [linePlaces_length]; omega), linePlaces_get] at hq'
    obtain ⟨r1, hr1, rfl⟩ := Option.map_eq_some_iff.mp hq'
    simp [bumpPos]
  · rw [List.getElem?_append_right (by rw [linePlaces_length]; omega), linePlaces_length] at hq
    rw [List.getElem?_append_right (by rw [linePlaces_length]; omega),
      List.getElem?_append_right (by rw [linePlaces_length, linePlaces_length]; omega), linePlaces_length, linePlaces_length,
      places_shift (A.length + 1) B, List.getElem?_map,
      show j - (places 0 A).length - l1.initStmts.stmts.length - n1.initStmts.stmts.length = j - (places 0 A).length - l.stmts.length by omega,
      hq] at hq'
    obtain rfl := Option.some.inj hq'
    have := places_line_bounds q (List.mem_of_getElem? hq)
    refine ⟨h0, ?_⟩
    simp only [bumpPos]
    rw [if_pos (by omega)]

/-- **C64** `split_compound_before` keeps the prefixes in front of their statements. -/
theorem split_tidy {fl fl' : LFile} {pos : Nat} {b : Bool} (ht : Tidy fl) (h : fl.splitBefore pos = .ok (b, fl')) :
    Tidy fl' ∧ List.Forall₂ (SameStmt fl fl') fl.stmts fl'.stmts ∧
    (∀ q, (places 0 fl'.lines)[pos]? = some q → q.idx = 0) := by
  cases b with
  | false =>
    obtain ⟨rfl, c2⟩ := C20_file_false fl fl' pos ht.consistent h
    exact ⟨ht, sameStmts_refl ht.consistent, c2⟩
  | true =>
    obtain ⟨A, l, B, l1, n1, idx, r, hd⟩ := splitBefore_done ht.consistent h
    obtain ⟨c1, c2, _⟩ := C20_file fl fl' pos ht.consistent h
    refine ⟨⟨c1, ?_⟩, c2, ?_⟩
    · refine f2_of_get c1.stmts.length_eq ?_
      intro j x' q' hx' hq'
      have hj := (List.getElem?_eq_some_iff.mp hx').1
      obtain ⟨x, hx⟩ : ∃ x, fl.stmts[j]? = some x := ⟨_, List.getElem?_eq_getElem (by rw [c2.length_eq]; exact hj)⟩
      obtain ⟨q, hq⟩ : ∃ q, (places 0 fl.lines)[j]? = some q :=
        ⟨_, List.getElem?_eq_getElem (by rw [← ht.consistent.stmts.length_eq]; exact (List.getElem?_eq_some_iff.mp hx).1)⟩
      have hpre := hd.pre_of hx hx'
      obtain ⟨p1, p2, p3⟩ := f2_get ht.prefixes hx hq
      by_cases hnil : x.s.pre = []
      · rw [hnil] at hpre
        simp only [List.map_nil] at hpre
        refine ⟨by rw [hpre]; exact .nil, by rw [hpre]; intro hh; exact absurd rfl hh, by rw [hpre]; simp⟩
      obtain ⟨f1, f2⟩ := hd.first_place hq hq' (p2 hnil)
      have hAl : fl.lines[A.length]? = some l := by rw [hd.lines]; simp
      have hlne : l.stmts ≠ [] := by
        intro hh
        have := hd.num
        rw [hh] at this
        simp at this
      rw [PrefixOk, hpre, f2]
      refine ⟨p1.map _ (by intro u v huv; simp only [bumpPos]; split <;> split <;> omega), fun _ => f1, ?_⟩
      intro k hk
      obtain ⟨k0, hk0, rfl⟩ := List.mem_map.mp hk
      obtain ⟨t1, t2⟩ := p3 k0 hk0
      have hno : ∀ m, k0 ≤ m → m < q.line → m ≠ A.length := by
        intro m hm hm' hh
        obtain ⟨l0, u1, u2⟩ := t2 m hm hm'
        rw [hh, hAl] at u1
        rw [← Option.some.inj u1] at u2
        exact hlne u2
      refine ⟨by simp only [bumpPos]; split <;> split <;> omega, ?_⟩
      intro m hm hm'
      have hk0A : k0 ≠ A.length := hno k0 (le_refl _) t1
      by_cases hAk : A.length < k0
      · have e1 : bumpPos A.length k0 = k0 + 1 := by simp [bumpPos, hAk]
        have e2 : bumpPos A.length q.line = q.line + 1 := by simp only [bumpPos]; rw [if_pos (by omega)]
        rw [e1] at hm
        rw [e2] at hm'
        obtain ⟨l0, u1, u2⟩ := t2 (m - 1) (by omega) (by omega)
        refine ⟨l0, ?_, u2⟩
        have := lines_bump A B l l1.initStmts n1.initStmts (m - 1) (by omega)
        rw [← hd.lines', ← hd.lines, u1] at this
        rw [← this]
        simp only [bumpPos]
        rw [if_pos (by omega), show m - 1 + 1 = m by omega]
      · have hql : q.line ≤ A.length := by
          by_contra hh
          exact hno A.length (by omega) (by omega) rfl
        have e1 : bumpPos A.length k0 = k0 := by simp only [bumpPos]; rw [if_neg (by omega)]
        have e2 : bumpPos A.length q.line = q.line := by simp only [bumpPos]; rw [if_neg (by omega)]
        rw [e1] at hm
        rw [e2] at hm'
        obtain ⟨l0, u1, u2⟩ := t2 m hm hm'
        refine ⟨l0, ?_, u2⟩
        have := lines_bump A B l l1.initStmts n1.initStmts m (by omega)
        rw [← hd.lines', ← hd.lines, u1] at this
        rw [← this]
        simp only [bumpPos]
        rw [if_neg (by omega)]
    · obtain ⟨⟨q, hq, hq0⟩, _⟩ := hd.places'
      intro q' hq'
      rw [hq] at hq'
      rw [← Option.some.inj hq']
      exact hq0

theorem isolate_tidy {fl fl' : LFile} {pos : Nat} {b : Bool} (ht : Tidy fl) (h : fl.isolate pos = .ok (b, fl')) :
    Tidy fl' := by
  unfold LFile.isolate at h
  rbind h with a ha
  split at h
  · simp at h
  obtain ⟨ba, fa⟩ := a
  have h1 := (split_tidy ht ha).1
  split at h
  · rbind h with d hd
    obtain ⟨bd, fd⟩ := d
    simp only [Except.ok.injEq, Prod.mk.injEq] at h
    rw [← h.2]
    exact (split_tidy h1 hd).1
  · simp only [Except.ok.injEq, Prod.mk.injEq] at h
    rw [← h.2]
    exact h1

/-! ## Files as they are made -/

/-- **C64** The file that `make_stmts` makes is as the theorems want it. -/
theorem C64_made (lines : List LLine) (hs : ∀ l ∈ lines, l.stmts = l.initStmts.stmts) :
    Tidy (.made lines (stmtsOf lines)) := by
  have hc := C20_made lines hs
  refine ⟨hc, ?_⟩
  refine f2_of_get hc.stmts.length_eq ?_
  intro j x q hx hq
  have hs := f2_get hc.stmts hx hq
  have hxm := List.mem_of_getElem? hx
  simp only [LFile.made, List.mem_map, stmtsOf, List.mem_flatMap] at hxm
  obtain ⟨s, ⟨li, _, rj, hrj, rfl⟩, rfl⟩ := hxm
  have hline : li.2 = q.line := Option.some.inj hs.1
  show PrefixOk lines _ _
  by_cases h0 : rj.2 = 0
  · simp only [PrefixOk, h0, if_true]
    refine ⟨?_, ?_, ?_⟩
    · unfold prefixOf
      exact (List.pairwise_lt_range).filter _
    · intro _
      rcases hs.2.2.2.1 with h4 | h4
      · dsimp only at h4
        split at h4
        · omega
        · omega
      · obtain ⟨A, l, B, _, _, e3, _, e5, _⟩ := places_locate hq
        omega
    · intro k hk
      unfold prefixOf at hk
      rw [List.mem_filter] at hk
      obtain ⟨k1, k2⟩ := hk
      have k1' := List.mem_range.mp k1
      simp only [Bool.and_eq_true, List.all_eq_true, Bool.or_eq_true, decide_eq_true_eq] at k2
      refine ⟨by omega, ?_⟩
      intro m hm hm'
      have := (k2.2 m (List.mem_range.mpr (by omega))).resolve_left (by omega)
      unfold NoStmts at this
      split at this
      · rename_i l hl
        exact ⟨l, hl, by simpa using this⟩
      · simp at this
  · simp only [PrefixOk, h0, if_false]
    exact ⟨.nil, fun hh => absurd rfl hh, by simp⟩

end FLPR
