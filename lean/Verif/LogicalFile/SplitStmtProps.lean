import Verif.LogicalFile.SplitStmtOk
/-!
# Splitting the compound lines of a file (C20)
-/

namespace FLPR
open Spec

namespace Spec

/-- A statement before and after: it has the same tag, label, prefix lines and tokens. -/
def SameStmt (fl fl' : LFile) (x x' : FStmt) : Prop :=
  x'.tag = x.tag ∧ x'.s.label = x.s.label ∧
  x'.s.pre.map (fl'.lines[·]?) = x.s.pre.map (fl.lines[·]?) ∧
  ∃ ts ts', stmtToks fl x = some ts ∧ stmtToks fl' x' = some ts' ∧ List.Forall₂ SameToken ts ts'

end Spec
open Spec

theorem sameToken_refl (ts : List Tok) : List.Forall₂ SameToken ts ts := by
  induction ts with
  | nil => exact .nil
  | cons t ts ih => exact .cons ⟨rfl, rfl, rfl, rfl, rfl, rfl, rfl⟩ ih

theorem lines_bump (A B : List LLine) (l l1 n1 : LLine) (q : Nat) (hq : q ≠ A.length) :
    (A ++ l1 :: n1 :: B)[bumpPos A.length q]? = (A ++ l :: B)[q]? := by
  unfold bumpPos
  by_cases h : A.length < q
  · rw [if_pos h, List.getElem?_append_right (by omega), List.getElem?_append_right (by omega)]
    obtain ⟨d, rfl⟩ : ∃ d, q = A.length + 1 + d := ⟨q - A.length - 1, by omega⟩
    rw [show A.length + 1 + d + 1 - A.length = d + 2 by omega, show A.length + 1 + d - A.length = d + 1 by omega]
    rfl
  · rw [if_neg h, List.getElem?_append_left (by omega), List.getElem?_append_left (by omega)]

section
variable {fl fl' : LFile} {pos : Nat} {A : List LLine} {l : LLine} {B : List LLine} {l1 n1 : LLine}
  {idx : Nat} {r : Nat × Nat}

/-- The prefix of a statement stays the same lines. -/
theorem SplitDone.pre_same (h : SplitDone fl fl' pos A l B l1 n1 idx r) {pre : List Nat}
    (hp : ∀ q ∈ pre, ∃ l, fl.lines[q]? = some l ∧ l.stmts = []) :
    (pre.map (bumpPos A.length)).map (fl'.lines[·]?) = pre.map (fl.lines[·]?) ∧
    ∀ q ∈ pre.map (bumpPos A.length), ∃ l, fl'.lines[q]? = some l ∧ l.stmts = [] := by
  have key : ∀ q ∈ pre, fl'.lines[bumpPos A.length q]? = fl.lines[q]? := by
    intro q hq
    rw [h.lines', h.lines]
    apply lines_bump
    rintro rfl
    obtain ⟨l0, h1, h2⟩ := hp _ hq
    have : fl.lines[A.length]? = some l := by rw [h.lines]; simp
    rw [this] at h1
    obtain rfl := Option.some.inj h1
    have := h.num
    rw [h2] at this
    simp at this
  constructor
  · rw [List.map_map]
    apply List.map_congr_left
    intro q hq
    exact key q hq
  · intro q hq
    obtain ⟨q0, hq0, rfl⟩ := List.mem_map.mp hq
    rw [key q0 hq0]
    exact hp q0 hq0

/-- What has to be shown of a statement and its place. -/
def Kept (fl fl' : LFile) (x : FStmt) (x' : FStmt) : Prop :=
  SameStmt fl fl' x x' ∧ ∀ q ∈ x'.s.pre, ∃ l, fl'.lines[q]? = some l ∧ l.stmts = []

/-- A statement on another line. -/
theorem SplitDone.other (h : SplitDone fl fl' pos A l B l1 n1 idx r) {x : FStmt} {q : Place}
    (hs : Stands x q) (hq : q.line ≠ A.length) (hin : ∃ l0, fl.lines[q.line]? = some l0)
    (hp : ∀ q ∈ x.s.pre, ∃ l, fl.lines[q]? = some l ∧ l.stmts = []) :
    Kept fl fl' x (x.bump A.length) := by
  obtain ⟨k1, k2⟩ := h.pre_same hp
  obtain ⟨l0, hl0⟩ := hin
  obtain ⟨s1, s2, _⟩ := hs
  refine ⟨⟨rfl, rfl, k1, ?_⟩, k2⟩
  have e1 : stmtToks fl x = some (slice l0.frags q.range) := by
    unfold stmtToks; rw [s1, s2]; simp [hl0]
  have e2 : stmtToks fl' (x.bump A.length) = some (slice l0.frags q.range) := by
    unfold stmtToks FStmt.bump
    simp only [s1, s2, Option.map_some]
    rw [h.lines', lines_bump A B l _ _ q.line hq, ← h.lines, hl0]
    rfl
  exact ⟨_, _, e1, e2, sameToken_refl _⟩

/-- The statements that stay on the line. -/
theorem SplitDone.stay (h : SplitDone fl fl' pos A l B l1 n1 idx r) (hc : Consistent fl) {j : Nat} {x : FStmt}
    {rj : Nat × Nat} (hj : (l.stmts.take (idx + 1))[j]? = some rj)
    (hs : Stands x ⟨A.length, rj, j, l.stmts.length, if j = 0 then l.label else 0⟩)
    (hp : ∀ q ∈ x.s.pre, ∃ l, fl.lines[q]? = some l ∧ l.stmts = []) :
    let x' := (x.cut A.length (r.2 - 1) l.frags.length).bump A.length
    Kept fl fl' x x' ∧ Stands x' ⟨A.length, rj, j, l1.initStmts.stmts.length, if j = 0 then l1.initStmts.label else 0⟩ := by
  intro x'
  obtain ⟨c1, c2, c3⟩ := cutStmt_parts x A.length (r.2 - 1) l.frags.length
  have hnum := h.num
  have hls : l.stmts = l.initStmts.stmts := hc.lines l (by rw [h.lines]; simp)
  obtain ⟨hpw, hmr⟩ := C16_ranges l
  rw [← hls] at hpw hmr
  have hjlt := (List.getElem?_eq_some_iff.mp hj).1
  rw [List.length_take] at hjlt
  have hj0 : l.stmts[j]? = some rj := by
    rw [List.getElem?_take] at hj
    split at hj
    · exact hj
    · simp at hj
  have hrm := (hmr r).mp (List.mem_of_getElem? h.range)
  have hle : rj.2 ≤ r.2 ∧ (j ≠ idx → rj.2 < r.1) := by
    have a1 := List.getElem?_eq_some_iff.mp hj0
    have a2 := List.getElem?_eq_some_iff.mp h.range
    by_cases hji : j = idx
    · subst hji
      have : rj = r := by rw [← a1.2, ← a2.2]
      subst this
      exact ⟨le_refl _, fun hh => absurd rfl hh⟩
    · have := (List.pairwise_iff_getElem.mp hpw) j idx a1.1 a2.1 (by omega)
      rw [a1.2, a2.2] at this
      have := hrm.1
      exact ⟨by omega, fun _ => by omega⟩
  have hll : l1.initStmts.stmts.length = idx + 1 := by
    rw [h.left, List.length_take]; omega
  have hlab : l1.initStmts.label = l.label := (C20_fields l l1 n1 {} _ h.split).1
  obtain ⟨s1, s2, s3, s4, s5⟩ := hs
  dsimp only at s1 s2 s3 s4 s5
  obtain ⟨k1, k2⟩ := h.pre_same hp
  have hxs : x'.s.line = some A.length ∧ x'.s.range = some rj := by
    show (x.cut _ _ _).s.line.map _ = _ ∧ (x.cut _ _ _).s.range = _
    rw [c1, s1, s2]
    refine ⟨?_, rfl⟩
    simp [bumpPos]
  refine ⟨⟨⟨c2, by show (x.cut _ _ _).s.label = _; rw [c1], ?_, ?_⟩, ?_⟩, ?_⟩
  · show ((x.cut _ _ _).s.pre.map _).map _ = _
    rw [c1]; exact k1
  · refine ⟨slice l.frags rj, slice l1.frags rj, ?_, ?_, ?_⟩
    · unfold stmtToks; rw [s1, s2, h.lines]; simp
    · unfold stmtToks; rw [hxs.1, hxs.2, h.lines']; simp; rfl
    · have hfr := (C20_tokens l l1 n1 {} _ h.split).2.1
      have : slice l1.frags rj = slice l.frags rj := by
        unfold slice
        rw [hfr, List.drop_take, List.take_take]
        congr 1
        omega
      rw [this]
      exact sameToken_refl _
  · show ∀ q ∈ (x.cut _ _ _).s.pre.map _, _
    rw [c1]; exact k2
  · refine ⟨hxs.1, hxs.2, ?_, Or.inl ?_, ?_⟩
    · show (x.cut _ _ _).s.label = _
      rw [c1, s3, hlab]
    · show (x.cut _ _ _).s.compound = _
      rw [c1]
      rcases s4 with s4 | s4
      · exact s4
      · omega
    · intro hlive
      rw [hll]
      dsimp only
      rcases c3 hlive with hh | ⟨r0, hr0, hh1, hh2⟩
      · have := s5 hh; omega
      · rw [s2] at hr0
        obtain rfl := Option.some.inj hr0
        by_cases hji : j = idx
        · omega
        · have := hle.2 hji
          have := hrm.1
          omega

/-- The statements that move to the new line. -/
theorem SplitDone.move (h : SplitDone fl fl' pos A l B l1 n1 idx r) (_hc : Consistent fl) {j : Nat} {x : FStmt}
    {rj rj' : Nat × Nat} (hj : l.stmts[idx + 1 + j]? = some rj) (hj' : n1.initStmts.stmts[j]? = some rj')
    (hls : l.stmts = l.initStmts.stmts)
    (hs : Stands x ⟨A.length, rj, idx + 1 + j, l.stmts.length, 0⟩)
    (hp : ∀ q ∈ x.s.pre, ∃ l, fl.lines[q]? = some l ∧ l.stmts = []) :
    let x' := ((x.cut A.length (r.2 - 1) l.frags.length).bump A.length).update
      { line := some (A.length + 1), range := some rj', label := if j = 0 then n1.label else 0, compound := (if n1.initStmts.stmts.length > 1 then 1 else 0) + j, pre := [] }
    Kept fl fl' x x' ∧ Stands x' ⟨A.length + 1, rj', j, n1.initStmts.stmts.length, if j = 0 then n1.initStmts.label else 0⟩ := by
  intro x'
  obtain ⟨c1, c2, _⟩ := cutStmt_parts x A.length (r.2 - 1) l.frags.length
  obtain ⟨s1, s2, s3, s4, s5⟩ := hs
  dsimp only at s1 s2 s3 s4 s5
  obtain ⟨k1, k2⟩ := h.pre_same hp
  have hn0 : n1.label = 0 := by rw [(C20_fields l l1 n1 {} _ h.split).2.2.2.2.2.2]
  have hjl := (List.getElem?_eq_some_iff.mp hj').1
  refine ⟨⟨⟨c2, ?_, ?_, ?_⟩, ?_⟩, ?_⟩
  · show (if j = 0 then n1.label else 0) = _
    rw [s3, hn0]; simp
  · show ((x.cut _ _ _).s.pre.map _).map _ = _
    rw [c1]; exact k1
  · refine ⟨slice l.frags rj, slice n1.frags rj', ?_, ?_, ?_⟩
    · unfold stmtToks; rw [s1, s2, h.lines]; simp
    · show (fl'.lines[A.length + 1]?).map _ = _
      rw [h.lines', List.getElem?_append_right (by omega)]
      simp
      rfl
    · obtain ⟨t, ht, hsemi⟩ := h.semi
      obtain ⟨moved, m1, m2⟩ := C20_stmts l l1 n1 {} _ t ht hsemi h.split
      rw [← hls, h.left] at m1
      have m3 : moved = (l.stmts.drop (idx + 1)).map (slice l.frags) := by
        have e1 : (l.stmts.take (idx + 1)).map (slice l1.frags) = (l.stmts.take (idx + 1)).map (slice l.frags) ∧
            True := by
          refine ⟨?_, trivial⟩
          have hlen := congrArg (List.take (idx + 1)) m1
          rw [← List.map_take, List.take_left' (by rw [List.length_map, List.length_take]; have := h.num; omega)] at hlen
          exact hlen.symm
        have e2 : l.stmts.map (slice l.frags) = (l.stmts.take (idx + 1)).map (slice l.frags) ++ (l.stmts.drop (idx + 1)).map (slice l.frags) := by
          rw [← List.map_append, List.take_append_drop]
        rw [e2, e1.1] at m1
        exact (List.append_cancel_left m1).symm
      refine f2_get m2 (j := j) ?_ ?_
      · rw [m3, List.getElem?_map, List.getElem?_drop, hj]; rfl
      · rw [List.getElem?_map, hj']; rfl
  · show ∀ q ∈ (x.cut _ _ _).s.pre.map _, _
    rw [c1]; exact k2
  · refine ⟨rfl, rfl, rfl, ?_, fun hh => by cases hh⟩
    show (if n1.initStmts.stmts.length > 1 then (1 : Int) else 0) + j = _ ∨ (if n1.initStmts.stmts.length > 1 then (1 : Int) else 0) + j = 0 ∧ _
    dsimp only
    by_cases hm : n1.initStmts.stmts.length > 1
    · rw [if_pos hm]; left; omega
    · rw [if_neg hm]; right; omega

end

/-- The relations of all statements. -/
theorem SplitDone.all {fl fl' : LFile} {pos : Nat} {A : List LLine} {l : LLine} {B : List LLine} {l1 n1 : LLine}
    {idx : Nat} {r : Nat × Nat} (h : SplitDone fl fl' pos A l B l1 n1 idx r) (hc : Consistent fl) :
    List.Forall₂ (Kept fl fl') fl.stmts fl'.stmts ∧ List.Forall₂ Stands fl'.stmts (places 0 fl'.lines) := by
  obtain ⟨SA, S1, S2, SB, e0, f1, f2, f3, f4, e1⟩ := h.groups hc
  have hls : l.stmts = l.initStmts.stmts := hc.lines l (by rw [h.lines]; simp)
  have hnum := h.num
  have hpre := hc.pre
  rw [e0] at hpre
  have epl : places 0 fl'.lines = places 0 A ++ (linePlaces A.length l1.initStmts.stmts.length l1.initStmts.label 0 l1.initStmts.stmts ++
      (linePlaces (A.length + 1) n1.initStmts.stmts.length n1.initStmts.label 0 n1.initStmts.stmts ++
        (places (A.length + 1) B).map (fun q => { q with line := q.line + 1 }))) := by
    rw [h.lines', places_append]
    simp only [places, Nat.zero_add]
    rw [places_shift (A.length + 1) B]
  have hline : ∀ q, (q < A.length ∨ (A.length < q ∧ q < A.length + 1 + B.length)) → ∃ l0, fl.lines[q]? = some l0 := by
    intro q hq
    refine ⟨_, List.getElem?_eq_getElem (by rw [h.lines]; simp; omega)⟩
  -- the lines in front
  have gA : List.Forall₂ (Kept fl fl') SA (SA.map (·.bump A.length)) ∧
      List.Forall₂ Stands (SA.map (·.bump A.length)) (places 0 A) := by
    have hb := places_line_bounds (p := 0) (lines := A)
    have hp : ∀ x ∈ SA, ∀ q ∈ x.s.pre, ∃ l, fl.lines[q]? = some l ∧ l.stmts = [] := fun x hx => hpre x (by simp [hx])
    generalize places 0 A = P at *
    clear * - f1 hb hp h hline
    induction f1 with
    | nil => exact ⟨.nil, .nil⟩
    | @cons x q xs qs hx _ ih =>
      obtain ⟨i1, i2⟩ := ih (fun v hv => hp v (by simp [hv])) (fun v hv => hb v (by simp [hv]))
      have hq := hb q (by simp)
      exact ⟨.cons (h.other hx (by omega) (hline _ (Or.inl (by omega))) (hp x (by simp))) i1,
        .cons (stands_bump_le hx (by omega)) i2⟩
  -- the lines behind
  have gB : List.Forall₂ (Kept fl fl') SB (SB.map (·.bump A.length)) ∧
      List.Forall₂ Stands (SB.map (·.bump A.length)) ((places (A.length + 1) B).map (fun q => { q with line := q.line + 1 })) := by
    have hb := places_line_bounds (p := A.length + 1) (lines := B)
    have hp : ∀ x ∈ SB, ∀ q ∈ x.s.pre, ∃ l, fl.lines[q]? = some l ∧ l.stmts = [] := fun x hx => hpre x (by simp [hx])
    generalize places (A.length + 1) B = P at *
    clear * - f4 hb hp h hline
    induction f4 with
    | nil => exact ⟨.nil, .nil⟩
    | @cons x q xs qs hx _ ih =>
      obtain ⟨i1, i2⟩ := ih (fun v hv => hp v (by simp [hv])) (fun v hv => hb v (by simp [hv]))
      have hq := hb q (by simp)
      exact ⟨.cons (h.other hx (by omega) (hline _ (Or.inr (by omega))) (hp x (by simp))) i1,
        .cons (stands_bump_gt hx (by omega)) i2⟩
  -- the statements that stay
  have g1 : List.Forall₂ (Kept fl fl') S1 (S1.map (fun x => (x.cut A.length (r.2 - 1) l.frags.length).bump A.length)) ∧
      List.Forall₂ Stands (S1.map (fun x => (x.cut A.length (r.2 - 1) l.frags.length).bump A.length))
        (linePlaces A.length l1.initStmts.stmts.length l1.initStmts.label 0 l1.initStmts.stmts) := by
    have hl2 := f2.length_eq
    rw [linePlaces_length] at hl2
    have key : ∀ (j : Nat) x, S1[j]? = some x → ∃ rj, (l.stmts.take (idx + 1))[j]? = some rj ∧
        Stands x ⟨A.length, rj, j, l.stmts.length, if j = 0 then l.label else 0⟩ ∧
        (∀ q ∈ x.s.pre, ∃ l, fl.lines[q]? = some l ∧ l.stmts = []) := by
      intro j x hx
      have hj := (List.getElem?_eq_some_iff.mp hx).1
      refine ⟨_, List.getElem?_eq_getElem (by omega), ?_, fun q hq => hpre x (by simp [List.mem_of_getElem? hx]) q hq⟩
      refine f2_get f2 hx ?_
      rw [linePlaces_get, List.getElem?_eq_getElem (by omega)]
      simp
    constructor
    · refine f2_of_get (by simp) ?_
      intro j x y hx hy
      rw [List.getElem?_map, hx] at hy
      obtain rfl := Option.some.inj hy
      obtain ⟨rj, k1, k2, k3⟩ := key j x hx
      exact (h.stay hc k1 k2 k3).1
    · refine f2_of_get (by rw [List.length_map, linePlaces_length, h.left, hl2]) ?_
      intro j x y hx hy
      rw [List.getElem?_map] at hx
      obtain ⟨x0, hx0, rfl⟩ := Option.map_eq_some_iff.mp hx
      obtain ⟨rj, k1, k2, k3⟩ := key j x0 hx0
      rw [linePlaces_get, h.left, k1] at hy
      obtain rfl := Option.some.inj hy
      have := (h.stay hc k1 k2 k3).2
      rw [h.left] at this
      simpa using this
  -- the statements that move
  have g2 : List.Forall₂ (Kept fl fl') S2 (List.zipWith FStmt.update (S2.map (fun x => (x.cut A.length (r.2 - 1) l.frags.length).bump A.length))
          (lineStmts (A.length + 1) n1.label (if n1.initStmts.stmts.length > 1 then 1 else 0) [] n1.initStmts.stmts)) ∧
      List.Forall₂ Stands (List.zipWith FStmt.update (S2.map (fun x => (x.cut A.length (r.2 - 1) l.frags.length).bump A.length))
          (lineStmts (A.length + 1) n1.label (if n1.initStmts.stmts.length > 1 then 1 else 0) [] n1.initStmts.stmts))
        (linePlaces (A.length + 1) n1.initStmts.stmts.length n1.initStmts.label 0 n1.initStmts.stmts) := by
    have hl2 := f3.length_eq
    rw [linePlaces_length, List.length_drop] at hl2
    have hr := h.right
    have key : ∀ (j : Nat) x, S2[j]? = some x → ∃ rj rj', l.stmts[idx + 1 + j]? = some rj ∧
        n1.initStmts.stmts[j]? = some rj' ∧
        Stands x ⟨A.length, rj, idx + 1 + j, l.stmts.length, 0⟩ ∧
        (∀ q ∈ x.s.pre, ∃ l, fl.lines[q]? = some l ∧ l.stmts = []) := by
      intro j x hx
      have hj := (List.getElem?_eq_some_iff.mp hx).1
      refine ⟨_, _, List.getElem?_eq_getElem (by omega), List.getElem?_eq_getElem (by omega), ?_,
        fun q hq => hpre x (by simp [List.mem_of_getElem? hx]) q hq⟩
      refine f2_get f3 hx ?_
      rw [linePlaces_get, List.getElem?_drop, List.getElem?_eq_getElem (by omega)]
      simp
    have lab0 : ∀ (j : Nat) x y, S2[j]? = some x → (List.zipWith FStmt.update (S2.map (fun x => (x.cut A.length (r.2 - 1) l.frags.length).bump A.length))
          (lineStmts (A.length + 1) n1.label (if n1.initStmts.stmts.length > 1 then 1 else 0) [] n1.initStmts.stmts))[j]? = some y →
        ∃ rj', n1.initStmts.stmts[j]? = some rj' ∧ y = ((x.cut A.length (r.2 - 1) l.frags.length).bump A.length).update
      { line := some (A.length + 1), range := some rj', label := if j = 0 then n1.label else 0, compound := (if n1.initStmts.stmts.length > 1 then 1 else 0) + j, pre := [] } := by
      intro j x y hx hy
      obtain ⟨rj, rj', k1, k2, _⟩ := key j x hx
      rw [List.getElem?_zipWith, List.getElem?_map, hx, lineStmts_get, k2] at hy
      refine ⟨rj', k2, ?_⟩
      simpa using hy.symm
    have hlen : (List.zipWith FStmt.update (S2.map (fun x => (x.cut A.length (r.2 - 1) l.frags.length).bump A.length))
          (lineStmts (A.length + 1) n1.label (if n1.initStmts.stmts.length > 1 then 1 else 0) [] n1.initStmts.stmts)).length = S2.length := by
      rw [List.length_zipWith, List.length_map, lineStmts_len]; omega
    constructor
    · refine f2_of_get hlen.symm ?_
      intro j x y hx hy
      obtain ⟨rj', k2, rfl⟩ := lab0 j x y hx hy
      obtain ⟨rj, rj'', k1, k2', k3, k4⟩ := key j x hx
      exact (h.move hc k1 k2 hls k3 k4).1
    · refine f2_of_get (by rw [hlen, linePlaces_length]; omega) ?_
      intro j x y hx hy
      have hj := (List.getElem?_eq_some_iff.mp hx).1
      rw [hlen] at hj
      obtain ⟨rj', k2, rfl⟩ := lab0 j _ x (List.getElem?_eq_getElem hj) hx
      obtain ⟨rj, rj'', k1, k2', k3, k4⟩ := key j _ (List.getElem?_eq_getElem hj)
      rw [linePlaces_get, k2] at hy
      obtain rfl := Option.some.inj hy
      have := (h.move hc k1 k2 hls k3 k4).2
      simpa using this
  rw [epl, e1]
  refine ⟨?_, f2_append gA.2 (f2_append g1.2 (f2_append g2.2 gB.2))⟩
  rw [e0]
  exact f2_append gA.1 (f2_append g1.1 (f2_append g2.1 gB.1))

/-- **C20** When `split_compound_before` returns true, one line has become two, and nothing else has
changed: all statements have their tags, labels, prefixes and tokens, the statements of the file are again
those of its lines, and the given statement is the first one on the new line. -/
theorem C20_file (fl fl' : LFile) (pos : Nat) (hc : Consistent fl)
    (h : fl.splitBefore pos = .ok (true, fl')) :
    Consistent fl' ∧ List.Forall₂ (SameStmt fl fl') fl.stmts fl'.stmts ∧
    ∃ A l B l' n x', fl.lines = A ++ l :: B ∧ fl'.lines = A ++ l' :: n :: B ∧ l'.frags <+: l.frags ∧
      l.stmts.length = l'.stmts.length + n.stmts.length ∧ l'.stmts ≠ [] ∧ l'.label = l.label ∧
      fl'.stmts[pos]? = some x' ∧ x'.s.line = some (A.length + 1) ∧
      (∃ r, n.stmts.head? = some r ∧ x'.s.range = some r) ∧ 0 < pos ∧
      ∃ y, fl'.stmts[pos - 1]? = some y ∧ y.s.line = some A.length := by
  obtain ⟨A, l, B, l1, n1, idx, r, hd⟩ := splitBefore_done hc h
  obtain ⟨h1, h2⟩ := hd.all hc
  have hnum := hd.num
  have hright := hd.right
  have hat := hd.at_
  have hll : l1.initStmts.stmts.length = idx + 1 := by
    rw [hd.left, List.length_take]; omega
  refine ⟨⟨?_, h2, ?_⟩, h1.imp (fun _ _ h => h.1), A, l, B, l1.initStmts, n1.initStmts, ?_⟩
  · intro l0 hl0
    rw [hd.lines'] at hl0
    rcases List.mem_append.mp hl0 with hl0 | hl0
    · exact hc.lines l0 (by rw [hd.lines]; simp [hl0])
    · rcases List.mem_cons.mp hl0 with rfl | hl0
      · rfl
      · rcases List.mem_cons.mp hl0 with rfl | hl0
        · rfl
        · exact hc.lines l0 (by rw [hd.lines]; simp [hl0])
  · intro x hx
    obtain ⟨j, hj, hx⟩ := List.mem_iff_getElem.mp hx
    exact (f2_get h1 (j := j) (List.getElem?_eq_getElem (by rw [h1.length_eq]; exact hj))
      (by rw [List.getElem?_eq_getElem hj, hx])).2
  · have epl : places 0 fl'.lines = places 0 A ++ (linePlaces A.length l1.initStmts.stmts.length l1.initStmts.label 0 l1.initStmts.stmts ++
      (linePlaces (A.length + 1) n1.initStmts.stmts.length n1.initStmts.label 0 n1.initStmts.stmts ++ places (A.length + 1 + 1) B)) := by
      rw [hd.lines', places_append]
      simp only [places, Nat.zero_add]
    have hplen := h2.length_eq
    rw [epl] at hplen
    simp only [List.length_append, linePlaces_length] at hplen
    obtain ⟨rn, hrn⟩ : ∃ rn, n1.initStmts.stmts[0]? = some rn := ⟨_, List.getElem?_eq_getElem (by omega)⟩
    obtain ⟨rl, hrl⟩ : ∃ rl, l1.initStmts.stmts[idx]? = some rl := ⟨_, List.getElem?_eq_getElem (by omega)⟩
    have hq : (places 0 fl'.lines)[pos]? = some ⟨A.length + 1, rn, 0, n1.initStmts.stmts.length, n1.initStmts.label⟩ := by
      rw [epl, List.getElem?_append_right (by omega), List.getElem?_append_right (by rw [linePlaces_length]; omega),
        List.getElem?_append_left (by simp only [linePlaces_length]; omega), linePlaces_get, linePlaces_length,
        show pos - (places 0 A).length - l1.initStmts.stmts.length = 0 by omega, hrn]
      rfl
    have hq1 : ∃ lab, (places 0 fl'.lines)[pos - 1]? = some ⟨A.length, rl, idx, l1.initStmts.stmts.length, lab⟩ := by
      rw [epl, List.getElem?_append_right (by omega),
        List.getElem?_append_left (by rw [linePlaces_length]; omega), linePlaces_get,
        show pos - 1 - (places 0 A).length = idx by omega, hrl]
      exact ⟨_, by simp; rfl⟩
    obtain ⟨lab, hq1⟩ := hq1
    have hx' : fl'.stmts[pos]? = some (fl'.stmts[pos]'(by omega)) := List.getElem?_eq_getElem (by omega)
    have hy : fl'.stmts[pos - 1]? = some (fl'.stmts[pos - 1]'(by omega)) := List.getElem?_eq_getElem (by omega)
    have s1 := f2_get h2 hx' hq
    have s2 := f2_get h2 hy hq1
    refine ⟨_, hd.lines, hd.lines', ?_, by omega, ?_, (C20_fields l l1 n1 {} _ hd.split).1, hx', s1.1,
      ⟨rn, by rw [List.head?_eq_getElem?, hrn], s1.2.1⟩, by omega, _, hy, s2.1⟩
    · show l1.frags <+: l.frags
      rw [(C20_tokens l l1 n1 {} _ hd.split).2.1]
      exact List.take_prefix _ _
    · intro hh
      rw [hh] at hll
      simp at hll

end FLPR
