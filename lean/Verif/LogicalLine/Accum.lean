import Verif.FileLine.Lemmas2
import Mathlib.Data.List.Induction
/-!
# `Line_Accum` (src/flpr/Line_Accum.hh, Line_Accum.cc): model and properties (C14)
-/

namespace FLPR

/-- Line_Accum.hh:58-64. -/
structure LineAccum where
  accum : Str := []
  offs : List Int := []
  lines : List Int := []
  cols : List Int := []
  deriving DecidableEq, Repr

/-- The arguments of `add_line`. -/
structure Piece where
  line : Int
  left : Int
  col : Int
  main : Str
  right : Int
  deriving DecidableEq, Repr

/-- Line_Accum.cc:20-38 `add_line`. -/
def LineAccum.addLine (a : LineAccum) (p : Piece) : LineAccum :=
  let acc := if a.offs ≠ [] ∧ p.left > 0 then a.accum ++ [' '] else a.accum
  { accum := if p.right > 0 then acc ++ p.main ++ [' '] else acc ++ p.main
    offs := a.offs ++ [(acc.length : Int)]
    lines := a.lines ++ [p.line]
    cols := a.cols ++ [p.col] }

/-- `vector::operator[]`. -/
def vecGet (l : List Int) (i : Nat) : Res Int :=
  match l[i]? with
  | some x => .ok x
  | none => .error .ub

/-- Line_Accum.cc:70-74: the scan for the local line index. -/
def LineAccum.lli (a : LineAccum) (off : Int) : Nat :=
  (a.offs.tail.takeWhile (fun o => decide (o ≤ off))).length

/-- Line_Accum.cc:64-92 `linecolno`: `none` when it returns false, otherwise
(lineno, colno, txt_lineno, txt_colno). -/
def LineAccum.linecolno (a : LineAccum) (off : Int) : Res (Option (Int × Int × Int × Int)) :=
  if a.offs = [] then .ok none
  else do
    let o ← vecGet a.offs (a.lli off)
    if o ≤ off then do
      let ln ← vecGet a.lines (a.lli off)
      let c ← vecGet a.cols (a.lli off)
      if c + (off - o) > 0 then .ok (some (ln, c + (off - o), (a.lli off : Int), off - o))
      else .error .assertion
    else .error .assertion

/-- Line_Accum.cc:40-62: the three-argument `linecolno`. -/
def LineAccum.linecolno3 (a : LineAccum) (off : Int) : Res (Option (Int × Int)) :=
  if a.offs = [] then .ok none
  else do
    let o ← vecGet a.offs (a.lli off)
    if o ≤ off then do
      let ln ← vecGet a.lines (a.lli off)
      let c ← vecGet a.cols (a.lli off)
      if c + (off - o) > 0 then .ok (some (ln, c + (off - o)))
      else .error .assertion
    else .error .assertion

/-- All the lines added in order. -/
def accumAll (ps : List Piece) : LineAccum := ps.foldl LineAccum.addLine {}

namespace Spec

/-- The text a piece contributes before its own. -/
def leadBlank (first : Bool) (p : Piece) : Str := if first = false ∧ p.left > 0 then [' '] else []
/-- The text a piece contributes after its own. -/
def trailBlank (p : Piece) : Str := if p.right > 0 then [' '] else []

/-- The text given to the scanner: the texts of the pieces, with one blank standing for any spaces
in front of a text (but the first) and any spaces behind it. -/
def joined : Bool → List Piece → Str
  | _, [] => []
  | first, p :: ps => leadBlank first p ++ p.main ++ trailBlank p ++ joined false ps

/-- Where the text of the piece following `pre` starts. -/
def startOf (pre : List Piece) (p : Piece) : Nat :=
  (joined true pre).length + (leadBlank pre.isEmpty p).length

end Spec
open Spec

theorem joined_append (b : Bool) (xs ys : List Piece) :
    joined b (xs ++ ys) = joined b xs ++ joined (b && xs.isEmpty) ys := by
  induction xs generalizing b with
  | nil => simp [joined]
  | cons x xs ih => simp [joined, ih]

theorem accumAll_append (ps : List Piece) (p : Piece) :
    accumAll (ps ++ [p]) = (accumAll ps).addLine p := by
  simp [accumAll]

/-- The fields after any number of lines. -/
theorem accumAll_fields (ps : List Piece) :
    (accumAll ps).accum = joined true ps ∧
    (accumAll ps).lines = ps.map (·.line) ∧ (accumAll ps).cols = ps.map (·.col) ∧
    (accumAll ps).offs.length = ps.length := by
  induction ps using List.reverseRecOn with
  | nil => simp [accumAll, joined]
  | append_singleton ps p ih =>
    obtain ⟨h1, h2, h3, h4⟩ := ih
    rw [accumAll_append]
    refine ⟨?_, by simp [LineAccum.addLine, h2], by simp [LineAccum.addLine, h3],
      by simp [LineAccum.addLine, h4]⟩
    have he : ((accumAll ps).offs ≠ []) ↔ ps.isEmpty = false := by
      rw [← List.length_pos_iff, h4]
      cases ps <;> simp
    rw [joined_append]
    simp only [LineAccum.addLine, h1, he, joined, leadBlank, trailBlank, Bool.true_and,
      List.append_nil]
    by_cases c1 : ps.isEmpty = false ∧ p.left > 0 <;> by_cases c2 : p.right > 0 <;>
      simp only [c1, c2, if_true, if_false] <;> simp

theorem accumAll_offs_succ (ps : List Piece) (p : Piece) :
    (accumAll (ps ++ [p])).offs = (accumAll ps).offs ++ [(startOf ps p : Int)] := by
  rw [accumAll_append]
  obtain ⟨h1, _, _, h4⟩ := accumAll_fields ps
  have he : ((accumAll ps).offs ≠ []) ↔ ps.isEmpty = false := by
    rw [← List.length_pos_iff, h4]
    cases ps <;> simp
  simp only [LineAccum.addLine, h1, he, startOf, leadBlank]
  by_cases c1 : ps.isEmpty = false ∧ p.left > 0
  · simp [c1]
  · simp only [c1, if_false]; simp

theorem accumAll_offs_get (pre : List Piece) (p : Piece) (post : List Piece) :
    (accumAll (pre ++ p :: post)).offs[pre.length]? = some (startOf pre p : Int) := by
  induction post using List.reverseRecOn with
  | nil =>
    rw [accumAll_offs_succ, ← (accumAll_fields pre).2.2.2]
    simp
  | append_singleton post q ih =>
    have e : pre ++ p :: (post ++ [q]) = (pre ++ p :: post) ++ [q] := by simp
    rw [e, accumAll_offs_succ, List.getElem?_append_left]
    · exact ih
    · rw [(accumAll_fields _).2.2.2]; simp

theorem startOf_mono (pre : List Piece) (p : Piece) (mid : List Piece) (q : Piece) :
    startOf pre p + p.main.length ≤ startOf (pre ++ p :: mid) q := by
  unfold startOf
  rw [joined_append]
  simp only [joined, List.length_append]
  cases pre <;> simp [leadBlank] <;> omega

theorem takeWhile_length_of (f : Int → Bool) (l : List Int) (k : Nat)
    (h1 : ∀ i x, i < k → l[i]? = some x → f x = true) (hk : k ≤ l.length)
    (h2 : ∀ x, l[k]? = some x → f x = false) : (l.takeWhile f).length = k := by
  induction l generalizing k with
  | nil => simp at hk; simp [hk]
  | cons a l ih =>
    cases k with
    | zero =>
      have := h2 a (by simp)
      simp [this]
    | succ k =>
      have := h1 0 a (by omega) (by simp)
      simp only [List.takeWhile_cons, this, if_true, List.length_cons]
      rw [ih k (fun i x hi hx => h1 (i + 1) x (by omega) (by simpa using hx))
        (by simpa using hk) (fun x hx => h2 x (by simpa using hx))]

theorem accum_lli (pre : List Piece) (p : Piece) (post : List Piece) (j : Nat)
    (hj : j < p.main.length ∨ (post = [])) :
    (accumAll (pre ++ p :: post)).lli ((startOf pre p + j : Nat) : Int) = pre.length := by
  have hlen := (accumAll_fields (pre ++ p :: post)).2.2.2
  unfold LineAccum.lli
  apply takeWhile_length_of
  · intro i x hi hx
    rw [List.getElem?_tail] at hx
    obtain ⟨q, r, hq⟩ : ∃ q r, pre.drop (i + 1) ++ [p] = q :: r := by
      cases h : pre.drop (i + 1) ++ [p] with
      | nil => simp at h
      | cons q r => exact ⟨q, r, rfl⟩
    have e : pre ++ p :: post = pre.take (i + 1) ++ q :: (r ++ post) := by
      rw [← List.cons_append, ← hq]
      simp only [← List.append_assoc, List.take_append_drop]
      simp
    have hl : (pre.take (i + 1)).length = i + 1 := by simp; omega
    have := accumAll_offs_get (pre.take (i + 1)) q (r ++ post)
    rw [← e, hl, hx] at this
    simp only [Option.some.injEq] at this
    subst this
    simp only [decide_eq_true_eq]
    have hle : startOf (pre.take (i + 1)) q ≤ startOf pre p := by
      cases r with
      | nil =>
        have := congrArg List.length hq
        simp at this
        have ht : pre.take (i + 1) = pre := List.take_of_length_le (by omega)
        have hd : pre.drop (i + 1) = [] := List.drop_of_length_le (by omega)
        rw [hd] at hq
        simp at hq
        rw [ht, ← hq]
      | cons r0 rs =>
        obtain ⟨mid, hm⟩ : ∃ mid, pre = pre.take (i + 1) ++ q :: mid ∧ True := by
          cases hd : pre.drop (i + 1) with
          | nil => rw [hd] at hq; simp at hq
          | cons d ds =>
            rw [hd] at hq
            simp at hq
            refine ⟨ds, ?_, trivial⟩
            rw [← hq.1, ← hd, List.take_append_drop]
        have := startOf_mono (pre.take (i + 1)) q mid p
        rw [← hm.1] at this
        omega
    omega
  · rw [List.length_tail, hlen]; simp
  · intro x hx
    rw [List.getElem?_tail] at hx
    cases post with
    | nil =>
      rw [List.getElem?_eq_none (by rw [hlen]; simp)] at hx
      simp at hx
    | cons q post =>
      have hjl : j < p.main.length := by simpa using hj
      have := accumAll_offs_get (pre ++ [p]) q post
      have e : pre ++ p :: q :: post = (pre ++ [p]) ++ q :: post := by simp
      have hl : (pre ++ [p]).length = pre.length + 1 := by simp
      rw [← e, hl, hx] at this
      simp only [Option.some.injEq] at this
      subst this
      have := startOf_mono pre p [] q
      simp
      omega

/-- **C14** (the text) The text handed to the scanner is the concatenation of the added texts, with
one blank for any spaces before a text other than the first, and for any spaces after a text. -/
theorem C14_accum (ps : List Piece) : (accumAll ps).accum = joined true ps :=
  (accumAll_fields ps).1

/-- **C14** (the map) Every character of every added line is found in the accumulated text, and
`linecolno` applied to its offset gives back the file line, the file column, the index of the added
line and the offset in its text.  The file column of the line must be positive, as the code
asserts. -/
theorem C14_linecolno (pre : List Piece) (p : Piece) (post : List Piece) (j : Nat)
    (hj : j < p.main.length) (hcol : 0 < p.col) :
    ∃ off : Nat, (accumAll (pre ++ p :: post)).accum[off]? = p.main[j]? ∧
      off = startOf pre p + j ∧
      (accumAll (pre ++ p :: post)).linecolno off =
        .ok (some (p.line, p.col + j, (pre.length : Int), (j : Int))) ∧
      (accumAll (pre ++ p :: post)).linecolno3 off = .ok (some (p.line, p.col + j)) := by
  refine ⟨startOf pre p + j, ?_, rfl, ?_, ?_⟩
  · rw [C14_accum, joined_append]
    unfold startOf
    rw [List.getElem?_append_right (by omega)]
    simp only [joined, List.append_assoc]
    rw [List.getElem?_append_right (by simp; omega)]
    simp only [Bool.true_and]
    rw [List.getElem?_append_left (by omega)]
    congr 1
    omega
  all_goals
    obtain ⟨_, h2, h3, h4⟩ := accumAll_fields (pre ++ p :: post)
    have hlli := accum_lli pre p post j (Or.inl hj)
    have hne : (accumAll (pre ++ p :: post)).offs ≠ [] := by
      rw [← List.length_pos_iff, h4]; simp; omega
  · unfold LineAccum.linecolno
    rw [if_neg hne, hlli]
    simp only [vecGet, accumAll_offs_get, h2, h3]
    have hc : p.col + (j : Int) > 0 := by omega
    have e : ((startOf pre p + j : Nat) : Int) - (startOf pre p : Int) = j := by omega
    have e2 : (startOf pre p : Int) ≤ ((startOf pre p + j : Nat) : Int) := by omega
    simp only [Res.ok_bind, e, e2, if_true, List.getElem?_map]
    simp [hc]
  · unfold LineAccum.linecolno3
    rw [if_neg hne, hlli]
    simp only [vecGet, accumAll_offs_get, h2, h3]
    have hc : p.col + (j : Int) > 0 := by omega
    have e : ((startOf pre p + j : Nat) : Int) - (startOf pre p : Int) = j := by omega
    have e2 : (startOf pre p : Int) ≤ ((startOf pre p + j : Nat) : Int) := by omega
    simp only [Res.ok_bind, e, e2, if_true, List.getElem?_map]
    simp [hc]

/-- **C14** (offsets are distinct) Characters of different positions have different offsets, so the
map is also injective: the offset determines the line and the position. -/
theorem C14_offsets_distinct (pre : List Piece) (p : Piece) (mid : List Piece) (q : Piece)
    (i j : Nat) (hi : i < p.main.length) :
    startOf pre p + i < startOf (pre ++ p :: mid) q + j := by
  have := startOf_mono pre p mid q
  omega

/-- **C14** (nothing added) With no line added, `linecolno` reports failure. -/
theorem C14_empty (off : Int) : (accumAll []).linecolno off = .ok none := rfl

example : (accumAll [⟨3, 0, 1, "do".toList, 2⟩, ⟨4, 1, 5, "i=1".toList, 0⟩]).accum =
    "do  i=1".toList := by decide
example : (accumAll [⟨3, 0, 1, "do".toList, 2⟩, ⟨4, 1, 5, "i=1".toList, 0⟩]).linecolno 5 =
    .ok (some (4, 6, 1, 1)) := by decide

end FLPR
