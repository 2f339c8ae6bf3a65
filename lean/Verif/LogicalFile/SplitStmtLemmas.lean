import Verif.LogicalFile.SplitStmt
import Verif.LogicalLine.SplitMore
/-!
# Splitting the compound lines of a file: specification and helper lemmas (C20)
-/

namespace FLPR
open Spec

namespace Spec

/-- Where a statement stands: its line, its tokens, the number of statements in front of it on that line,
the number of all statements there, and the label it has. -/
structure Place where
  line : Nat
  range : Nat × Nat
  idx : Nat
  num : Nat
  label : Int

def linePlaces (p num : Nat) (label : Int) : Nat → List (Nat × Nat) → List Place
  | _, [] => []
  | k, r :: rs => ⟨p, r, k, num, if k = 0 then label else 0⟩ :: linePlaces p num label (k + 1) rs

/-- The places of all statements of the lines, the first of which is line `p`. -/
def places : Nat → List LLine → List Place
  | _, [] => []
  | p, l :: ls => linePlaces p l.stmts.length l.label 0 l.stmts ++ places (p + 1) ls

/-- A statement record is right about its place.  The number in a compound line may remain when the
line is no longer compound; and the end iterator of the last statement of a line may be lost. -/
def Stands (x : FStmt) (q : Place) : Prop :=
  x.s.line = some q.line ∧ x.s.range = some q.range ∧ x.s.label = q.label ∧
  (x.s.compound = q.idx + 1 ∨ (x.s.compound = 0 ∧ q.num = 1)) ∧ (x.live = false → q.idx + 1 = q.num)

/-- The statements of a file are those of its lines, and their prefixes are lines without statements. -/
structure Consistent (fl : LFile) : Prop where
  lines : ∀ l ∈ fl.lines, l.stmts = l.initStmts.stmts
  stmts : List.Forall₂ Stands fl.stmts (places 0 fl.lines)
  pre : ∀ x ∈ fl.stmts, ∀ q ∈ x.s.pre, ∃ l, fl.lines[q]? = some l ∧ l.stmts = []

/-- The tokens of a statement. -/
def stmtToks (fl : LFile) (x : FStmt) : Option (List Tok) :=
  match x.s.line, x.s.range with
  | some p, some r => (fl.lines[p]?).map (fun l => slice l.frags r)
  | _, _ => none

end Spec
open Spec

/-! ## Places -/

theorem linePlaces_length (p num : Nat) (lab : Int) (k : Nat) (rs : List (Nat × Nat)) :
    (linePlaces p num lab k rs).length = rs.length := by
  induction rs generalizing k with
  | nil => rfl
  | cons r rs ih => simp [linePlaces, ih]

theorem linePlaces_get (p num : Nat) (lab : Int) (k : Nat) (rs : List (Nat × Nat)) (j : Nat) :
    (linePlaces p num lab k rs)[j]? =
      (rs[j]?).map (fun r => ⟨p, r, k + j, num, if k + j = 0 then lab else 0⟩) := by
  induction rs generalizing k j with
  | nil => simp [linePlaces]
  | cons r rs ih =>
    cases j with
    | zero => simp [linePlaces]
    | succ j =>
      simp only [linePlaces, List.getElem?_cons_succ, ih]
      rw [show k + 1 + j = k + (j + 1) by omega]

theorem linePlaces_append (p num : Nat) (lab : Int) (k : Nat) (a b : List (Nat × Nat)) :
    linePlaces p num lab k (a ++ b) = linePlaces p num lab k a ++ linePlaces p num lab (k + a.length) b := by
  induction a generalizing k with
  | nil => simp [linePlaces]
  | cons r rs ih =>
    simp only [List.cons_append, linePlaces, ih, List.length_cons]
    rw [show k + 1 + rs.length = k + (rs.length + 1) by omega]

theorem places_append (p : Nat) (a b : List LLine) :
    places p (a ++ b) = places p a ++ places (p + a.length) b := by
  induction a generalizing p with
  | nil => simp [places]
  | cons l ls ih =>
    simp only [List.cons_append, places, ih, List.length_cons, List.append_assoc]
    rw [show p + 1 + ls.length = p + (ls.length + 1) by omega]

/-- A place is on one of the lines. -/
theorem places_locate {p : Nat} {lines : List LLine} {pos : Nat} {q : Place}
    (h : (places p lines)[pos]? = some q) :
    ∃ A l B, lines = A ++ l :: B ∧ q.line = p + A.length ∧ q.idx < l.stmts.length ∧
      pos = (places p A).length + q.idx ∧ q.num = l.stmts.length ∧ l.stmts[q.idx]? = some q.range := by
  induction lines generalizing p pos with
  | nil => simp [places] at h
  | cons l ls ih =>
    simp only [places] at h
    by_cases hp : pos < (linePlaces p l.stmts.length l.label 0 l.stmts).length
    · rw [List.getElem?_append_left hp, linePlaces_get] at h
      rw [linePlaces_length] at hp
      simp only [Option.map_eq_some_iff] at h
      obtain ⟨r, hr, rfl⟩ := h
      refine ⟨[], l, ls, rfl, by simp, ?_, ?_, rfl, ?_⟩
      · simpa using hp
      · simp [places]
      · simpa using hr
    · rw [List.getElem?_append_right (by omega)] at h
      obtain ⟨A, l1, B, e1, e2, e3, e4, e5, e6⟩ := ih h
      refine ⟨l :: A, l1, B, by rw [e1]; rfl, by rw [e2, List.length_cons]; omega, e3, ?_, e5, e6⟩
      simp only [places, List.length_append]
      omega

theorem places_line_bounds {p : Nat} {lines : List LLine} : ∀ q ∈ places p lines,
    p ≤ q.line ∧ q.line < p + lines.length := by
  intro q hq
  obtain ⟨j, hj, hq⟩ := List.mem_iff_getElem.mp hq
  obtain ⟨A, l, B, e1, e2, _⟩ := places_locate (p := p) (lines := lines) (pos := j) (q := q)
    (by rw [List.getElem?_eq_getElem hj, hq])
  have := congrArg List.length e1
  simp at this
  omega

/-! ## The list of statements of a line -/

theorem initStmtsGo_append (a b : List Tok) (t : Tok) (ht : t.isSemi = true) (k : Nat) (beg : Option Nat) :
    (initStmtsGo k beg (a ++ t :: b)).1 =
      (initStmtsGo k beg a).1 ++ (initStmtsGo (k + a.length + 1) none b).1 := by
  induction a generalizing k beg with
  | nil =>
    cases beg with
    | none => simp [initStmtsGo, ht]
    | some v => by_cases hv : v = k <;> simp [initStmtsGo, ht, hv]
  | cons u us ih =>
    simp only [List.cons_append, initStmtsGo, List.length_cons]
    have e : k + 1 + us.length + 1 = k + (us.length + 1) + 1 := by omega
    by_cases hu : u.isSemi = true
    · simp only [hu, if_true, ih, e]
      split <;> simp
    · simp only [hu, Bool.false_eq_true, if_false, ih, e]

theorem initStmtsGo_lower (ts : List Tok) (k : Nat) (beg : Option Nat) (hb : beg.getD k ≤ k) :
    ∀ r ∈ (initStmtsGo k beg ts).1, beg.getD k ≤ r.1 := by
  induction ts generalizing k beg with
  | nil =>
    intro r hr
    cases beg with
    | none => simp [initStmtsGo] at hr
    | some b =>
      simp only [initStmtsGo] at hr
      split at hr
      · simp at hr; subst hr; simp
      · simp at hr
  | cons u us ih =>
    intro r hr
    simp only [initStmtsGo] at hr
    split at hr
    · have h2 : ∀ r ∈ (initStmtsGo (k + 1) none us).1, beg.getD k ≤ r.1 := by
        intro r hr
        have := ih (k + 1) none (by simp) r hr
        simp at this
        omega
      split at hr
      · rcases List.mem_cons.mp hr with rfl | hr
        · simp
        · exact h2 r hr
      · exact h2 r hr
    · have := ih (k + 1) (some (beg.getD k)) (by simp; omega) r hr
      simpa using this

/-- The statements of the tokens in front of a semicolon are the first ones. -/
theorem stmts_take (l : LLine) (ts : List Tok) (t : Tok) (i idx : Nat) (r : Nat × Nat)
    (hs : l.stmts = l.initStmts.stmts) (hr : l.stmts[idx]? = some r) (hi : r.2 = i + 1)
    (ht : l.frags[i + 1]? = some t) (hsemi : t.token = Tag.TK_SEMICOLON)
    (hts : ts = l.frags.take (i + 1)) :
    (initStmtsGo 0 none ts).1 = l.stmts.take (idx + 1) := by
  have hlt := List.getElem?_eq_some_iff.mp ht
  have hcut : l.frags = ts ++ t :: l.frags.drop (i + 2) := by
    rw [hts]
    conv_lhs => rw [← List.take_append_drop (i + 1) l.frags, List.drop_eq_getElem_cons hlt.1, hlt.2]
  have hlen : ts.length = i + 1 := by have := hlt.1; rw [hts, List.length_take]; omega
  have happ : l.stmts = (initStmtsGo 0 none ts).1 ++ (initStmtsGo (i + 2) none (l.frags.drop (i + 2))).1 := by
    rw [hs]
    show (initStmtsGo 0 none l.frags).1 = _
    conv_lhs => rw [hcut]
    rw [initStmtsGo_append _ _ _ ((isSemi_iff t).mpr hsemi), hlen]
    simp
  have hlow := initStmtsGo_lower (l.frags.drop (i + 2)) (i + 2) none (by simp)
  have hup : ∀ q ∈ (initStmtsGo 0 none ts).1, q.2 ≤ i + 1 := by
    intro q hq
    have := ((C16_ranges { frags := ts }).2 q).mp hq
    have h2 := this.2.1
    dsimp only at h2
    omega
  have hpw := (C16_ranges l).1
  have hmr := fun q => ((C16_ranges l).2 q)
  rw [← hs] at hpw hmr
  generalize (initStmtsGo 0 none ts).1 = a at *
  generalize (initStmtsGo (i + 2) none (l.frags.drop (i + 2))).1 = b at *
  have hrm : r ∈ l.stmts := List.mem_of_getElem? hr
  have hrlt := ((hmr r).mp hrm).1
  -- `r` is the last of `a`
  have h1 : idx < a.length := by
    by_contra hc
    rw [happ, List.getElem?_append_right (by omega)] at hr
    have := hlow r (List.mem_of_getElem? hr)
    simp at this
    omega
  have h2 : a.length ≤ idx + 1 := by
    by_contra hc
    have h3 : idx + 1 < a.length := by omega
    have h4 : idx + 1 < l.stmts.length := by rw [happ, List.length_append]; omega
    have h5 := List.getElem?_eq_some_iff.mp hr
    have h6 := (List.pairwise_iff_getElem.mp hpw) idx (idx + 1) (by omega) h4 (by omega)
    rw [h5.2] at h6
    have h7 : l.stmts[idx + 1] = a[idx + 1] := by
      simp only [happ]; rw [List.getElem_append_left h3]
    have h8 := hup _ (List.getElem_mem h3)
    have h9 := ((hmr _).mp (List.getElem_mem h4)).1
    rw [h7] at h6 h9
    omega
  rw [happ, show idx + 1 = a.length by omega, List.take_left' rfl]

/-! ## The loop over the statements of the new line -/

theorem lineStmts_get (i : Nat) (label c : Int) (rs : List (Nat × Nat)) (j : Nat) :
    (lineStmts i label c [] rs)[j]? = (rs[j]?).map (fun r => { line := some i, range := some r, label := if j = 0 then label else 0, compound := c + j, pre := [] }) := by
  induction rs generalizing label c j with
  | nil => simp [lineStmts]
  | cons r rs ih =>
    cases j with
    | zero => simp [lineStmts]
    | succ j =>
      simp only [lineStmts, List.getElem?_cons_succ, ih]
      cases hr : rs[j]? with
      | none => rfl
      | some r' =>
        simp only [Option.map_some, Option.some.injEq, LLStmt.mk.injEq]
        refine ⟨trivial, trivial, ?_, ?_, trivial⟩
        · split <;> simp
        · push_cast; omega

theorem lineStmts_len (i : Nat) (label c : Int) (pre : List Nat) (rs : List (Nat × Nat)) :
    (lineStmts i label c pre rs).length = rs.length := by
  induction rs generalizing label c pre with
  | nil => rfl
  | cons r rs ih => simp [lineStmts, ih]

theorem updateStmts_ok {p : Nat} {ys : List LLStmt} {xs zs : List FStmt}
    (h : updateStmts p ys xs = .ok zs) :
    ys.length ≤ xs.length ∧
      zs = List.zipWith FStmt.update (xs.take ys.length) ys ++ xs.drop ys.length := by
  induction ys generalizing xs zs with
  | nil => simp [updateStmts] at h; subst h; simp
  | cons y ys ih =>
    cases xs with
    | nil => simp [updateStmts] at h
    | cons x xs =>
      unfold updateStmts at h
      rbind h with q hq
      split at h
      · simp at h
      · dsimp only at h
        rbind h with q' hq'
        split at h
        · simp at h
        · rbind h with r hr
          injection h with h
          subst h
          obtain ⟨h1, h2⟩ := ih hr
          refine ⟨by simpa using h1, ?_⟩
          simp [h2]

theorem updateStmts_of {p : Nat} {ys : List LLStmt} {xs : List FStmt} (hl : ys.length ≤ xs.length)
    (hx : ∀ x ∈ xs.take ys.length, x.s.line = some p) (hy : ∀ y ∈ ys, y.line = some (p + 1)) :
    ∃ zs, updateStmts p ys xs = .ok zs := by
  induction ys generalizing xs with
  | nil => exact ⟨_, rfl⟩
  | cons y ys ih =>
    cases xs with
    | nil => simp at hl
    | cons x xs =>
      obtain ⟨zs, hz⟩ := ih (xs := xs) (by simpa using hl)
        (fun v hv => hx v (by simp [hv])) (fun v hv => hy v (by simp [hv]))
      unfold updateStmts
      have e1 : x.it = .ok p := by unfold FStmt.it; rw [hx x (by simp)]
      have e2 : (x.update y).it = .ok (p + 1) := by
        unfold FStmt.it FStmt.update; dsimp only; rw [hy y (by simp)]
      rw [e1]
      simp only [Res.ok_bind]
      rw [if_neg (by simp), e2]
      simp only [Res.ok_bind]
      rw [if_neg (by simp), hz]
      exact ⟨_, rfl⟩

end FLPR
