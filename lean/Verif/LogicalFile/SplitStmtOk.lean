import Verif.LogicalFile.SplitStmtLemmas
/-!
# Splitting the compound lines of a file: what a successful call has done (C20)
-/

namespace FLPR
open Spec

/-! ## Lists -/

theorem f2_of_get {α β : Type} {R : α → β → Prop} {xs : List α} {ys : List β} (hl : xs.length = ys.length)
    (h : ∀ (j : Nat) x y, xs[j]? = some x → ys[j]? = some y → R x y) : List.Forall₂ R xs ys := by
  refine List.forall₂_iff_get.mpr ⟨hl, ?_⟩
  intro j h1 h2
  exact h j _ _ (List.getElem?_eq_getElem h1) (List.getElem?_eq_getElem h2)

theorem f2_get {α β : Type} {R : α → β → Prop} {xs : List α} {ys : List β} (h : List.Forall₂ R xs ys)
    {j : Nat} {x : α} {y : β} (hx : xs[j]? = some x) (hy : ys[j]? = some y) : R x y := by
  obtain ⟨h1, rfl⟩ := List.getElem?_eq_some_iff.mp hx
  obtain ⟨h2, rfl⟩ := List.getElem?_eq_some_iff.mp hy
  exact (List.forall₂_iff_get.mp h).2 j h1 h2

theorem f2_append {α β : Type} {R : α → β → Prop} {xs xs' : List α} {ys ys' : List β}
    (h : List.Forall₂ R xs ys) (h' : List.Forall₂ R xs' ys') : List.Forall₂ R (xs ++ xs') (ys ++ ys') := by
  induction h with
  | nil => exact h'
  | cons h _ ih => exact .cons h ih

theorem f2_split {α β : Type} {R : α → β → Prop} {xs : List α} {a b : List β}
    (h : List.Forall₂ R xs (a ++ b)) : ∃ xa xb, xs = xa ++ xb ∧ List.Forall₂ R xa a ∧ List.Forall₂ R xb b := by
  induction a generalizing xs with
  | nil => exact ⟨[], xs, rfl, .nil, h⟩
  | cons y ys ih =>
    cases h with
    | cons h1 h2 =>
      obtain ⟨xa, xb, rfl, h3, h4⟩ := ih h2
      exact ⟨_ :: xa, xb, rfl, .cons h1 h3, h4⟩

/-! ## A successful call -/

/-- What a successful call has done to the lines and the statements. -/
structure SplitDone (fl fl' : LFile) (pos : Nat) (A : List LLine) (l : LLine) (B : List LLine)
    (l1 n1 : LLine) (idx : Nat) (r : Nat × Nat) : Prop where
  lines : fl.lines = A ++ l :: B
  at_ : pos = (places 0 A).length + (idx + 1)
  num : idx + 1 < l.stmts.length
  range : l.stmts[idx]? = some r
  split : l.splitAfter (r.2 - 1) {} = .ok (true, l1, n1)
  left : l1.initStmts.stmts = l.stmts.take (idx + 1)
  right : n1.initStmts.stmts.length = l.stmts.length - (idx + 1)
  semi : ∃ t, l.frags[r.2 - 1 + 1]? = some t ∧ t.token = Tag.TK_SEMICOLON
  lines' : fl'.lines = A ++ l1.initStmts :: n1.initStmts :: B
  stmts' : ∃ xs, xs = (fl.stmts.map (·.cut A.length (r.2 - 1) l.frags.length)).map (·.bump A.length) ∧
    fl'.stmts = xs.take pos ++ (List.zipWith FStmt.update ((xs.drop pos).take (l.stmts.length - (idx + 1)))
      (lineStmts (A.length + 1) n1.label (if n1.initStmts.stmts.length > 1 then 1 else 0) [] n1.initStmts.stmts) ++
      (xs.drop pos).drop (l.stmts.length - (idx + 1)))

/-- The last token of a statement that is not the last of its line is followed by a semicolon. -/
theorem stmt_then_semi {l : LLine} (hs : l.stmts = l.initStmts.stmts) {idx : Nat} {r : Nat × Nat}
    (hr : l.stmts[idx]? = some r) (hn : idx + 1 < l.stmts.length) :
    r.1 < r.2 ∧ r.2 < l.frags.length ∧ ∃ t, l.frags[r.2]? = some t ∧ t.token = Tag.TK_SEMICOLON := by
  obtain ⟨hpw, hmr⟩ := C16_ranges l
  rw [← hs] at hpw hmr
  obtain ⟨m1, m2, _, _, m5⟩ := (hmr r).mp (List.mem_of_getElem? hr)
  obtain ⟨k1, _, _, _, _⟩ := (hmr _).mp (List.getElem_mem hn)
  have h5 := List.getElem?_eq_some_iff.mp hr
  have h6 := (List.pairwise_iff_getElem.mp hpw) idx (idx + 1) h5.1 hn (by omega)
  have k2 := ((hmr _).mp (List.getElem_mem hn)).2.1
  rw [h5.2] at h6
  refine ⟨m1, by omega, ?_⟩
  rcases m5 with m5 | m5
  · omega
  · exact m5

theorem refill_new {A B : List LLine} {l n : LLine} (hn : n.stmts ≠ []) (h1 : n.suppress = false)
    (h2 : n.cat = .unknown) :
    StmtSrc.refill (A ++ l :: n :: B) ⟨A.length + 1, [], 0⟩ = .ok ⟨A.length + 2,
      lineStmts (A.length + 1) n.label (if n.stmts.length > 1 then 1 else 0) [] n.stmts, 0⟩ := by
  unfold StmtSrc.refill
  have e1 : (A ++ l :: n :: B).drop (A.length + 1) = n :: B := by
    rw [show A ++ l :: n :: B = (A ++ [l]) ++ n :: B by simp, List.drop_left' (by simp)]
  have e2 : (A ++ l :: n :: B)[A.length + 1]? = some n := by
    rw [List.getElem?_append_right (by omega)]; simp
  dsimp only
  rw [e1]
  have e3 : skipPrefix (A.length + 1) (n :: B) = ([], A.length + 1) := by
    unfold skipPrefix; rw [if_neg hn]
  rw [e3]
  dsimp only
  rw [e2]
  dsimp only
  rw [h1, h2]
  simp

/-- The statement to split before, and the one in front of it. -/
theorem locate_compound {fl : LFile} (hc : Consistent fl) {pos : Nat} {x : FStmt} (hx : fl.stmts[pos]? = some x)
    (h2 : ¬ x.s.compound < 2) :
    ∃ A l B idx r r', fl.lines = A ++ l :: B ∧ pos = (places 0 A).length + (idx + 1) ∧
      idx + 1 < l.stmts.length ∧ l.stmts[idx]? = some r ∧ l.stmts[idx + 1]? = some r' ∧
      x.s.line = some A.length ∧ x.s.compound = idx + 2 ∧
      ∃ prev, fl.stmts[pos - 1]? = some prev ∧ prev.s.line = some A.length ∧ prev.s.range = some r ∧
        prev.s.compound = idx + 1 ∧ prev.live = true := by
  have hlen := hc.stmts.length_eq
  have hp := (List.getElem?_eq_some_iff.mp hx).1
  obtain ⟨q, hq⟩ : ∃ q, (places 0 fl.lines)[pos]? = some q := ⟨_, List.getElem?_eq_getElem (by omega)⟩
  obtain ⟨s1, s2, s3, s4, s5⟩ := f2_get hc.stmts hx hq
  obtain ⟨A, l, B, e1, e2, e3, e4, e5, e6⟩ := places_locate hq
  have hcomp : x.s.compound = q.idx + 1 := by
    rcases s4 with s4 | s4
    · exact s4
    · omega
  obtain ⟨idx, hidx⟩ : ∃ idx, q.idx = idx + 1 := ⟨q.idx - 1, by omega⟩
  obtain ⟨r, hr⟩ : ∃ r, l.stmts[idx]? = some r := ⟨_, List.getElem?_eq_getElem (by omega)⟩
  obtain ⟨prev, hprev⟩ : ∃ prev, fl.stmts[pos - 1]? = some prev := ⟨_, List.getElem?_eq_getElem (by omega)⟩
  have hq' : (places 0 fl.lines)[pos - 1]? = some ⟨A.length, r, idx, l.stmts.length, if idx = 0 then l.label else 0⟩ := by
    rw [e1, places_append, List.getElem?_append_right (by omega)]
    simp only [places]
    rw [List.getElem?_append_left (by rw [linePlaces_length]; omega), linePlaces_get,
      show pos - 1 - (places 0 A).length = idx by omega, hr]
    simp
  obtain ⟨t1, t2, t3, t4, t5⟩ := f2_get hc.stmts hprev hq'
  dsimp only at t1 t2 t3 t4 t5
  refine ⟨A, l, B, idx, r, q.range, e1, by omega, by omega, hr, by rw [← hidx]; exact e6,
    by rw [s1, e2]; simp, by rw [hcomp, hidx]; push_cast; omega, prev, hprev, t1, t2, ?_, ?_⟩
  · rcases t4 with t4 | t4
    · exact t4
    · omega
  · cases hl : prev.live with
    | true => rfl
    | false => have := t5 hl; omega

theorem splitBefore_done {fl fl' : LFile} {pos : Nat} (hc : Consistent fl)
    (h : fl.splitBefore pos = .ok (true, fl')) : ∃ A l B l1 n1 idx r, SplitDone fl fl' pos A l B l1 n1 idx r := by
  unfold LFile.splitBefore at h
  by_cases hlast : pos = fl.stmts.length
  · rw [if_pos hlast] at h; simp at h
  · rw [if_neg hlast] at h
    cases hx : fl.stmts[pos]? with
    | none => rw [hx] at h; simp at h
    | some x =>
      rw [hx] at h
      dsimp only at h
      by_cases h2 : x.s.compound < 2
      · rw [if_pos h2] at h; simp at h
      · rw [if_neg h2] at h
        obtain ⟨A, l, B, idx, r, r', e1, e2, e3, e4, e5, e6, e7, prev, p1, p2, p3, p4, p5⟩ :=
          locate_compound hc hx h2
        rw [if_neg (by omega), p1] at h
        dsimp only at h
        rbind h with e he
        split at h
        · simp at h
        split at h
        · simp at h
        rbind h with p hp
        rbind h with p' hp'
        split at h
        · simp at h
        have hpA : p = A.length := by
          unfold FStmt.it at hp; rw [p2] at hp; simpa using hp.symm
        subst hpA
        have hl : fl.lines[A.length]? = some l := by rw [e1]; simp
        rw [hl, p3] at h
        dsimp only at h
        rbind h with z hz
        obtain ⟨b, l1, n1⟩ := z
        dsimp only at h
        split at h
        · simp at h
        rename_i hb
        have hb : b = true := by simpa using hb
        subst hb
        split at h
        · simp at h
        split at h
        · simp at h
        rename_i hl1 hn1
        split at h
        · simp at h
        rename_i hnum
        have hls : l.stmts = l.initStmts.stmts := hc.lines l (by rw [e1]; simp)
        obtain ⟨m1, m2, t, m3, m4⟩ := stmt_then_semi hls e4 e3
        have hfields := C20_fields l l1 n1 {} (r.2 - 1) hz
        have hnf := hfields.2.2.2.2.2.2
        have hsup : n1.initStmts.suppress = false := by
          show n1.suppress = false
          rw [hnf]
        have hcat : n1.initStmts.cat = .unknown := by
          show n1.cat = .unknown
          rw [hnf]
        have hdrop : fl.lines.take A.length ++ l1.initStmts :: n1.initStmts :: fl.lines.drop (A.length + 1) =
            A ++ l1.initStmts :: n1.initStmts :: B := by
          rw [e1, List.take_left' rfl, show A ++ l :: B = (A ++ [l]) ++ B by simp,
            List.drop_left' (by simp)]
        rw [hdrop, refill_new hn1 hsup hcat] at h
        simp only [Res.ok_bind] at h
        rbind h with ys hys
        rw [lineStmts_len, if_neg (by simp)] at h
        simp only [Except.ok.injEq, Prod.mk.injEq, true_and] at h
        subst h
        have hsemi : l.frags[r.2 - 1 + 1]? = some t := by rw [show r.2 - 1 + 1 = r.2 by omega]; exact m3
        have hleft : l1.initStmts.stmts = l.stmts.take (idx + 1) := by
          show (initStmtsGo 0 none l1.frags).1 = _
          exact stmts_take l l1.frags t (r.2 - 1) idx r hls e4 (by omega) hsemi m4
            (C20_tokens l l1 n1 {} _ hz).2.1
        have hright : n1.initStmts.stmts.length = l.stmts.length - (idx + 1) := by
          have := congrArg List.length hleft
          rw [List.length_take] at this
          omega
        refine ⟨A, l, B, l1, n1, idx, r, e1, e2, e3, e4, hz, hleft, hright, ⟨t, hsemi, m4⟩, rfl, _, rfl, ?_⟩
        obtain ⟨_, u2⟩ := updateStmts_ok hys
        rw [lineStmts_len, hright] at u2
        dsimp only
        rw [u2, hright]
        rfl

/-! ## The statements in four groups -/

theorem stands_bump_le {x : FStmt} {q : Place} {p : Nat} (h : Stands x q) (hp : q.line ≤ p) :
    Stands (x.bump p) q := by
  obtain ⟨h1, h2, h3, h4, h5⟩ := h
  refine ⟨?_, h2, h3, h4, h5⟩
  simp only [FStmt.bump, h1, Option.map_some, bumpPos]
  rw [if_neg (by omega)]

theorem stands_bump_gt {x : FStmt} {q : Place} {p : Nat} (h : Stands x q) (hp : p < q.line) :
    Stands (x.bump p) { q with line := q.line + 1 } := by
  obtain ⟨h1, h2, h3, h4, h5⟩ := h
  refine ⟨?_, h2, h3, h4, h5⟩
  simp only [FStmt.bump, h1, Option.map_some, bumpPos]
  rw [if_pos (by omega)]

theorem cutStmt_same {x : FStmt} {p i len : Nat} (h : x.s.line ≠ some p) : x.cut p i len = x := by
  unfold FStmt.cut
  split
  · rename_i q r hq hr
    rw [if_neg]
    rintro ⟨rfl, _⟩
    exact h hq
  · rfl

theorem cutStmt_parts (x : FStmt) (p i len : Nat) : (x.cut p i len).s = x.s ∧ (x.cut p i len).tag = x.tag ∧
    ((x.cut p i len).live = false → x.live = false ∨ ∃ r, x.s.range = some r ∧ i < r.2 ∧ r.2 < len) := by
  unfold FStmt.cut
  split
  · rename_i q r hq hr
    split
    · rename_i hc
      exact ⟨rfl, rfl, fun _ => Or.inr ⟨r, hr, hc.2.1, hc.2.2⟩⟩
    · exact ⟨rfl, rfl, Or.inl⟩
  · exact ⟨rfl, rfl, Or.inl⟩

theorem places_shift (p : Nat) (B : List LLine) :
    places (p + 1) B = (places p B).map (fun q => { q with line := q.line + 1 }) := by
  induction B generalizing p with
  | nil => rfl
  | cons l ls ih =>
    simp only [places, List.map_append, ih]
    congr 1
    have : ∀ (num : Nat) (lab : Int) (k : Nat) (rs : List (Nat × Nat)),
        linePlaces (p + 1) num lab k rs = (linePlaces p num lab k rs).map (fun q => { q with line := q.line + 1 }) := by
      intro num lab k rs
      induction rs generalizing k with
      | nil => rfl
      | cons r rs ih => simp [linePlaces, ih]
    exact this _ _ _ _

/-- The statements before and after, in four groups: those of the lines in front, those that stay on the
line, those that move to the new line, and those of the lines behind. -/
theorem SplitDone.groups {fl fl' : LFile} {pos : Nat} {A : List LLine} {l : LLine} {B : List LLine}
    {l1 n1 : LLine} {idx : Nat} {r : Nat × Nat} (h : SplitDone fl fl' pos A l B l1 n1 idx r)
    (hc : Consistent fl) :
    ∃ SA S1 S2 SB, fl.stmts = SA ++ (S1 ++ (S2 ++ SB)) ∧
      List.Forall₂ Stands SA (places 0 A) ∧
      List.Forall₂ Stands S1 (linePlaces A.length l.stmts.length l.label 0 (l.stmts.take (idx + 1))) ∧
      List.Forall₂ Stands S2 (linePlaces A.length l.stmts.length l.label (idx + 1) (l.stmts.drop (idx + 1))) ∧
      List.Forall₂ Stands SB (places (A.length + 1) B) ∧
      fl'.stmts = SA.map (·.bump A.length) ++
        (S1.map (fun x => (x.cut A.length (r.2 - 1) l.frags.length).bump A.length) ++
        (List.zipWith FStmt.update (S2.map (fun x => (x.cut A.length (r.2 - 1) l.frags.length).bump A.length))
          (lineStmts (A.length + 1) n1.label (if n1.initStmts.stmts.length > 1 then 1 else 0) [] n1.initStmts.stmts) ++
        SB.map (·.bump A.length))) := by
  have hst := hc.stmts
  have hnum := h.num
  rw [h.lines, places_append] at hst
  simp only [places, Nat.zero_add] at hst
  have e : linePlaces A.length l.stmts.length l.label 0 l.stmts =
      linePlaces A.length l.stmts.length l.label 0 (l.stmts.take (idx + 1)) ++
      linePlaces A.length l.stmts.length l.label (idx + 1) (l.stmts.drop (idx + 1)) := by
    have h0 := linePlaces_append A.length l.stmts.length l.label 0 (l.stmts.take (idx + 1)) (l.stmts.drop (idx + 1))
    rw [List.take_append_drop, List.length_take, show 0 + min (idx + 1) l.stmts.length = idx + 1 by omega] at h0
    exact h0
  rw [e, List.append_assoc] at hst
  obtain ⟨SA, S', e1, f1, f2⟩ := f2_split hst
  obtain ⟨S1, S'', e2, f3, f4⟩ := f2_split f2
  obtain ⟨S2, SB, e3, f5, f6⟩ := f2_split f4
  subst e3 e2
  refine ⟨SA, S1, S2, SB, e1, f1, f3, f5, f6, ?_⟩
  have hSA : SA.map (·.cut A.length (r.2 - 1) l.frags.length) = SA := by
    conv_rhs => rw [← List.map_id SA]
    apply List.map_congr_left
    intro x hx
    obtain ⟨j, hj, hx⟩ := List.mem_iff_getElem.mp hx
    have hj' : j < (places 0 A).length := by rw [← f1.length_eq]; exact hj
    have hq := f2_get f1 (j := j) (x := x) (by rw [List.getElem?_eq_getElem hj, hx]) (List.getElem?_eq_getElem hj')
    have hb := places_line_bounds _ (List.getElem_mem hj')
    apply cutStmt_same
    rw [hq.1]
    intro hh
    have := Option.some.inj hh
    omega
  have hSB : SB.map (·.cut A.length (r.2 - 1) l.frags.length) = SB := by
    conv_rhs => rw [← List.map_id SB]
    apply List.map_congr_left
    intro x hx
    obtain ⟨j, hj, hx⟩ := List.mem_iff_getElem.mp hx
    have hj' : j < (places (A.length + 1) B).length := by rw [← f6.length_eq]; exact hj
    have hq := f2_get f6 (j := j) (x := x) (by rw [List.getElem?_eq_getElem hj, hx]) (List.getElem?_eq_getElem hj')
    have hb := places_line_bounds _ (List.getElem_mem hj')
    apply cutStmt_same
    rw [hq.1]
    intro hh
    have := Option.some.inj hh
    omega
  obtain ⟨xs, hxs, hst'⟩ := h.stmts'
  have l1' := f1.length_eq
  have l2' := f3.length_eq
  have l3' := f5.length_eq
  rw [linePlaces_length, List.length_take] at l2'
  rw [linePlaces_length, List.length_drop] at l3'
  have hxs' : xs = (SA.map (·.bump A.length) ++ S1.map (fun x => (x.cut A.length (r.2 - 1) l.frags.length).bump A.length)) ++
      (S2.map (fun x => (x.cut A.length (r.2 - 1) l.frags.length).bump A.length) ++ SB.map (·.bump A.length)) := by
    rw [hxs, e1]
    simp only [List.map_append]
    rw [hSA, hSB]
    simp only [List.map_map, List.append_assoc]
    rfl
  have hat := h.at_
  have t1 : xs.take pos = SA.map (·.bump A.length) ++ S1.map (fun x => (x.cut A.length (r.2 - 1) l.frags.length).bump A.length) := by
    rw [hxs', List.take_left' (by simp; omega)]
  have t2 : xs.drop pos = S2.map (fun x => (x.cut A.length (r.2 - 1) l.frags.length).bump A.length) ++ SB.map (·.bump A.length) := by
    rw [hxs', List.drop_left' (by simp; omega)]
  rw [hst', t1, t2, List.take_left' (by simp; omega), List.drop_left' (by simp; omega)]
  simp only [List.append_assoc]

end FLPR
