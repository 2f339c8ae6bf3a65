import Verif.LogicalFile.SplitStmtProps
import Verif.LogicalFile.StmtSrcProps
import Verif.LogicalLine.SplitEx
/-!
# Splitting the compound lines of a file: refusals, isolation, files as they are read (C20)
-/

namespace FLPR
open Spec

/-! ## Refusal -/

/-- **C20** When `split_compound_before` returns false, the file has not changed, and the position is the end
or the statement is the first of its line. -/
theorem C20_file_false (fl fl' : LFile) (pos : Nat) (hc : Consistent fl)
    (h : fl.splitBefore pos = .ok (false, fl')) :
    fl' = fl ∧ ∀ q, (places 0 fl.lines)[pos]? = some q → q.idx = 0 := by
  unfold LFile.splitBefore at h
  by_cases hlast : pos = fl.stmts.length
  · rw [if_pos hlast] at h
    simp only [Except.ok.injEq, Prod.mk.injEq, true_and] at h
    refine ⟨h.symm, fun q hq => ?_⟩
    have := (List.getElem?_eq_some_iff.mp hq).1
    rw [← hc.stmts.length_eq] at this
    omega
  · rw [if_neg hlast] at h
    cases hx : fl.stmts[pos]? with
    | none => rw [hx] at h; simp at h
    | some x =>
      rw [hx] at h
      dsimp only at h
      by_cases h2 : x.s.compound < 2
      · rw [if_pos h2] at h
        simp only [Except.ok.injEq, Prod.mk.injEq, true_and] at h
        refine ⟨h.symm, fun q hq => ?_⟩
        obtain ⟨_, _, _, s4, _⟩ := f2_get hc.stmts hx hq
        obtain ⟨A, l, B, _, _, e3, _, e5, _⟩ := places_locate hq
        rcases s4 with s4 | s4
        · omega
        · omega
      · rw [if_neg h2] at h
        exfalso
        split at h
        · simp at h
        split at h
        · simp at h
        rbind h with e he
        split at h
        · simp at h
        split at h
        · simp at h
        rbind h with p hp
        rbind h with p' hp'
        split at h
        · simp at h
        split at h
        · rbind h with z hz
          split at h
          · simp at h
          split at h
          · simp at h
          split at h
          · simp at h
          split at h
          · simp at h
          rbind h with src hsrc
          rbind h with ys hys
          split at h
          · simp at h
          · simp at h
        · simp at h

/-! ## A call that does not fail -/

/-- **C20** None of the assertions of `split_compound_before` fails when the line can be split. -/
theorem C20_file_defined (fl : LFile) (pos : Nat) (hc : Consistent fl) (x : FStmt)
    (hx : fl.stmts[pos]? = some x) (h2 : 2 ≤ x.s.compound) :
    ∃ prev p l r, 0 < pos ∧ fl.stmts[pos - 1]? = some prev ∧ prev.s.line = some p ∧ x.s.line = some p ∧
      fl.lines[p]? = some l ∧ prev.s.range = some r ∧ r.1 < r.2 ∧
      (∃ t, l.frags[r.2]? = some t ∧ t.token = Tag.TK_SEMICOLON) ∧
      (∀ l1 n1, l.splitAfter (r.2 - 1) {} = .ok (true, l1, n1) → ∃ fl', fl.splitBefore pos = .ok (true, fl')) ∧
      (∀ l1 n1, l.splitAfter (r.2 - 1) {} = .ok (false, l1, n1) → fl.splitBefore pos = .error .assertion) ∧
      (∀ e, l.splitAfter (r.2 - 1) {} = .error e → fl.splitBefore pos = .error e) := by
  obtain ⟨A, l, B, idx, r, r', e1, e2, e3, e4, e5, e6, e7, prev, p1, p2, p3, p4, p5⟩ :=
    locate_compound hc hx (by omega)
  have hls : l.stmts = l.initStmts.stmts := hc.lines l (by rw [e1]; simp)
  obtain ⟨m1, m2, t, m3, m4⟩ := stmt_then_semi hls e4 e3
  have hl : fl.lines[A.length]? = some l := by rw [e1]; simp
  have hpos := (List.getElem?_eq_some_iff.mp hx).1
  have hempty : prev.empty = .ok false := by
    unfold FStmt.empty; rw [p3]; dsimp only; rw [p5]; simp; omega
  have hit : prev.it = .ok A.length := by unfold FStmt.it; rw [p2]
  have hit' : x.it = .ok A.length := by unfold FStmt.it; rw [e6]
  have hred : fl.splitBefore pos = (do
      let z ← l.splitAfter (r.2 - 1) {}
      if ¬ z.1 then .error .assertion
      else
        let l' := z.2.1.initStmts
        let n := z.2.2.initStmts
        if l'.stmts = [] then .error .assertion
        else if n.stmts = [] then .error .assertion
        else if l'.stmts.length + n.stmts.length ≠ l.stmts.length then .error .assertion
        else do
          let lines := fl.lines.take A.length ++ l' :: n :: fl.lines.drop (A.length + 1)
          let src ← StmtSrc.refill lines ⟨A.length + 1, [], 0⟩
          let xs := (fl.stmts.map (·.cut A.length (r.2 - 1) l.frags.length)).map (·.bump A.length)
          let ys ← updateStmts A.length src.buf (xs.drop pos)
          if src.buf.length ≠ n.stmts.length then .error .assertion
          else .ok (true, ⟨lines, xs.take pos ++ ys⟩)) := by
    unfold LFile.splitBefore
    rw [if_neg (by omega), hx]
    dsimp only
    rw [if_neg (by omega), if_neg (by omega), p1]
    dsimp only
    rw [hempty]
    simp only [Res.ok_bind]
    rw [if_neg (by simp), if_neg (by rw [p4, e7]; omega), hit, hit']
    simp only [Res.ok_bind]
    rw [if_neg (by simp), hl, p3]
  refine ⟨prev, A.length, l, r, by omega, p1, p2, e6, hl, p3, m1, ⟨t, m3, m4⟩, ?_, ?_, ?_⟩
  · intro l1 n1 hz
    rw [hred, hz]
    simp only [Res.ok_bind]
    rw [if_neg (by simp)]
    have hsemi : l.frags[r.2 - 1 + 1]? = some t := by rw [show r.2 - 1 + 1 = r.2 by omega]; exact m3
    have hleft : l1.initStmts.stmts = l.stmts.take (idx + 1) := by
      show (initStmtsGo 0 none l1.frags).1 = _
      exact stmts_take l l1.frags t (r.2 - 1) idx r hls e4 (by omega) hsemi m4 (C20_tokens l l1 n1 {} _ hz).2.1
    have hlen1 : l1.initStmts.stmts.length = idx + 1 := by rw [hleft, List.length_take]; omega
    obtain ⟨moved, k1, k2⟩ := C20_stmts l l1 n1 {} (r.2 - 1) t hsemi m4 hz
    have k3 := congrArg List.length k1
    have k4 := k2.length_eq
    rw [← hls] at k3
    simp only [List.length_map, List.length_append] at k3 k4
    have hnf := (C20_fields l l1 n1 {} (r.2 - 1) hz).2.2.2.2.2.2
    have hn1 : n1.initStmts.stmts ≠ [] := by
      intro hh; rw [hh, List.length_nil] at k4; omega
    have hsup : n1.initStmts.suppress = false := by
      show n1.suppress = false
      rw [hnf]
    have hcat : n1.initStmts.cat = .unknown := by
      show n1.cat = .unknown
      rw [hnf]
    have hdrop : fl.lines.take A.length ++ l1.initStmts :: n1.initStmts :: fl.lines.drop (A.length + 1) =
        A ++ l1.initStmts :: n1.initStmts :: B := by
      rw [e1, List.take_left' rfl, show A ++ l :: B = (A ++ [l]) ++ B by simp,
        List.drop_left' (by simp)]
    rw [if_neg (by intro hh; rw [hh] at hlen1; simp at hlen1), if_neg hn1, if_neg (by omega), hdrop,
      refill_new hn1 hsup hcat]
    simp only [Res.ok_bind]
    have hlen := hc.stmts.length_eq
    have hpl : (places 0 fl.lines).length = (places 0 A).length + l.stmts.length + (places (A.length + 1) B).length := by
      rw [e1, places_append]
      simp only [places, List.length_append, linePlaces_length, Nat.zero_add]
      omega
    have hcount : n1.initStmts.stmts.length = l.stmts.length - (idx + 1) := by omega
    obtain ⟨zs, hzs⟩ := updateStmts_of (p := A.length)
      (ys := lineStmts (A.length + 1) n1.initStmts.label (if n1.initStmts.stmts.length > 1 then 1 else 0) [] n1.initStmts.stmts)
      (xs := (((fl.stmts.map (·.cut A.length (r.2 - 1) l.frags.length)).map (·.bump A.length)).drop pos))
      (by simp only [lineStmts_len, List.length_drop, List.length_map]; omega)
      (by
        rw [lineStmts_len]
        intro y hy
        obtain ⟨j, hj, hy⟩ := List.mem_iff_getElem.mp hy
        simp only [List.length_take, List.length_drop, List.length_map] at hj
        have hy' : y = (fl.stmts[pos + j].cut A.length (r.2 - 1) l.frags.length).bump A.length := by
          rw [← hy]; simp
        have hj2 : idx + 1 + j < l.stmts.length := by omega
        have hq : (places 0 fl.lines)[pos + j]? = some ⟨A.length, l.stmts[idx + 1 + j], idx + 1 + j, l.stmts.length, 0⟩ := by
          rw [e1, places_append, List.getElem?_append_right (by omega)]
          simp only [places]
          rw [List.getElem?_append_left (by rw [linePlaces_length]; omega), linePlaces_get,
            show pos + j - (places 0 A).length = idx + 1 + j by omega, List.getElem?_eq_getElem hj2]
          simp only [Option.map_some, Nat.zero_add]
          rw [if_neg (by omega)]
        have hst := f2_get hc.stmts (j := pos + j) (List.getElem?_eq_getElem (by omega)) hq
        obtain ⟨c1, _⟩ := cutStmt_parts fl.stmts[pos + j] A.length (r.2 - 1) l.frags.length
        rw [hy']
        simp only [FStmt.bump, c1, hst.1, Option.map_some, bumpPos]
        rw [if_neg (by omega)])
      (by
        intro y hy
        obtain ⟨j, hj, hy⟩ := List.mem_iff_getElem.mp hy
        have h3 := lineStmts_get (A.length + 1) n1.initStmts.label (if n1.initStmts.stmts.length > 1 then 1 else 0) n1.initStmts.stmts j
        rw [List.getElem?_eq_getElem hj, hy] at h3
        rw [lineStmts_len] at hj
        rw [List.getElem?_eq_getElem hj] at h3
        simp only [Option.map_some, Option.some.injEq] at h3
        rw [h3])
    rw [hzs]
    simp only [Res.ok_bind]
    rw [if_neg (by rw [lineStmts_len]; simp)]
    exact ⟨_, rfl⟩
  · intro l1 n1 hz
    rw [hred, hz]
    simp
  · intro e hz
    rw [hred, hz]
    rfl

/-! ## Isolation -/

theorem sameToken_trans {a b c : List Tok} (h1 : List.Forall₂ SameToken a b) (h2 : List.Forall₂ SameToken b c) :
    List.Forall₂ SameToken a c := by
  induction h1 generalizing c with
  | nil => cases h2; exact .nil
  | cons h _ ih =>
    cases h2 with
    | cons h' t' =>
      obtain ⟨a1, a2, a3, a4, a5, a6, a7⟩ := h
      obtain ⟨b1, b2, b3, b4, b5, b6, b7⟩ := h'
      exact .cons ⟨b1.trans a1, b2.trans a2, b3.trans a3, b4.trans a4, b5.trans a5, b6.trans a6, b7.trans a7⟩ (ih t')

theorem sameStmt_trans {f1 f2 f3 : LFile} {x y z : FStmt} (h : SameStmt f1 f2 x y) (h' : SameStmt f2 f3 y z) :
    SameStmt f1 f3 x z := by
  obtain ⟨a1, a2, a3, ts, ts', a4, a5, a6⟩ := h
  obtain ⟨b1, b2, b3, us, us', b4, b5, b6⟩ := h'
  rw [a5] at b4
  obtain rfl := Option.some.inj b4
  exact ⟨b1.trans a1, b2.trans a2, b3.trans a3, ts, us', a4, b5, sameToken_trans a6 b6⟩

theorem sameStmts_trans {f1 f2 f3 : LFile} {xs ys zs : List FStmt} (h : List.Forall₂ (SameStmt f1 f2) xs ys)
    (h' : List.Forall₂ (SameStmt f2 f3) ys zs) : List.Forall₂ (SameStmt f1 f3) xs zs := by
  induction h generalizing zs with
  | nil => cases h'; exact .nil
  | cons h _ ih =>
    cases h' with
    | cons h1 h2 => exact .cons (sameStmt_trans h h1) (ih h2)

theorem sameStmts_refl {fl : LFile} (hc : Consistent fl) : List.Forall₂ (SameStmt fl fl) fl.stmts fl.stmts := by
  refine f2_of_get rfl ?_
  intro j x y hx hy
  rw [hx] at hy
  obtain rfl := Option.some.inj hy
  have hj := (List.getElem?_eq_some_iff.mp hx).1
  obtain ⟨q, hq⟩ : ∃ q, (places 0 fl.lines)[j]? = some q :=
    ⟨_, List.getElem?_eq_getElem (by rw [← hc.stmts.length_eq]; exact hj)⟩
  obtain ⟨s1, s2, _⟩ := f2_get hc.stmts hx hq
  obtain ⟨A, l, B, e1, e2, _⟩ := places_locate hq
  refine ⟨rfl, rfl, rfl, ?_⟩
  have hl : fl.lines[q.line]? = some l := by rw [e2, e1]; simp
  refine ⟨slice l.frags q.range, slice l.frags q.range, ?_, ?_, sameToken_refl _⟩ <;>
  · unfold stmtToks; rw [s1, s2]; dsimp only; rw [hl]; rfl

theorem SplitDone.places' {fl fl' : LFile} {pos : Nat} {A : List LLine} {l : LLine} {B : List LLine} {l1 n1 : LLine}
    {idx : Nat} {r : Nat × Nat} (h : SplitDone fl fl' pos A l B l1 n1 idx r) :
    (∃ q, (places 0 fl'.lines)[pos]? = some q ∧ q.idx = 0) ∧
    (∃ q, (places 0 fl'.lines)[pos - 1]? = some q ∧ q.idx = idx ∧ q.num = idx + 1) ∧
    ∃ q, (places 0 fl.lines)[pos - 1]? = some q ∧ q.idx = idx := by
  have hnum := h.num
  have hat := h.at_
  have hright := h.right
  have hll : l1.initStmts.stmts.length = idx + 1 := by
    rw [h.left, List.length_take]; omega
  have epl : places 0 fl'.lines = places 0 A ++ (linePlaces A.length l1.initStmts.stmts.length l1.initStmts.label 0 l1.initStmts.stmts ++
      (linePlaces (A.length + 1) n1.initStmts.stmts.length n1.initStmts.label 0 n1.initStmts.stmts ++ places (A.length + 1 + 1) B)) := by
    rw [h.lines', places_append]
    simp only [places, Nat.zero_add]
  obtain ⟨rn, hrn⟩ : ∃ rn, n1.initStmts.stmts[0]? = some rn := ⟨_, List.getElem?_eq_getElem (by omega)⟩
  obtain ⟨rl, hrl⟩ : ∃ rl, l1.initStmts.stmts[idx]? = some rl := ⟨_, List.getElem?_eq_getElem (by omega)⟩
  refine ⟨⟨⟨A.length + 1, rn, 0, n1.initStmts.stmts.length, n1.initStmts.label⟩, ?_, rfl⟩,
    ⟨⟨A.length, rl, idx, l1.initStmts.stmts.length, if idx = 0 then l1.initStmts.label else 0⟩, ?_, rfl, hll⟩,
    ⟨⟨A.length, r, idx, l.stmts.length, if idx = 0 then l.label else 0⟩, ?_, rfl⟩⟩
  · rw [epl, List.getElem?_append_right (by omega), List.getElem?_append_right (by rw [linePlaces_length]; omega),
      List.getElem?_append_left (by simp only [linePlaces_length]; omega), linePlaces_get, linePlaces_length,
      show pos - (places 0 A).length - l1.initStmts.stmts.length = 0 by omega, hrn]
    rfl
  · rw [epl, List.getElem?_append_right (by omega),
      List.getElem?_append_left (by rw [linePlaces_length]; omega), linePlaces_get,
      show pos - 1 - (places 0 A).length = idx by omega, hrl]
    simp
  · rw [h.lines, places_append, List.getElem?_append_right (by omega)]
    simp only [places, Nat.zero_add]
    rw [List.getElem?_append_left (by rw [linePlaces_length]; omega), linePlaces_get,
      show pos - 1 - (places 0 A).length = idx by omega, h.range]
    simp

/-- The first statement of a line, followed by the first of another one, is alone. -/
theorem places_alone {lines : List LLine} {pos : Nat} {q : Place} (hq : (places 0 lines)[pos]? = some q)
    (h0 : q.idx = 0) (hn : ∀ q', (places 0 lines)[pos + 1]? = some q' → q'.idx = 0) : q.num = 1 := by
  obtain ⟨A, l, B, e1, e2, e3, e4, e5, e6⟩ := places_locate hq
  by_contra hc
  have hl : 1 < l.stmts.length := by omega
  have := hn ⟨A.length, l.stmts[1], 1, l.stmts.length, 0⟩ (by
    rw [e1, places_append, List.getElem?_append_right (by omega)]
    simp only [places, Nat.zero_add]
    rw [List.getElem?_append_left (by rw [linePlaces_length]; omega), linePlaces_get,
      show pos + 1 - (places 0 A).length = 1 by omega, List.getElem?_eq_getElem hl]
    simp)
  simp at this

namespace Spec

/-- Statement `pos` of the file is the only one of its line. -/
def Alone (fl : LFile) (pos : Nat) : Prop :=
  ∃ x p l r, fl.stmts[pos]? = some x ∧ x.s.line = some p ∧ fl.lines[p]? = some l ∧ l.stmts = [r] ∧
    x.s.range = some r

end Spec
open Spec

theorem alone_of_place {fl : LFile} (hc : Consistent fl) {pos : Nat} {q : Place}
    (hq : (places 0 fl.lines)[pos]? = some q) (h0 : q.idx = 0) (h1 : q.num = 1) : Alone fl pos := by
  have hj := (List.getElem?_eq_some_iff.mp hq).1
  rw [← hc.stmts.length_eq] at hj
  have hx := List.getElem?_eq_getElem hj
  obtain ⟨s1, s2, _⟩ := f2_get hc.stmts hx hq
  obtain ⟨A, l, B, e1, e2, e3, e4, e5, e6⟩ := places_locate hq
  obtain ⟨r, hr⟩ := List.length_eq_one_iff.mp (e5.symm.trans h1)
  refine ⟨_, q.line, l, r, hx, s1, by rw [e2, e1]; simp, hr, ?_⟩
  rw [s2]
  rw [h0, hr] at e6
  simpa using e6.symm

/-- **C20** When `isolate_stmt` returns, the given statement is alone on its line, all statements of the file
have their tags, labels, prefixes and tokens, and are those of its lines; false is returned exactly when nothing was
done. -/
theorem C20_isolate (fl fl' : LFile) (pos : Nat) (b : Bool) (hc : Consistent fl)
    (h : fl.isolate pos = .ok (b, fl')) :
    Consistent fl' ∧ List.Forall₂ (SameStmt fl fl') fl.stmts fl'.stmts ∧ Alone fl' pos ∧
      (b = false ↔ fl'.lines.length = fl.lines.length) ∧ (b = false → fl' = fl) := by
  unfold LFile.isolate at h
  rbind h with a ha
  by_cases hpos : fl.stmts.length ≤ pos
  · rw [if_pos hpos] at h; simp at h
  rw [if_neg hpos] at h
  obtain ⟨ba, fa⟩ := a
  dsimp only at h
  -- after the first call
  have h1 : Consistent fa ∧ List.Forall₂ (SameStmt fl fa) fl.stmts fa.stmts ∧
      (∃ q, (places 0 fa.lines)[pos]? = some q ∧ q.idx = 0) ∧
      fa.lines.length = fl.lines.length + (if ba then 1 else 0) ∧ (ba = false → fa = fl) := by
    cases ba with
    | true =>
      obtain ⟨A, l, B, l1, n1, idx, r, hd⟩ := splitBefore_done hc ha
      obtain ⟨c1, c2, _⟩ := C20_file fl fa pos hc ha
      refine ⟨c1, c2, hd.places'.1, ?_, by simp⟩
      rw [hd.lines, hd.lines']
      simp
      omega
    | false =>
      obtain ⟨rfl, c2⟩ := C20_file_false fl fa pos hc ha
      have hlt : pos < (places 0 fa.lines).length := by rw [← hc.stmts.length_eq]; omega
      exact ⟨hc, sameStmts_refl hc, ⟨_, List.getElem?_eq_getElem hlt, c2 _ (List.getElem?_eq_getElem hlt)⟩, by simp, fun _ => rfl⟩
  obtain ⟨c1, c2, ⟨q, hq, hq0⟩, c3, c4⟩ := h1
  by_cases hne : pos + 1 ≠ fa.stmts.length
  · rw [if_pos hne] at h
    rbind h with d hd0
    obtain ⟨bd, fd⟩ := d
    simp only [Except.ok.injEq, Prod.mk.injEq] at h
    obtain ⟨rfl, rfl⟩ := h
    cases bd with
    | true =>
      obtain ⟨A, l, B, l1, n1, idx, r, hd⟩ := splitBefore_done c1 hd0
      obtain ⟨d1, d2, _⟩ := C20_file fa fd (pos + 1) c1 hd0
      obtain ⟨_, ⟨q2, hq2, i2, n2⟩, q3, hq3, i3⟩ := hd.places'
      rw [show pos + 1 - 1 = pos by omega] at hq2 hq3
      rw [hq] at hq3
      obtain rfl := Option.some.inj hq3
      refine ⟨d1, sameStmts_trans c2 d2, alone_of_place d1 hq2 (by omega) (by omega), ?_, by simp⟩
      have : fd.lines.length = fa.lines.length + 1 := by
        rw [hd.lines, hd.lines']; simp; omega
      simp
      omega
    | false =>
      obtain ⟨rfl, d2⟩ := C20_file_false fa fd (pos + 1) c1 hd0
      refine ⟨c1, c2, alone_of_place c1 hq hq0 (places_alone hq hq0 d2), ?_, ?_⟩
      · cases ba <;> simp_all
      · simpa using c4
  · rw [if_neg hne] at h
    simp only [Except.ok.injEq, Prod.mk.injEq] at h
    obtain ⟨rfl, rfl⟩ := h
    refine ⟨c1, c2, alone_of_place c1 hq hq0 (places_alone hq hq0 ?_), ?_, c4⟩
    · intro q' hq'
      have := (List.getElem?_eq_some_iff.mp hq').1
      rw [← c1.stmts.length_eq] at this
      omega
    · cases ba <;> simp_all

/-! ## Files as they are read -/

theorem initStmts_of_build (st st' : Flex.State) (g : Group) (l : LLine) (h : buildLine st g = .ok (l, st')) :
    l.stmts = l.initStmts.stmts := by
  unfold buildLine at h
  rbind h with r hr
  obtain ⟨lab, ht⟩ := initFromLayout_eq st _ r.1 r.2 hr
  unfold LLine.tokenize at ht
  rbind ht with a ha
  rbind ht with b hb
  have e1 := congrArg (fun x => match x with | .ok (y, _) => some y | .error _ => none) ht
  have e2 := congrArg (fun x => match x with | .ok (y, _) => some y | .error _ => none) h
  simp only [Option.some.injEq] at e1 e2
  rw [← e2, ← e1]
  rfl

theorem initStmts_of_builds (st st' : Flex.State) (gs : List Group) (lines : List LLine)
    (h : buildLines st gs = .ok (lines, st')) : ∀ l ∈ lines, l.stmts = l.initStmts.stmts := by
  induction gs generalizing st lines with
  | nil =>
    simp only [buildLines, Except.ok.injEq, Prod.mk.injEq] at h
    rw [← h.1]
    intro l hl
    simp at hl
  | cons g gs ih =>
    unfold buildLines at h
    rbind h with r hr
    rbind h with rs hrs
    simp only [Except.ok.injEq, Prod.mk.injEq] at h
    have := ih r.2 rs.1 (by rw [hrs, ← h.2])
    rw [← h.1]
    intro l hl
    rcases List.mem_cons.mp hl with rfl | hl
    · exact initStmts_of_build st r.2 g r.1 hr
    · exact this l hl

/-- The file that a list of lines gives, with the statements that `make_stmts` finds. -/
def LFile.made (lines : List LLine) (ss : List LLStmt) : LFile := ⟨lines, ss.map (fun s => { s := s })⟩

theorem made_stands (lines0 : List LLine) (p : Nat) (ls : List LLine) :
    List.Forall₂ Stands (((ls.zipIdx p).flatMap (fun li => li.1.stmts.zipIdx.map (fun rj =>
      ({ line := some li.2, range := some rj.1, label := if rj.2 = 0 then li.1.label else 0, compound := if li.1.stmts.length = 1 then 0 else rj.2 + 1, pre := if rj.2 = 0 then prefixOf lines0 li.2 else [] } : LLStmt)))).map
        (fun s => ({ s := s } : FStmt))) (places p ls) := by
  induction ls generalizing p with
  | nil => exact .nil
  | cons l ls ih =>
    simp only [List.zipIdx_cons, List.flatMap_cons, List.map_append, places]
    refine f2_append ?_ (ih (p + 1))
    refine f2_of_get (by simp [linePlaces_length]) ?_
    intro j x y hx hy
    rw [linePlaces_get] at hy
    simp only [Option.map_eq_some_iff] at hy
    obtain ⟨r, hr, rfl⟩ := hy
    simp only [List.getElem?_map, List.getElem?_zipIdx, hr, Option.map_some, Option.some.injEq, Nat.zero_add] at hx
    subst hx
    refine ⟨rfl, rfl, ?_, ?_, by simp⟩
    · simp
    · dsimp only
      by_cases h1 : l.stmts.length = 1
      · right; simp [h1]
      · left; simp [h1]

theorem prefixOf_no_stmts {lines : List LLine} {i q : Nat} (h : q ∈ prefixOf lines i) :
    ∃ l, lines[q]? = some l ∧ l.stmts = [] := by
  unfold prefixOf at h
  rw [List.mem_filter] at h
  obtain ⟨h1, h2⟩ := h
  simp only [Bool.and_eq_true, List.all_eq_true, Bool.or_eq_true, decide_eq_true_eq] at h2
  have := (h2.2 q h1).resolve_left (by omega)
  unfold NoStmts at this
  split at this
  · rename_i l hl
    exact ⟨l, hl, by simpa using this⟩
  · simp at this

/-- **C20** The file that `make_stmts` makes is as the theorems above want it. -/
theorem C20_made (lines : List LLine) (hs : ∀ l ∈ lines, l.stmts = l.initStmts.stmts) :
    Consistent (.made lines (stmtsOf lines)) := by
  refine ⟨hs, made_stands lines 0 lines, ?_⟩
  intro x hx q hq
  simp only [LFile.made, List.mem_map, stmtsOf, List.mem_flatMap] at hx
  obtain ⟨s, ⟨li, _, rj, _, rfl⟩, rfl⟩ := hx
  dsimp only at hq
  split at hq
  · exact prefixOf_no_stmts hq
  · simp at hq

/-- **C20** (free format) A file just read is as the theorems above want it. -/
theorem C20_scanned_free (raws : List Str) (gs : List Group) (st st' : Flex.State) (lines : List LLine)
    (h : scanFree raws = .ok (some gs)) (hb : buildLines st gs = .ok (lines, st')) :
    ∃ ss, makeStmts lines = .ok (some ss) ∧ Consistent (.made lines ss) :=
  ⟨_, C19_scanned_free raws gs st st' lines h hb, C20_made lines (initStmts_of_builds st st' gs lines hb)⟩

/-- **C20** (fixed format) -/
theorem C20_scanned_fixed (raws : List Str) (lastCol : Int) (gs : List Group) (st st' : Flex.State)
    (lines : List LLine) (h : scanFixed raws lastCol = .ok (some gs))
    (hb : buildLines st gs = .ok (lines, st')) :
    ∃ ss, makeStmts lines = .ok (some ss) ∧ Consistent (.made lines ss) :=
  ⟨_, C19_scanned_fixed raws lastCol gs st st' lines h hb, C20_made lines (initStmts_of_builds st st' gs lines hb)⟩

end FLPR
