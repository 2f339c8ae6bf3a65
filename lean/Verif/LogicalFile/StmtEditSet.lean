import Verif.LogicalFile.StmtEditText
import Verif.FileLine.ModProps2
/-!
# Setting the label of a statement of a file (C64)
-/

namespace FLPR
open Spec

namespace Spec

/-- Statement `pos` has the label, in its record, in its line, and for a label other than 0 in the text; everything else
of the statements is as before. -/
structure Labelled (fl fl' : LFile) (pos : Nat) (label : Int) : Prop where
  tidy : Tidy fl'
  length : fl'.stmts.length = fl.stmts.length
  others : ∀ (j : Nat) x, j ≠ pos → fl.stmts[j]? = some x → ∃ x', fl'.stmts[j]? = some x' ∧ SameStmt fl fl' x x'
  now : ∃ x x' p l' ts ts', fl.stmts[pos]? = some x ∧ fl'.stmts[pos]? = some x' ∧ x'.s.label = label ∧ x'.tag = x.tag ∧
    x'.s.pre.map (fl'.lines[·]?) = x.s.pre.map (fl.lines[·]?) ∧
    stmtToks fl x = some ts ∧ stmtToks fl' x' = some ts' ∧ List.Forall₂ SameToken ts ts' ∧
    x'.s.line = some p ∧ fl'.lines[p]? = some l' ∧ l'.stmts.head? = x'.s.range ∧ l'.label = label ∧
    (0 < label → LabelRead l' ∧ ∃ f, l'.layout.head? = some f ∧ f.bits.label = true)

end Spec
open Spec

theorem isDigit_not_space {c : Char} (h : isDigit c = true) : isSpace c = false ∧ c ≠ '-' ∧ c ≠ '+' := by
  refine ⟨?_, ?_, ?_⟩
  · cases hs : isSpace c with
    | false => rfl
    | true =>
      unfold isSpace at hs
      simp only [Bool.or_eq_true, beq_iff_eq] at hs
      rcases hs with ((((hs | hs) | hs) | hs) | hs) | hs <;> (subst hs; revert h; decide)
  · rintro rfl; revert h; decide
  · rintro rfl; revert h; decide

theorem set_same {α : Type} {l : List α} {i : Nat} {x : α} (h : l[i]? = some x) : l.set i x = l := by
  obtain ⟨h1, rfl⟩ := List.getElem?_eq_some_iff.mp h
  exact List.set_getElem_self h1

theorem stoi_digits (ds : Str) (m : Nat) (hne : ds ≠ []) (hd : ∀ c ∈ ds, isDigit c = true)
    (hv : digitsVal ds ≤ 2147483647) : stoi (ds ++ blanks m) = .ok (digitsVal ds : Int) := by
  cases ds with
  | nil => exact absurd rfl hne
  | cons c cs =>
    obtain ⟨h1, h2, h3⟩ := isDigit_not_space (hd c (by simp))
    have e1 : List.dropWhile isSpace ((c :: cs) ++ blanks m) = (c :: cs) ++ blanks m := by
      simp [h1]
    have e2 : List.takeWhile isDigit ((c :: cs) ++ blanks m) = c :: cs := by
      rw [List.takeWhile_append_of_pos hd]
      have : (blanks m).takeWhile isDigit = [] := by
        cases m with
        | zero => rfl
        | succ m => simp [blanks, List.replicate_succ, isDigit]
      rw [this, List.append_nil]
    have e3 : (if ((c :: cs) ++ blanks m).head? = some '-' ∨ ((c :: cs) ++ blanks m).head? = some '+'
        then ((c :: cs) ++ blanks m).tail else (c :: cs) ++ blanks m) = (c :: cs) ++ blanks m := by
      rw [if_neg]
      simp [h2, h3]
    have e4 : (((c :: cs) ++ blanks m).head? == some '-') = false := by simp [h2]
    unfold stoi
    dsimp only
    rw [e1, e3, e2, e4, if_neg (by simp)]
    simp only [Bool.false_eq_true, if_false]
    rw [if_pos (by omega)]

theorem stoi_natToStr (k m : Nat) (hk : k ≤ 99999) : stoi (natToStr k ++ blanks m) = .ok (k : Int) := by
  have hval : digitsVal (natToStr k) = k := by
    have := @Nat.ofDigitChars_ten_toDigits k
    rw [Nat.ofDigitChars_eq_foldl] at this
    unfold digitsVal natToStr
    rw [← this]
    conv => lhs; arg 3; rw [this]
    congr 1
    funext n c
    rw [Nat.mul_comm]
  have := stoi_digits (natToStr k) m Nat.toDigits_ne_nil (fun c hc => natToStr_digit hc) (by omega)
  rw [hval] at this
  exact this

/-- What setting another label does to a line. -/
theorem setLabel_of {l : LLine} {label : Int} {r : LLine × Bool} (h : l.setLabel label = .ok r) :
    (r.2 = false → r.1 = l ∧ label = l.label) ∧
    (r.2 = true → label ≠ l.label ∧ 0 ≤ label ∧ ∃ lay, r.1 = { l with label := label, layout := lay } ∧
      (0 < label → LabelRead r.1 ∧ ∃ f, lay.head? = some f ∧ f.bits.label = true)) := by
  unfold LLine.setLabel at h
  split at h
  · injection h with h
    subst h
    exact ⟨fun _ => ⟨rfl, by assumption⟩, fun hh => by simp at hh⟩
  rename_i hne
  split at h
  · simp at h
  rename_i f fs hlay
  split at h
  · simp at h
  rename_i h0
  rbind h with g hg
  injection h with h
  subst h
  refine ⟨fun hh => by simp at hh, fun _ => ⟨hne, by omega, _, rfl, ?_⟩⟩
  intro hpos
  obtain ⟨g, b⟩ := g
  obtain ⟨c1, c2, c3, c4, _⟩ := C12_set_label f g label.toNat b (by omega) hg
  obtain ⟨c5, _⟩ := (C12_set_label_outcome f label.toNat).mp ⟨g, b, hg⟩
  refine ⟨?_, g, rfl, by rw [c2]⟩
  intro g' hg'
  obtain rfl := Option.some.inj hg'
  refine ⟨fun _ => ?_, fun hh => by rw [c2] at hh; simp at hh⟩
  rw [c4, stoi_natToStr _ _ c5]
  show Except.ok _ = Except.ok label
  rw [Int.toNat_of_nonneg (by omega)]

/-- Relabelling the first statement of a line. -/
theorem labelled {fl a : LFile} {pos : Nat} {xa : FStmt} {q : Place} {la : LLine} {lay : List FileLine} {label : Int}
    (hta : Tidy a) (hsame : List.Forall₂ (SameStmt fl a) fl.stmts a.stmts) (hxa : a.stmts[pos]? = some xa)
    (hq : (places 0 a.lines)[pos]? = some q) (h0 : q.idx = 0) (hla : a.lines[q.line]? = some la)
    (hread : 0 < label → LabelRead { la with label := label, layout := lay } ∧ ∃ f, lay.head? = some f ∧ f.bits.label = true) :
    Labelled fl ⟨a.lines.set q.line { la with label := label, layout := lay },
      a.stmts.set pos { xa with s := { xa.s with label := label } }⟩ pos label := by
  set l' : LLine := { la with label := label, layout := lay } with hl'
  set x' : FStmt := { xa with s := { xa.s with label := label } } with hx'
  have hlt := (List.getElem?_eq_some_iff.mp hxa).1
  obtain ⟨A, l0, B, e1, e2, e3, e4, e5, e6⟩ := places_locate hq
  have : a.lines[q.line]? = some l0 := by rw [e2, e1]; simp
  rw [hla] at this
  obtain rfl := Option.some.inj this
  have hlne : la.stmts ≠ [] := by
    intro hh
    rw [hh] at e3
    simp at e3
  obtain ⟨u1, u2, u3, u4, u5⟩ := f2_get hta.consistent.stmts hxa hq
  have hlp : (a.lines.set q.line l')[q.line]? = some l' := by
    rw [List.getElem?_set_self (List.getElem?_eq_some_iff.mp hla).1]
  have hkeep : ∀ (m : Nat) l0, a.lines[m]? = some l0 → l0.stmts = [] → (a.lines.set q.line l')[m]? = some l0 := by
    intro m l0 hm h0
    have : m ≠ q.line := by
      rintro rfl
      rw [hla] at hm
      obtain rfl := Option.some.inj hm
      exact hlne h0
    rw [List.getElem?_set_ne (Ne.symm this)]
    exact hm
  have hidx : ∀ (j : Nat) qj, (places 0 a.lines)[j]? = some qj → qj.line = q.line → qj.idx = 0 → j = pos := by
    intro j qj hqj hh hj0
    obtain ⟨A', l1, B', f1, f2, f3, f4, f5, f6⟩ := places_locate hqj
    have e2' : A.length = A'.length := by omega
    have e3' : A = A' := by
      have := congrArg (List.take A.length) (e1.symm.trans f1)
      rw [List.take_left' rfl, List.take_left' e2'.symm] at this
      exact this
    rw [← e3'] at f4
    omega
  obtain ⟨t1, t2⟩ := change_tidy (a := a) hta (p := q.line) (l := la) (l' := l') (S' := a.stmts.set pos x') hla hlne rfl
    (hta.consistent.lines la (List.mem_of_getElem? hla)) (by simp) (by
      intro j y y' qj hy hy' hqj
      by_cases hj : j = pos
      · subst hj
        rw [hxa] at hy
        obtain rfl := Option.some.inj hy
        rw [hq] at hqj
        obtain rfl := Option.some.inj hqj
        rw [List.getElem?_set_self hlt] at hy'
        obtain rfl := Option.some.inj hy'
        refine ⟨fun hh => absurd rfl hh, fun _ => ⟨rfl, ?_⟩⟩
        intro r1 hr1
        have hr2 : la.stmts[q.idx]? = some r1 := hr1
        rw [e6] at hr2
        obtain rfl := Option.some.inj hr2
        refine ⟨u1, u2, ?_, u4, u5⟩
        show label = if q.idx = 0 then l'.label else 0
        rw [if_pos h0]
      · rw [List.getElem?_set_ne (Ne.symm hj), hy] at hy'
        obtain rfl := Option.some.inj hy'
        refine ⟨fun _ => rfl, fun hh => ⟨rfl, ?_⟩⟩
        intro r1 hr1
        obtain ⟨v1, v2, v3, v4, v5⟩ := f2_get hta.consistent.stmts hy hqj
        have hji : qj.idx ≠ 0 := fun h => hj (hidx j qj hqj hh h)
        obtain ⟨A', l1, B', f1, f2, f3, f4, f5, f6⟩ := places_locate hqj
        have : a.lines[qj.line]? = some l1 := by rw [f2, f1]; simp
        rw [hh, hla] at this
        obtain rfl := Option.some.inj this
        have hr2 : la.stmts[qj.idx]? = some r1 := hr1
        rw [f6] at hr2
        obtain rfl := Option.some.inj hr2
        refine ⟨by rw [v1, hh], v2, ?_, v4, v5⟩
        rw [v3]
        have hp := place_at A' la B' f6
        rw [← f1, ← f4, hqj, if_neg hji] at hp
        rw [Option.some.inj hp, if_neg hji])
  have hnext : ∀ (j : Nat) y, j ≠ pos → a.stmts[j]? = some y →
      (a.stmts.set pos x')[j]? = some y ∧ SameStmt a ⟨a.lines.set q.line l', a.stmts.set pos x'⟩ y y := by
    intro j y hj hy
    obtain ⟨qj, hqj⟩ : ∃ qj, (places 0 a.lines)[j]? = some qj :=
      ⟨_, List.getElem?_eq_getElem (by rw [← hta.consistent.stmts.length_eq]; exact (List.getElem?_eq_some_iff.mp hy).1)⟩
    by_cases hh : qj.line = q.line
    · refine ⟨by rw [List.getElem?_set_ne (Ne.symm hj)]; exact hy, rfl, rfl, ?_, ?_⟩
      · apply List.map_congr_left
        intro k hk
        obtain ⟨l0, m1, m2⟩ := hta.consistent.pre y (List.mem_of_getElem? hy) k hk
        show (a.lines.set q.line l')[k]? = _
        rw [hkeep k l0 m1 m2, m1]
      · obtain ⟨v1, v2, _⟩ := f2_get hta.consistent.stmts hy hqj
        refine ⟨slice la.frags qj.range, slice la.frags qj.range, ?_, ?_, sameToken_refl _⟩
        · unfold stmtToks; rw [v1, v2, hh]; simp [hla]
        · unfold stmtToks; rw [v1, v2, hh]; dsimp only; rw [hlp]; rfl
    · exact t2 j y qj hy hqj hh
  refine ⟨t1, ?_, ?_, ?_⟩
  · show (a.stmts.set pos x').length = _
    rw [List.length_set, hsame.length_eq]
  · intro j y hj hy
    obtain ⟨ya, hya⟩ : ∃ ya, a.stmts[j]? = some ya :=
      ⟨_, List.getElem?_eq_getElem (by rw [← hsame.length_eq]; exact (List.getElem?_eq_some_iff.mp hy).1)⟩
    obtain ⟨v1, v2⟩ := hnext j ya hj hya
    exact ⟨ya, v1, sameStmt_trans (f2_get hsame hy hya) v2⟩
  · obtain ⟨x, hx⟩ : ∃ x, fl.stmts[pos]? = some x :=
      ⟨_, List.getElem?_eq_getElem (by rw [hsame.length_eq]; exact hlt)⟩
    obtain ⟨w1, w2, w3, ts, ts', w4, w5, w6⟩ := f2_get hsame hx hxa
    refine ⟨x, x', q.line, l', ts, ts', hx, List.getElem?_set_self hlt, rfl, w1, ?_, w4, ?_, w6, u1, hlp, ?_, rfl, hread⟩
    · rw [← w3]
      apply List.map_congr_left
      intro k hk
      obtain ⟨l0, m1, m2⟩ := hta.consistent.pre xa (List.mem_of_getElem? hxa) k hk
      show (a.lines.set q.line l')[k]? = _
      rw [hkeep k l0 m1 m2, m1]
    · unfold stmtToks at w5 ⊢
      show (match xa.s.line, xa.s.range with
        | some p, some r => ((a.lines.set q.line l')[p]?).map (fun l => slice (LLine.frags l) r) | _, _ => none) = _
      rw [u1, u2] at w5 ⊢
      simp only [hla, hlp, Option.map_some] at w5 ⊢
      exact w5
    · show la.stmts.head? = xa.s.range
      rw [u2, List.head?_eq_getElem?, ← e6, h0]

/-- **C64** `set_stmt_label` returns false exactly when the statement has this label already (no label counting as 0), and
then has done nothing; otherwise the statement has the label, at the head of its line, and everything else is as before.
-/
theorem C64_set_label (fl fl' : LFile) (pos : Nat) (label : Int) (b : Bool) (x : FStmt) (ht : Tidy fl)
    (hx : fl.stmts[pos]? = some x) (hnn : 0 ≤ x.s.label) (h : fl.setStmtLabel pos label = .ok (b, fl')) :
    (b = false ↔ x.s.label = label) ∧ (b = false → fl' = fl) ∧ (b = true → Labelled fl fl' pos label) := by
  unfold LFile.setStmtLabel at h
  split at h
  · simp at h
  rename_i hneg
  rw [LFile.stmtAt_ok hx] at h
  simp only [Res.ok_bind] at h
  split at h
  · rename_i h1
    simp only [Except.ok.injEq, Prod.mk.injEq] at h
    obtain ⟨rfl, rfl⟩ := h
    exact ⟨by simp; omega, fun _ => rfl, by simp⟩
  rename_i h1
  rbind h with a ha
  rbind h with xa hxa
  rbind h with l hl
  rbind h with r hr
  obtain ⟨p, l⟩ := l
  simp only [Except.ok.injEq, Prod.mk.injEq] at h
  obtain ⟨rfl, rfl⟩ := h
  have hlt := (List.getElem?_eq_some_iff.mp hx).1
  have hA : Tidy a ∧ List.Forall₂ (SameStmt fl a) fl.stmts a.stmts ∧
      (∀ q, (places 0 a.lines)[pos]? = some q → q.idx = 0) ∧ (x.s.label > 0 → a = fl) := by
    split at ha
    · rename_i hn
      rbind ha with d hd
      injection ha with ha
      subst ha
      obtain ⟨b', d⟩ := d
      obtain ⟨c1, c2, c3⟩ := split_tidy ht hd
      exact ⟨c1, c2, c3, fun hh => absurd hh hn⟩
    · rename_i hn
      injection ha with ha
      subst ha
      refine ⟨ht, sameStmts_refl ht.consistent, ?_, fun _ => rfl⟩
      intro q hq
      by_contra hne
      obtain ⟨v1, v2, v3, _⟩ := f2_get ht.consistent.stmts hx hq
      obtain ⟨A', l1, B', f1, f2, f3, f4, f5, f6⟩ := places_locate hq
      have hp := place_at A' l1 B' f6
      rw [← f1, ← f4, hq, if_neg hne] at hp
      have : q.label = 0 := by rw [Option.some.inj hp]
      omega
  obtain ⟨c1, c2, c3, c4⟩ := hA
  have hxa := stmtAt_of hxa (by rw [← c2.length_eq]; exact hlt)
  obtain ⟨hp, hla⟩ := lineOf_of hl
  dsimp only at hp hla
  obtain ⟨q, hq⟩ : ∃ q, (places 0 a.lines)[pos]? = some q :=
    ⟨_, List.getElem?_eq_getElem (by rw [← c1.consistent.stmts.length_eq, ← c2.length_eq]; exact hlt)⟩
  have h0 := c3 q hq
  obtain ⟨u1, u2, u3, _⟩ := f2_get c1.consistent.stmts hxa hq
  rw [hp] at u1
  obtain rfl := Option.some.inj u1
  obtain ⟨A', l1, B', f1, f2, f3, f4, f5, f6⟩ := places_locate hq
  have : a.lines[q.line]? = some l1 := by rw [f2, f1]; simp
  rw [hla] at this
  obtain rfl := Option.some.inj this
  have hlab : xa.s.label = l.label := by
    have hp := place_at A' l B' f6
    rw [← f1, ← f4, hq, if_pos h0] at hp
    rw [u3, Option.some.inj hp]
  have hlab' : x.s.label = l.label := by rw [← hlab]; exact ((f2_get c2 hx hxa).2.1).symm
  obtain ⟨k1, k2⟩ := setLabel_of hr
  obtain ⟨l', b⟩ := r
  cases b with
  | false =>
    obtain ⟨m1, m2⟩ := k1 rfl
    dsimp only at m1 m2 ⊢
    subst m1
    refine ⟨by simp; omega, fun _ => ?_, by simp⟩
    have ha' : a = fl := c4 (by omega)
    subst ha'
    have e1 : a.lines.set q.line l' = a.lines := set_same hla
    have e2 : ({ xa with s := { xa.s with label := l'.label } } : FStmt) = xa := by rw [← hlab]
    rw [e1, e2, set_same hxa]
  | true =>
    obtain ⟨m1, m2, lay, m3, m4⟩ := k2 rfl
    dsimp only at m1 m3 m4 ⊢
    subst m3
    refine ⟨by simp; omega, by simp, fun _ => ?_⟩
    exact labelled c1 c2 hxa hq h0 hla m4

end FLPR
