import Verif.FileLine.FixedLemmas
import Verif.FileLine.FreeProps
/-!
# Properties of fixed-format line analysis (C04, C05, C43, C44)

The statements use the model's entry point `analyzeFixed`, the fields of the resulting line and the
specification in `Verif/FileLine/Spec.lean` (tab expansion, categories, statement start, used
columns).
-/

namespace FLPR
open Spec

/-- **C44** (classification) An analysed fixed-format line carries exactly one category flag: the
category that the specification assigns to the tab-expanded text. -/
theorem C44_fixed_category (ln : Int) (raw : Str) (prevDelim : Char) (lastColumn : Int)
    (f : FileLine) (h : analyzeFixed ln raw prevDelim lastColumn = .ok f)
    (k : Cat) : catFlag f k = true ↔ fixedCat (decide (prevDelim ≠ NUL)) (detab raw) = k := by
  obtain ⟨e, he, h⟩ := analyzeFixed_cases h
  rw [← he]
  unfold fixedCat
  rcases h with ⟨h1, rfl⟩ | ⟨c0, rest, hb, h⟩
  · rw [if_pos h1]; cases k <;> simp [catFlag, mkLeft, FileLine.isFortran, FileLine.isTrivial]
  · rw [if_neg (by simp [hb])]
    rcases h with ⟨h1, h2, rfl⟩ | ⟨h1, h2, rfl⟩ | ⟨h1, h2, h⟩
    · rw [if_pos ⟨h1, h2⟩]
      cases k <;> simp [catFlag, mkLeft, FileLine.isFortran, FileLine.isTrivial]
    · rw [if_neg h1, if_pos h2]
      cases k <;> simp [catFlag, mkLeft, FileLine.isFortran, FileLine.isTrivial]
    · rw [if_neg h1, if_neg h2]
      rcases h with ⟨h3, h4, ⟨h5, rfl⟩ | ⟨h5, rfl⟩⟩ | ⟨h3, h⟩
      · rw [if_pos h3, if_pos h5]
        cases k <;> simp [catFlag, mkLeft, FileLine.isFortran, FileLine.isTrivial]
      · rw [if_pos h3, if_neg h5]
        cases k <;> simp [catFlag, mkLeft, FileLine.isFortran, FileLine.isTrivial]
      · rw [if_neg h3]
        unfold fixedRest at h
        rbind h with ⟨lt, b, r, bl⟩ hl
        obtain ⟨q1, q2, q3, q4, q5, q6, q7, q8, q9, q10, q11, q12, q13, q14, q15⟩ :=
          fixedLeft_ok hb hl
        dsimp only at h
        rw [q1] at q2
        by_cases hbl : bl = true
        · rw [if_pos hbl] at h
          simp at h
          subst h
          obtain ⟨p1, p2, p3⟩ := q2.mp hbl
          rw [if_pos ⟨by simp [p1], p2, p3⟩]
          cases k <;> simp [catFlag, mkLeft, FileLine.isFortran, FileLine.isTrivial, q7, q8, q9,
            q10, q11]
        · rw [if_neg hbl] at h
          rw [if_neg (fun hx => hbl (q2.mpr ⟨by simpa using hx.1, hx.2⟩))]
          refine catFlag_fortran ?_ k
          have hbits : f.bits = b := by
            unfold analyzeFixedBody at h
            rbind h with ⟨tb, od⟩ htb
            rbind h with ⟨m0, rr⟩ hm
            dsimp only at h
            split at h
            · simp at h
            · unfold mkFull at h
              split at h
              · simp at h; rw [← h]
              · simp at h
          simp [FileLine.isFortran, FileLine.isTrivial, hbits, q6, q7, q8, q9, q10, q11]

/-- **C44** (flags and control columns) For a Fortran line: the label flag and `left_txt` of a
labelled line; the continuation flag (a character other than `0` in column 6, columns 1-5 blank);
`left_txt` is empty otherwise.  No line carries a trailing-continuation flag. -/
theorem C44_fixed_left (ln : Int) (raw : Str) (prevDelim : Char) (lastColumn : Int)
    (f : FileLine) (h : analyzeFixed ln raw prevDelim lastColumn = .ok f)
    (hk : fixedCat (decide (prevDelim ≠ NUL)) (detab raw) = .fortran) :
    (f.bits.label = true ↔ HasFixedLabel (detab raw)) ∧
    (f.bits.continuation = true ↔ indent (detab raw) = 5 ∧ (body (detab raw)).head? ≠ some '0') ∧
    f.bits.continued = false ∧ f.bits.fixed_format = true ∧
    (indent (detab raw) = 5 → f.left_txt = (detab raw).take 6) ∧
    (HasFixedLabel (detab raw) →
      f.left_txt = (detab raw).take (indent (detab raw) + fixedLabelLen (detab raw))) ∧
    (indent (detab raw) ≠ 5 → ¬ HasFixedLabel (detab raw) → f.left_txt = []) := by
  have hfl := (C44_fixed_category ln raw prevDelim lastColumn f h .fortran).mpr hk
  obtain ⟨e, he, h⟩ := analyzeFixed_cases h
  rw [← he]
  have nf : ∀ b : Bits, (b.blank || b.comment || b.preprocessor || b.flpr_pp || b.flpr_lit || b.incl) = true →
      ¬ catFlag (mkLeft ln b e) .fortran = true := by
    intro b hb
    simp only [catFlag, FileLine.isFortran, FileLine.isTrivial, mkLeft]
    revert hb
    cases b.blank <;> cases b.comment <;> cases b.preprocessor <;> cases b.flpr_pp <;>
      cases b.flpr_lit <;> cases b.incl <;> simp
  rcases h with ⟨h1, rfl⟩ | ⟨c0, rest, hb, h⟩
  · exact absurd hfl (nf _ rfl)
  rcases h with ⟨h1, h2, rfl⟩ | ⟨h1, h2, rfl⟩ | ⟨h1, h2, h⟩
  · exact absurd hfl (nf _ rfl)
  · exact absurd hfl (nf _ rfl)
  rcases h with ⟨h3, h4, ⟨h5, rfl⟩ | ⟨h5, rfl⟩⟩ | ⟨h3, h⟩
  · exact absurd hfl (nf _ rfl)
  · exact absurd hfl (nf _ rfl)
  unfold fixedRest at h
  rbind h with ⟨lt, b, r, bl⟩ hl
  obtain ⟨q1, q2, q3, q4, q5, q6, q7, q8, q9, q10, q11, q12, q13, q14, q15⟩ :=
    fixedLeft_ok hb hl
  dsimp only at h
  by_cases hbl : bl = true
  · rw [if_pos hbl] at h
    simp at h
    subst h
    exact absurd hfl (nf _ rfl)
  · rw [if_neg hbl] at h
    have hbits : f.bits = b ∧ f.left_txt = lt := by
      unfold analyzeFixedBody at h
      rbind h with ⟨tb, od⟩ htb
      rbind h with ⟨m0, rr⟩ hm
      dsimp only at h
      split at h
      · simp at h
      · unfold mkFull at h
        split at h
        · simp at h; rw [← h]; exact ⟨rfl, rfl⟩
        · simp at h
    rw [hbits.1, hbits.2]
    refine ⟨q3, ?_, q12, q5, q13, q14, q15⟩
    rw [q4, hb]; simp

/-- **C44** (other lines) A line that is not Fortran keeps its tab-expanded text in `left_txt`. -/
theorem C44_fixed_nonfortran_fields (ln : Int) (raw : Str) (prevDelim : Char) (lastColumn : Int)
    (f : FileLine) (h : analyzeFixed ln raw prevDelim lastColumn = .ok f)
    (hk : fixedCat (decide (prevDelim ≠ NUL)) (detab raw) ≠ .fortran) :
    f.left_txt = detab raw ∧ f.left_space = [] ∧ f.main_txt = [] ∧ f.right_space = [] ∧
      f.right_txt = [] ∧ f.open_delim = NUL ∧ f.isFortran = false := by
  have hfl : f.isFortran = false := by
    have := (C44_fixed_category ln raw prevDelim lastColumn f h .fortran).not.mpr hk
    simpa [catFlag] using this
  obtain ⟨e, he, h⟩ := analyzeFixed_cases h
  rw [← he]
  rcases h with ⟨h1, rfl⟩ | ⟨c0, rest, hb, h⟩
  · simp [mkLeft] at *; exact hfl
  rcases h with ⟨h1, h2, rfl⟩ | ⟨h1, h2, rfl⟩ | ⟨h1, h2, h⟩
  · simp [mkLeft] at *; exact hfl
  · simp [mkLeft] at *; exact hfl
  rcases h with ⟨h3, h4, ⟨h5, rfl⟩ | ⟨h5, rfl⟩⟩ | ⟨h3, h⟩
  · simp [mkLeft] at *; exact hfl
  · simp [mkLeft] at *; exact hfl
  unfold fixedRest at h
  rbind h with ⟨lt, b, r, bl⟩ hl
  obtain ⟨q1, q2, q3, q4, q5, q6, q7, q8, q9, q10, q11, q12, q13, q14, q15⟩ :=
    fixedLeft_ok hb hl
  dsimp only at h
  by_cases hbl : bl = true
  · rw [if_pos hbl] at h
    simp at h
    subst h
    simp [mkLeft] at *; exact hfl
  · rw [if_neg hbl] at h
    exfalso
    have hbits : f.bits = b := by
      unfold analyzeFixedBody at h
      rbind h with ⟨tb, od⟩ htb
      rbind h with ⟨m0, rr⟩ hm
      dsimp only at h
      split at h
      · simp at h
      · unfold mkFull at h
        split at h
        · simp at h; rw [← h]
        · simp at h
    simp [FileLine.isFortran, FileLine.isTrivial, hbits, q6, q7, q8, q9, q10, q11] at hfl

/-- A Fortran line comes from the last part of the analysis. -/
theorem fixed_body {ln : Int} {raw : Str} {prevDelim : Char} {lastColumn : Int}
    {f : FileLine} (h : analyzeFixed ln raw prevDelim lastColumn = .ok f)
    (hk : fixedCat (decide (prevDelim ≠ NUL)) (detab raw) = .fortran) :
    ∃ c0 rest lt b, body (detab raw) = c0 :: rest ∧
      fixedLeft (detab raw) prevDelim (indent (detab raw)) (upChar c0) =
        .ok (lt, b, fixedStart (decide (prevDelim ≠ NUL)) (detab raw), false) ∧
      analyzeFixedBody ln (detab raw) prevDelim lastColumn lt b
        (fixedStart (decide (prevDelim ≠ NUL)) (detab raw)) = .ok f := by
  have hfl := (C44_fixed_category ln raw prevDelim lastColumn f h .fortran).mpr hk
  obtain ⟨e, he, h⟩ := analyzeFixed_cases h
  rw [← he]
  have nf : ∀ b : Bits, (b.blank || b.comment || b.preprocessor || b.flpr_pp || b.flpr_lit || b.incl) = true →
      ¬ catFlag (mkLeft ln b e) .fortran = true := by
    intro b hb
    simp only [catFlag, FileLine.isFortran, FileLine.isTrivial, mkLeft]
    revert hb
    cases b.blank <;> cases b.comment <;> cases b.preprocessor <;> cases b.flpr_pp <;>
      cases b.flpr_lit <;> cases b.incl <;> simp
  rcases h with ⟨h1, rfl⟩ | ⟨c0, rest, hb, h⟩
  · exact absurd hfl (nf _ rfl)
  rcases h with ⟨h1, h2, rfl⟩ | ⟨h1, h2, rfl⟩ | ⟨h1, h2, h⟩
  · exact absurd hfl (nf _ rfl)
  · exact absurd hfl (nf _ rfl)
  rcases h with ⟨h3, h4, ⟨h5, rfl⟩ | ⟨h5, rfl⟩⟩ | ⟨h3, h⟩
  · exact absurd hfl (nf _ rfl)
  · exact absurd hfl (nf _ rfl)
  unfold fixedRest at h
  rbind h with ⟨lt, b, r, bl⟩ hl
  obtain ⟨q1, _⟩ := fixedLeft_ok hb hl
  dsimp only at h
  by_cases hbl : bl = true
  · rw [if_pos hbl] at h
    simp at h
    subst h
    exact absurd hfl (nf _ rfl)
  · rw [if_neg hbl] at h
    simp only [Bool.not_eq_true] at hbl
    subst hbl
    rw [q1] at hl h
    exact ⟨c0, rest, lt, b, hb, hl, h⟩

theorem fixedStart_lt {lc : Int} {e : Str} (o : Bool) (h : HasText lc e) :
    fixedStart o e < usedCols lc e := by
  obtain ⟨i, c, h6, hlt, hget, hsp⟩ := h
  have hskip : ∀ r, r ≤ 6 → r + ((e.drop r).takeWhile isSpace).length ≤ i := by
    intro r hr
    have : ((e.drop r).takeWhile isSpace).length ≤ i - r := by
      refine takeWhile_length_le _ _ _ c ?_ hsp
      rw [List.getElem?_drop]
      have : r + (i - r) = i := by omega
      rw [this]; exact hget
    omega
  unfold fixedStart
  dsimp only
  split
  · split
    · omega
    · have := hskip 6 (le_refl _); omega
  · split
    · rename_i hl
      have hll : fixedLabelLen e ≤ 6 - indent e := by
        unfold fixedLabelLen
        refine le_trans (List.takeWhile_prefix _).length_le ?_
        simp only [List.length_take]
        omega
      have hl1 := hl.1
      split
      · omega
      · have := hskip (indent e + fixedLabelLen e) (by omega); omega
    · have := indent_le hget hsp
      omega

/-- **C43** In a fixed-format Fortran line whose statement text starts inside the used columns,
`right_txt` starts at the first `!` outside every character context of the used part of the
statement text; without such a `!` the main text is the whole used part and `right_txt` is what
becomes of the columns past the last one.  `open_delim` is the quote automaton's state. -/
theorem C43_fixed_break (ln : Int) (raw : Str) (prevDelim : Char) (lastColumn : Int)
    (f : FileLine) (hd : validDelim prevDelim = true)
    (h : analyzeFixed ln raw prevDelim lastColumn = .ok f)
    (hk : fixedCat (decide (prevDelim ≠ NUL)) (detab raw) = .fortran)
    (hs : fixedStart (decide (prevDelim ≠ NUL)) (detab raw) < usedCols lastColumn (detab raw))
    (S : Str) (hS : S = ((detab raw).take (usedCols lastColumn (detab raw))).drop
      (fixedStart (decide (prevDelim ≠ NUL)) (detab raw))) :
    (∃ k, f.main_txt ++ f.right_space = S.take k ∧ IsFixedBreak (ctxOf prevDelim) S k ∧
        (∀ j < k, ¬ IsFixedBreak (ctxOf prevDelim) S j) ∧ f.open_delim = NUL ∧
        f.right_txt = (detab raw).drop (fixedStart (decide (prevDelim ≠ NUL)) (detab raw) + k)) ∨
    (f.main_txt ++ f.right_space = S ∧ (∀ j, ¬ IsFixedBreak (ctxOf prevDelim) S j) ∧
        ctxOf f.open_delim = quoteState (ctxOf prevDelim) S ∧
        f.right_txt = overflowText ((detab raw).drop (usedCols lastColumn (detab raw)))) := by
  obtain ⟨c0, rest, lt, b, hb, hl, h⟩ := fixed_body h hk
  obtain ⟨_, _, _, _, _, _, _, _, _, h10⟩ := analyzeFixedBody_spec hd hs h
  subst hS
  rcases h10 with ⟨k, k1, k2, k3, k4, k5, k6⟩ | h10
  · exact Or.inl ⟨k, k1, k3, k4, k5, k6⟩
  · exact Or.inr h10

example : ∃ f, analyzeFixed 3 "   10 x = 'it''s !' ! c".toList NUL 72 = .ok f ∧
    f.main_txt = "x = 'it''s !'".toList ∧ f.right_txt = "! c".toList ∧
    f.left_txt = "   10".toList :=
  ⟨_, rfl, by decide, by decide, by decide⟩

theorem std_space {e : Str} (h : StdControl e) (c : Char) (hc : c ∈ e.take 6)
    (hs : isSpace c = true) : c = ' ' := by
  rcases h with ⟨a, d, b, hd, hdig⟩ | ⟨x, hx, hxs⟩
  · rw [hd] at hc
    simp [blanks] at hc
    rcases hc with hc | hc | hc
    · exact hc.2
    · have := hdig c hc
      rw [isDigit_toNat] at this
      exfalso
      unfold isSpace at hs
      simp at hs
      rcases hs with ((((rfl | rfl) | rfl) | rfl) | rfl) | rfl <;> simp at this
    · exact hc.2
  · rw [hx] at hc
    simp [blanks] at hc
    rcases hc with hc | hc
    · exact hc
    · subst hc; simp [hs] at hxs

theorem all_space_blanks {s : Str} (h : ∀ c ∈ s, c = ' ') : s = blanks s.length := by
  unfold blanks
  exact List.eq_replicate_iff.mpr ⟨rfl, h⟩

/-- The printed control region of a line in standard form is the original one. -/
theorem fixed_prefix {e : Str} {pd : Char} {c0 : Char} {rest lt : Str} {b : Bits} {r : Nat}
    {bl : Bool} (hb : body e = c0 :: rest) (hstd : StdControl e) (h7 : 6 < e.length)
    (hpd : pd = NUL ∨ e.take 5 = blanks 5)
    (hl : fixedLeft e pd (indent e) (upChar c0) = .ok (lt, b, r, bl)) :
    FileLine.padRight6 lt ++ (if r > 6 then (e.drop 6).take (r - 6) else []) = e.take r := by
  obtain ⟨q1, q2, q3, q4, q5, q6, q7, q8, q9, q10, q11, q12, q13, q14, q15⟩ :=
    fixedLeft_ok hb hl
  have hri : e.drop (indent e) = c0 :: rest := by rw [drop_indent, hb]
  have hc0 : isBlankChar c0 = false := by
    have := List.head?_dropWhile_not isBlankChar e
    have hb' : e.dropWhile isBlankChar = c0 :: rest := hb
    rw [hb'] at this
    simpa using this
  have key : FileLine.padRight6 lt = e.take 6 ∧ 6 ≤ r := by
    by_cases h5 : indent e = 5
    · rw [q13 h5]
      refine ⟨?_, ?_⟩
      · unfold FileLine.padRight6
        have : (e.take 6).length = 6 := by simp; omega
        rw [this]; simp [blanks]
      · rw [q1]; unfold fixedStart; rw [if_pos h5]; dsimp only; split <;> omega
    · by_cases hlab : HasFixedLabel e
      · -- a label
        have hlt5 := hlab.1
        have hdig0 : isDigit c0 = true := by
          obtain ⟨_, c, hc, hcd⟩ := hlab
          rw [hb] at hc; simp at hc; rw [hc]; exact hcd
        have hsp0 : isSpace c0 = false := by
          rw [isDigit_toNat] at hdig0
          by_contra hx
          simp only [Bool.not_eq_false] at hx
          unfold isSpace at hx
          simp at hx
          rcases hx with ((((rfl | rfl) | rfl) | rfl) | rfl) | rfl <;> simp at hdig0
        have hmem : ∀ k, indent e < k → c0 ∈ e.take k := by
          intro k hk
          have : e[indent e]? = some c0 := by rw [← List.head?_drop, hri]; rfl
          rw [List.mem_take_iff_getElem]
          rw [List.getElem?_eq_some_iff] at this
          obtain ⟨hlt, heq⟩ := this
          exact ⟨indent e, by omega, heq⟩
        have hpd' : pd = NUL := by
          rcases hpd with hpd | hpd
          · exact hpd
          · exfalso
            have := hmem 5 hlt5
            rw [hpd] at this
            simp [blanks] at this
            subst this
            revert hdig0; decide
        rcases hstd with ⟨a, d, bb, hd, hdig⟩ | ⟨x, hx, hxs⟩
        · -- blanks, digits, blanks
          have hdne : d ≠ [] := by
            intro hdn
            have := hmem 6 (by omega)
            rw [hd, hdn] at this
            simp [blanks] at this
            rw [this.2] at hdig0; revert hdig0; decide
          have hsplit : e = blanks a ++ (d ++ (blanks bb ++ e.drop 6)) := by
            conv_lhs => rw [← List.take_append_drop 6 e, hd]
            simp
          obtain ⟨d0, ds, rfl⟩ : ∃ d0 ds, d = d0 :: ds := by
            cases d with
            | nil => exact absurd rfl hdne
            | cons x y => exact ⟨x, y, rfl⟩
          have hd0 : isBlankChar d0 = false := by
            have := hdig d0 (by simp)
            rw [isDigit_toNat] at this
            by_contra hx
            simp only [Bool.not_eq_false] at hx
            unfold isBlankChar at hx
            simp at hx
            rcases hx with (rfl | rfl) | rfl <;> simp at this
          have htw : ∀ n (t : Str), (blanks n ++ (d0 :: t)).takeWhile isBlankChar = blanks n := by
            intro n t
            induction n with
            | zero => simp [blanks, hd0]
            | succ n ih =>
              unfold blanks at ih ⊢
              rw [List.replicate_succ]
              simp [isBlankChar] at ih ⊢
              exact ih
          have hind : indent e = a := by
            unfold indent
            rw [hsplit]
            simp only [List.cons_append]
            rw [htw]; simp [blanks]
          have hlen : a + (d0 :: ds).length + bb = 6 := by
            have := congrArg List.length hd
            simp [blanks] at this
            simp; omega
          have hbody : body e = (d0 :: ds) ++ (blanks bb ++ e.drop 6) := by
            rw [← drop_indent, hind]
            conv_lhs => rw [hsplit]
            rw [List.drop_append_of_le_length (by simp [blanks])]
            simp [blanks]
          have hfl : fixedLabelLen e = (d0 :: ds).length := by
            unfold fixedLabelLen
            rw [hind, hbody, ← List.append_assoc, List.take_append_of_le_length (by simp [blanks]; simp at hlen; omega),
              List.take_of_length_le (by simp [blanks]; simp at hlen; omega)]
            rw [List.takeWhile_append_of_pos hdig]
            have : (blanks bb).takeWhile isDigit = [] := by
              cases bb with
              | zero => rfl
              | succ n => simp [blanks, List.replicate_succ, isDigit]
            rw [this]; simp
          have hr1 : indent e + fixedLabelLen e = a + (d0 :: ds).length := by rw [hind, hfl]
          have hr1le : a + (d0 :: ds).length ≤ 6 := by omega
          rw [q14 hlab, hr1]
          have htake : e.take (a + (d0 :: ds).length) = blanks a ++ (d0 :: ds) := by
            conv_lhs => rw [hsplit, ← List.append_assoc]
            rw [List.take_append_of_le_length (by simp [blanks])]
            rw [List.take_of_length_le (by simp [blanks])]
          refine ⟨?_, ?_⟩
          · unfold FileLine.padRight6
            rw [htake, hd]
            congr 2
            simp [blanks] at hlen ⊢; omega
          · rw [q1]
            unfold fixedStart
            rw [if_neg h5, if_pos hlab]
            dsimp only
            simp only [hpd', ne_eq, not_true_eq_false, decide_false, Bool.false_eq_true, if_false]
            rw [hr1]
            have : e.drop (a + (d0 :: ds).length) = blanks bb ++ e.drop 6 := by
              conv_lhs => rw [hsplit, ← List.append_assoc]
              rw [List.drop_append_of_le_length (by simp [blanks])]
              simp [blanks]
            rw [this, List.takeWhile_append_of_pos (by
              intro c hc; simp [blanks] at hc; rw [hc.2]; rfl)]
            simp [blanks] at hlen ⊢; omega
        · exfalso
          have := hmem 5 hlt5
          have h5t : e.take 5 = blanks 5 := by
            have := congrArg (List.take 5) hx
            simpa [List.take_take, blanks] using this
          rw [h5t] at this
          simp [blanks] at this
          rw [this] at hdig0
          revert hdig0; decide
      · by_cases h6 : indent e < 6
        · -- text in the label columns: not standard
          exfalso
          have hlt5 : indent e < 5 := by omega
          have hnd : isDigit c0 ≠ true := fun hx => hlab ⟨hlt5, c0, by rw [hb]; rfl, hx⟩
          have hget : e[indent e]? = some c0 := by rw [← List.head?_drop, hri]; rfl
          have hmem : ∀ k, indent e < k → c0 ∈ e.take k := by
            intro k hk
            rw [List.mem_take_iff_getElem]
            rw [List.getElem?_eq_some_iff] at hget
            obtain ⟨hlt, heq⟩ := hget
            exact ⟨indent e, by omega, heq⟩
          rcases hstd with ⟨a, d, bb, hd, hdig⟩ | ⟨x, hx, hxs⟩
          · have := hmem 6 h6
            rw [hd] at this
            simp [blanks] at this
            rcases this with this | this | this
            · rw [this.2] at hc0; simp [isBlankChar] at hc0
            · exact hnd (hdig c0 this)
            · rw [this.2] at hc0; simp [isBlankChar] at hc0
          · have h5t : e.take 5 = blanks 5 := by
              have := congrArg (List.take 5) hx
              simpa [List.take_take, blanks] using this
            have := hmem 5 hlt5
            rw [h5t] at this
            simp [blanks] at this
            rw [this] at hc0; simp [isBlankChar] at hc0
        · rw [q15 h5 hlab]
          refine ⟨?_, ?_⟩
          · have hall : ∀ c ∈ e.take 6, c = ' ' := by
              intro c hc
              refine std_space hstd c hc ?_
              apply blank_isSpace
              have : e.take 6 = (e.takeWhile isBlankChar).take 6 := by
                rw [← take_indent, List.take_take]
                congr 1; omega
              rw [this] at hc
              exact List.mem_takeWhile_imp (List.mem_of_mem_take hc)
            rw [all_space_blanks hall]
            have : (e.take 6).length = 6 := by simp; omega
            rw [this]; rfl
          · rw [q1]; unfold fixedStart; rw [if_neg h5, if_neg hlab]; omega
  rw [key.1]
  split
  · exact take_append_drop_take _ _ _ key.2
  · have : r = 6 := by omega
    rw [this]; simp

/-- **C04** (other lines) A fixed-format line that is not Fortran prints as its tab-expanded
text. -/
theorem C04_fixed_roundtrip_nonfortran (ln : Int) (raw : Str) (prevDelim : Char) (lastColumn : Int)
    (f : FileLine) (h : analyzeFixed ln raw prevDelim lastColumn = .ok f)
    (hk : fixedCat (decide (prevDelim ≠ NUL)) (detab raw) ≠ .fortran) :
    f.print = detab raw := by
  obtain ⟨h1, h2, h3, h4, h5, h6, h7⟩ := C44_fixed_nonfortran_fields ln raw prevDelim lastColumn f h hk
  unfold FileLine.print
  simp [h1, h2, h3, h4, h5, h7]

/-- **C04** (Fortran lines) Printing an analysed fixed-format line gives the tab-expanded text back
up to the last column; the columns past the last one are kept, dropped when blank, or turned into a
comment.  Missing from the full claim: lines whose control columns are not in standard form (text
in columns 1-6, other white space there), a label inside an open character context, and lines
without text in the used columns; each of these has a counterexample below. -/
theorem C04_fixed_roundtrip_partial (ln : Int) (raw : Str) (prevDelim : Char) (lastColumn : Int)
    (f : FileLine) (hd : validDelim prevDelim = true)
    (h : analyzeFixed ln raw prevDelim lastColumn = .ok f)
    (hk : fixedCat (decide (prevDelim ≠ NUL)) (detab raw) = .fortran)
    (hstd : StdControl (detab raw)) (htext : HasText lastColumn (detab raw))
    (hopen : prevDelim = NUL ∨ (detab raw).take 5 = blanks 5) :
    f.print = detab raw ∨
    f.print = (detab raw).take (usedCols lastColumn (detab raw)) ++
      overflowText ((detab raw).drop (usedCols lastColumn (detab raw))) := by
  have hflag := (C44_fixed_category ln raw prevDelim lastColumn f h .fortran).mpr hk
  obtain ⟨_, _, _, hff, _⟩ := C44_fixed_left ln raw prevDelim lastColumn f h hk
  obtain ⟨c0, rest, lt, b, hb, hl, h⟩ := fixed_body h hk
  have hs := fixedStart_lt (decide (prevDelim ≠ NUL)) htext
  generalize fixedStart (decide (prevDelim ≠ NUL)) (detab raw) = r at *
  have hul := usedCols_le lastColumn (detab raw)
  have h7 : 6 < (detab raw).length := by
    obtain ⟨i, c, h6, hlt, _⟩ := htext
    omega
  generalize detab raw = e at *
  obtain ⟨g1, g2, g3, g4, g5, g6, g7, g8, g9, h10⟩ := analyzeFixedBody_spec hd hs h
  have hpre := fixed_prefix hb hstd h7 hopen hl
  rw [← g1, ← g2] at hpre
  unfold FileLine.print
  have hfor : f.isFortran = true := hflag
  simp only [hfor, hff, Bool.and_self, if_true]
  rw [hpre, List.append_assoc (e.take r)]
  rcases h10 with ⟨k, k1, k2, k3, k4, k5, k6⟩ | ⟨k1, k2, k3, k4⟩
  · left
    rw [k1, k6, List.drop_take, List.take_take]
    have hm : min k (usedCols lastColumn e - r) = k := by omega
    rw [hm]
    have := take_append_drop_take e r (r + k) (by omega)
    rw [Nat.add_sub_cancel_left] at this
    rw [this, List.take_append_drop]
  · right
    rw [k1, k4, List.drop_take, take_append_drop_take _ _ _ (by omega)]

/-- **C04** With truncation off (or a line that fits), the partial theorem is an exact
round trip. -/
theorem C04_fixed_roundtrip_fits_partial (ln : Int) (raw : Str) (prevDelim : Char)
    (lastColumn : Int) (f : FileLine) (hd : validDelim prevDelim = true)
    (h : analyzeFixed ln raw prevDelim lastColumn = .ok f)
    (hk : fixedCat (decide (prevDelim ≠ NUL)) (detab raw) = .fortran)
    (hstd : StdControl (detab raw)) (htext : HasText lastColumn (detab raw))
    (hopen : prevDelim = NUL ∨ (detab raw).take 5 = blanks 5)
    (hfit : lastColumn ≤ 0 ∨ ((detab raw).length : Int) ≤ lastColumn) :
    f.print = detab raw := by
  have hu : usedCols lastColumn (detab raw) = (detab raw).length := by
    unfold usedCols
    split
    · rcases hfit with hfit | hfit <;> omega
    · rfl
  rcases C04_fixed_roundtrip_partial ln raw prevDelim lastColumn f hd h hk hstd htext hopen with
    h1 | h1
  · exact h1
  · rw [h1, hu]; simp [overflowText, body]

/-- A labelled line with a tab meets the hypotheses of the round-trip theorems. -/
example : detab "10\tx = 1".toList = "10      x = 1".toList ∧
    StdControl (detab "10\tx = 1".toList) ∧ HasText 72 (detab "10\tx = 1".toList) ∧
    ∃ f, analyzeFixed 1 "10\tx = 1".toList NUL 72 = .ok f ∧ f.isFortran = true ∧
      f.print = "10      x = 1".toList :=
  ⟨by decide, Or.inl ⟨0, "10".toList, 4, by decide, by decide⟩,
    ⟨8, 'x', by decide, by decide, by decide, by decide⟩, _, rfl, by decide, by decide⟩

/-- Overflow text becomes a comment, blanks past the last column are dropped. -/
example : ∃ f, analyzeFixed 1 "      x=12  ".toList NUL 9 = .ok f ∧
    f.print = "      x=1! 2  ".toList := ⟨_, rfl, by decide⟩

/-- Statement text in the control columns moves to column 7. -/
theorem C04_fixed_roundtrip_violation_text :
    ∃ f, analyzeFixed 1 "x=1".toList NUL 0 = .ok f ∧ f.print = "      x=1".toList :=
  ⟨_, rfl, by decide⟩

/-- Text right after a short label moves to column 7. -/
theorem C04_fixed_roundtrip_violation_label :
    ∃ f, analyzeFixed 1 "10 x=1".toList NUL 0 = .ok f ∧ f.print = "10    x=1".toList :=
  ⟨_, rfl, by decide⟩

/-- A label in an open character context: the blanks after it are printed twice. -/
theorem C04_fixed_roundtrip_violation_open :
    ∃ f, analyzeFixed 1 "10    abc'".toList '\'' 0 = .ok f ∧
      f.print = "10        abc'".toList :=
  ⟨_, rfl, by decide⟩

/-- A carriage return in the control columns is printed as a blank. -/
theorem C04_fixed_roundtrip_violation_cr :
    ∃ f, analyzeFixed 1 "\r      x=1".toList NUL 0 = .ok f ∧
      f.print = "       x=1".toList :=
  ⟨_, rfl, by decide⟩

/-- Text that starts past the last column is printed twice. -/
theorem C04_fixed_roundtrip_violation_past :
    ∃ f, analyzeFixed 1 "            x=1".toList NUL 10 = .ok f ∧
      f.print = "            x=1!   x=1".toList :=
  ⟨_, rfl, by decide⟩

/-- **C05** When the line has text in the used columns, main text and right space are a contiguous
part of the text up to the last column.  Missing from the full claim: lines whose text starts past
the last column; see the violation. -/
theorem C05_fixed_last_column_partial (ln : Int) (raw : Str) (prevDelim : Char) (lastColumn : Int)
    (f : FileLine) (hd : validDelim prevDelim = true) (hlc : lastColumn > 0)
    (h : analyzeFixed ln raw prevDelim lastColumn = .ok f)
    (htext : HasText lastColumn (detab raw)) :
    ∃ s, (f.main_txt ++ f.right_space) <+: ((detab raw).take lastColumn.toNat).drop s := by
  by_cases hk : fixedCat (decide (prevDelim ≠ NUL)) (detab raw) = .fortran
  · have hs := fixedStart_lt (decide (prevDelim ≠ NUL)) htext
    have hu : (detab raw).take (usedCols lastColumn (detab raw)) =
        (detab raw).take lastColumn.toNat := by
      unfold usedCols
      rw [if_pos hlc]
      rw [← List.take_take, List.take_length]
    refine ⟨fixedStart (decide (prevDelim ≠ NUL)) (detab raw), ?_⟩
    rcases C43_fixed_break ln raw prevDelim lastColumn f hd h hk hs _ rfl with
      ⟨k, k1, _⟩ | ⟨k1, _⟩
    · rw [k1, hu]; exact List.take_prefix _ _
    · rw [k1, hu]; exact List.prefix_rfl
  · obtain ⟨_, _, h3, h4, _⟩ := C44_fixed_nonfortran_fields ln raw prevDelim lastColumn f h hk
    exact ⟨0, by simp [h3, h4]⟩

/-- Text past the last column does reach the Fortran text when the line is blank before it. -/
theorem C05_fixed_last_column_violation :
    ∃ f, analyzeFixed 1 "            x=1".toList NUL 10 = .ok f ∧ f.main_txt = "x=1".toList ∧
      f.isFortran = true :=
  ⟨_, rfl, by decide, by decide⟩

example : HasText 9 (detab "      x=12  ".toList) :=
  ⟨6, 'x', by decide, by decide, by decide, by decide⟩

theorem throw_or_ok {α : Type} {p : Prop} [Decidable p] {x : Res α} (h : ∃ f, x = .ok f) :
    (∃ f, (if p then .error .exc else x) = .ok f) ∨ (if p then .error .exc else x) = .error .exc := by
  split
  · exact Or.inr rfl
  · exact Or.inl h

/-- **C44** (outcome) On ASCII text and a legitimate previous context the fixed-format analysis has
no undefined behaviour and fails no assertion. -/
theorem C44_fixed_outcome (ln : Int) (raw : Str) (prevDelim : Char) (lastColumn : Int)
    (hd : validDelim prevDelim = true) (ha : AsciiStr raw) :
    (∃ f, analyzeFixed ln raw prevDelim lastColumn = .ok f) ∨
    analyzeFixed ln raw prevDelim lastColumn = .error .exc := by
  have hae : AsciiStr (expandTabs raw) := by
    unfold expandTabs
    split
    · split
      · intro c hc
        simp only [List.mem_append] at hc
        rcases hc with ((hc | hc) | hc) | hc
        · exact ha.take _ c hc
        · simp [blanks] at hc; rw [hc.2]; rfl
        · simp [blanks] at hc; rw [hc.2]; rfl
        · exact ha.drop _ c hc
      · exact ha
    · exact ha
  unfold analyzeFixed
  dsimp only
  split
  · exact Or.inl ⟨_, rfl⟩
  generalize expandTabs raw = e at hae ⊢
  split
  · exact Or.inl ⟨_, rfl⟩
  rename_i ri hri
  obtain ⟨e1, e2, e3, e4⟩ := findFirstNotOf_blank _ _ hri
  have hac : isAscii (e.getD ri NUL) = true := by
    apply hae
    rw [List.getD_eq_getElem?_getD, List.getElem?_eq_getElem e4]
    simp
  simp only [cToUpper, hac, if_true, Res.ok_bind]
  have hup := isAscii_upChar _ hac
  generalize upChar (e.getD ri NUL) = c at hup ⊢
  have hrest : (∃ f, fixedRest ln e prevDelim lastColumn ri c = .ok f) ∨
      fixedRest ln e prevDelim lastColumn ri c = .error .exc := by
    have hleft : ∃ lt b r bl, fixedLeft e prevDelim ri c = .ok (lt, b, r, bl) ∧ r ≤ e.length := by
      unfold fixedLeft
      dsimp only
      by_cases h6 : ri < 6
      · rw [if_pos h6]
        have inner : ∃ lt b r1, (if ri = 5 then
            .ok (e.take 6, (if e.getD 5 NUL ≠ '0' then
              { ({ fixed_format := true } : Bits) with continuation := true } else { fixed_format := true }), 6)
          else do
            let d ← cIsDigit c
            if d then
              let r ← scanDigits (6 - ri) ri (e.drop ri)
              .ok (e.take r, { ({ fixed_format := true } : Bits) with label := true }, r)
            else .ok ([], { fixed_format := true }, ri) : Res (Str × Bits × Nat)) = .ok (lt, b, r1) ∧
            r1 ≤ e.length := by
          by_cases h5 : ri = 5
          · rw [if_pos h5]
            exact ⟨_, _, _, rfl, by omega⟩
          · rw [if_neg h5]
            simp only [cIsDigit, hup, if_true, Res.ok_bind]
            split
            · obtain ⟨r, hr⟩ := scanDigits_ascii (6 - ri) ri _ (hae.drop ri)
              rw [hr]
              have := scanDigits_ge _ _ _ _ hr
              simp at this
              exact ⟨_, _, _, rfl, by omega⟩
            · exact ⟨_, _, _, rfl, by omega⟩
        obtain ⟨lt, b, r1, hin, hr1⟩ := inner
        rw [hin]
        simp only [Res.ok_bind]
        split
        · obtain ⟨r, hr⟩ := scanSpaces_ascii r1 _ (hae.drop r1)
          rw [hr]
          have := scanSpaces_ge _ _ _ hr
          simp at this
          exact ⟨_, _, _, _, rfl, by omega⟩
        · exact ⟨_, _, _, _, rfl, hr1⟩
      · rw [if_neg h6]
        exact ⟨_, _, _, _, rfl, by omega⟩
    obtain ⟨lt, b, r, bl, hl, hr⟩ := hleft
    unfold fixedRest
    rw [hl]
    simp only [Res.ok_bind]
    split
    · exact Or.inl ⟨_, rfl⟩
    · unfold analyzeFixedBody findTrailingFixed
      rw [if_pos hd]
      dsimp only
      have htl : truncCol lastColumn e.length ≤ e.length := usedCols_le lastColumn e
      rcases findTrailingFixedGo_spec prevDelim r ((e.take (truncCol lastColumn e.length)).drop r) hd with
        ⟨t, h1, h2, h3, _⟩ | ⟨d, h1, h2, _⟩
      · rw [h1]
        simp at h3
        have htle : t ≤ e.length := by omega
        simp only [Res.ok_bind, substr, substrFrom, hr, htle, if_true]
        exact throw_or_ok (by unfold mkFull; simp [validDelim])
      · rw [h1]
        simp only [Res.ok_bind]
        by_cases hlt : truncCol lastColumn e.length < e.length
        · simp only [hlt, if_true, Res.ok_bind, substr, substrFrom, hr, htl]
          exact throw_or_ok (by unfold mkFull; simp [h2])
        · simp only [hlt, if_false, Res.ok_bind, substrFrom, hr, if_true]
          exact throw_or_ok (by unfold mkFull; simp [h2])
  have hrest' := hrest
  unfold fixedRest at hrest'
  split
  · split
    · exact Or.inl ⟨_, rfl⟩
    · obtain ⟨inc, hinc⟩ := isIncludeLine_ascii (ri := ri) hae
      rw [hinc]
      simp only [Res.ok_bind]
      split
      · exact Or.inl ⟨_, rfl⟩
      · split
        · obtain ⟨bb, hbb, _⟩ := isFlprLiteral_ok e ri
          rw [hbb]
          simp only [Res.ok_bind]
          split
          · exact Or.inr rfl
          · split
            · exact Or.inl ⟨_, rfl⟩
            · exact Or.inl ⟨_, rfl⟩
        · exact hrest'
  · exact hrest'

/-- The throwing cases are real: a label or continuation mark followed only by a comment. -/
example : analyzeFixed 1 "   10 ! note".toList NUL 72 = .error .exc ∧
    analyzeFixed 1 "     & ! note".toList NUL 72 = .error .exc ∧
    analyzeFixed 1 "c#flpr123 literal".toList NUL 72 = .error .exc := by decide

end FLPR
