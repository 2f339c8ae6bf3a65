import Verif.Comment.Fixed
import Verif.LogicalFile.StmtEditSet
import Mathlib.Tactic.Ring
/-!
# Comment lines in fixed format: the analysis of the lines
-/

namespace FLPR
open Spec SP PP PF

/-! ### The label of a line without statement -/

theorem digitsVal_bound (ds : Str) (hd : ∀ c ∈ ds, isDigit c = true) : digitsVal ds < 10 ^ ds.length := by
  have key : ∀ (ds : Str) (n : Nat), (∀ c ∈ ds, isDigit c = true) →
      ds.foldl (fun n c => n * 10 + (c.toNat - '0'.toNat)) n < (n + 1) * 10 ^ ds.length := by
    intro ds
    induction ds with
    | nil => intro n _; simp
    | cons c cs ih =>
      intro n h
      rw [List.foldl_cons, List.length_cons]
      refine (ih _ (fun x hx => h x (by simp [hx]))).trans_le ?_
      have hc : c.toNat - '0'.toNat ≤ 9 := by
        have := h c (by simp)
        unfold isDigit at this
        simp only [Bool.and_eq_true, decide_eq_true_eq] at this
        have h9 : c.toNat ≤ '9'.toNat := this.2
        have e9 : ('9' : Char).toNat = 57 := rfl
        have e0 : ('0' : Char).toNat = 48 := rfl
        omega
      rw [pow_succ]
      have : (n * 10 + (c.toNat - '0'.toNat) + 1) ≤ (n + 1) * 10 := by omega
      calc (n * 10 + (c.toNat - '0'.toNat) + 1) * 10 ^ cs.length ≤ ((n + 1) * 10) * 10 ^ cs.length := Nat.mul_le_mul_right _ this
        _ = (n + 1) * (10 ^ cs.length * 10) := by ring
  simpa [digitsVal] using key ds 0 hd

/-- A line that holds a label only: the label can be read. -/
theorem stoi_label {e : Str} (hl : HasFixedLabel e) (hs : fixedStart false e = e.length) : ∃ v, stoi e = .ok v := by
  obtain ⟨h5, c0, hc0, hd⟩ := hl
  have hl : HasFixedLabel e := ⟨h5, c0, hc0, hd⟩
  obtain ⟨rest, hb⟩ : ∃ rest, body e = c0 :: rest := by
    cases hb : body e with
    | nil => rw [hb] at hc0; cases hc0
    | cons a b => rw [hb] at hc0; injection hc0 with h; subst h; exact ⟨b, rfl⟩
  have hns := isDigit_not_space hd
  have hdrop : e.dropWhile isSpace = body e := by
    have he : e = e.take (indent e) ++ body e := by rw [← drop_indent, List.take_append_drop]
    have hall : ∀ c ∈ e.take (indent e), isSpace c = true := by
      intro c hc
      have : c ∈ e.takeWhile isBlankChar := by
        have hp : e.take (indent e) = e.takeWhile isBlankChar := by
          unfold indent
          exact (List.prefix_iff_eq_take.mp (List.takeWhile_prefix _)).symm
        rwa [hp] at hc
      have h1 := List.mem_takeWhile_imp this
      unfold isBlankChar at h1
      simp only [Bool.or_eq_true, beq_iff_eq] at h1
      rcases h1 with (h1 | h1) | h1 <;> rw [h1] <;> rfl
    conv_lhs => rw [he]
    rw [List.dropWhile_append_of_pos hall, hb, List.dropWhile_cons, if_neg (by simp [hns.1])]
  -- the digits, and the blanks behind them
  have hlen : indent e < e.length := by
    by_contra hcon
    have := drop_indent e
    rw [List.drop_eq_nil_of_le (by omega), hb] at this
    cases this
  have hL : fixedLabelLen e ≤ 6 := by
    unfold fixedLabelLen
    refine (List.takeWhile_prefix _).length_le.trans ?_
    rw [List.length_take]
    omega
  have hsp : ∀ c ∈ (body e).drop (fixedLabelLen e), isSpace c = true := by
    unfold fixedStart at hs
    simp only [Bool.false_eq_true, if_false] at hs
    rw [if_neg (by omega), if_pos hl, ← List.drop_drop, drop_indent] at hs
    have hbl : (body e).length = e.length - indent e := by rw [← drop_indent, List.length_drop]
    have hfull : (((body e).drop (fixedLabelLen e)).takeWhile isSpace).length = ((body e).drop (fixedLabelLen e)).length := by
      rw [List.length_drop]
      have := (List.takeWhile_prefix (p := isSpace) (l := (body e).drop (fixedLabelLen e))).length_le
      rw [List.length_drop] at this
      have h4 : fixedLabelLen e ≤ (body e).length := by
        unfold fixedLabelLen
        refine (List.takeWhile_prefix _).length_le.trans ?_
        rw [List.length_take]
        omega
      omega
    have heq := (List.takeWhile_prefix (p := isSpace) (l := (body e).drop (fixedLabelLen e))).eq_of_length hfull
    intro c hc
    rw [← heq] at hc
    exact List.mem_takeWhile_imp hc
  have htake : (body e).takeWhile isDigit = (body e).take (fixedLabelLen e) := by
    have hdig : ∀ c ∈ (body e).take (fixedLabelLen e), isDigit c = true := by
      have hp : (body e).take (fixedLabelLen e) = ((body e).take (6 - indent e)).takeWhile isDigit := by
        have h1 : ((body e).take (6 - indent e)).takeWhile isDigit <+: body e :=
          (List.takeWhile_prefix _).trans (List.take_prefix _ _)
        exact (List.prefix_iff_eq_take.mp h1).symm
      intro c hc
      rw [hp] at hc
      exact List.mem_takeWhile_imp hc
    conv_lhs => rw [← List.take_append_drop (fixedLabelLen e) (body e)]
    rw [List.takeWhile_append_of_pos hdig]
    have : ((body e).drop (fixedLabelLen e)).takeWhile isDigit = [] := by
      cases hr : (body e).drop (fixedLabelLen e) with
      | nil => rfl
      | cons a r =>
        have ha := hsp a (by rw [hr]; simp)
        rw [List.takeWhile_cons, if_neg]
        intro hda
        rw [(isDigit_not_space hda).1] at ha
        cases ha
    rw [this, List.append_nil]
  have hnd : ∀ x, (body e).head? = some x → x = c0 := by
    intro x hx
    rw [hb] at hx
    injection hx with hx
    exact hx.symm
  unfold stoi
  dsimp only
  rw [hdrop]
  have h1 : (body e).head? ≠ some '-' := fun h => by rw [← hnd _ h] at hd; revert hd; decide
  have h2 : (body e).head? ≠ some '+' := fun h => by rw [← hnd _ h] at hd; revert hd; decide
  have h12 : ¬ ((body e).head? = some '-' ∨ (body e).head? = some '+') := fun h => h.elim h1 h2
  simp only [if_neg h12]
  have hne : (body e).takeWhile isDigit ≠ [] := by
    rw [hb, List.takeWhile_cons, if_pos hd]
    simp
  rw [if_neg hne]
  have hneg : ((body e).head? == some '-') = false := by simpa using h1
  rw [hneg]
  have hbound := digitsVal_bound ((body e).takeWhile isDigit) (fun c hc => List.mem_takeWhile_imp hc)
  have hlen6 : ((body e).takeWhile isDigit).length ≤ 6 := by
    rw [htake, List.length_take]
    omega
  have hpow : 10 ^ ((body e).takeWhile isDigit).length ≤ 10 ^ 6 := Nat.pow_le_pow_right (by omega) hlen6
  refine ⟨_, if_pos ⟨?_, ?_⟩⟩
  · simp
  · simp
    omega

/-! ### What analysed lines are -/

theorem fixed_kind {ln : Int} {raw : Str} {pd : Char} {lc : Int} {f : FileLine}
    (h : analyzeFixed ln raw pd lc = .ok f) : FixedKind f := by
  have hcat := C44_fixed_category ln raw pd lc f h
  have hf : ∀ hn : f.isFortran = false, _ := fun hn => C44_fixed_nonfortran_fields ln raw pd lc f h (by
    intro hk
    have := (hcat .fortran).mpr hk
    simp [catFlag, hn] at this)
  refine ⟨fun hn => ?_, fun hn => ?_, fun ht hn => ?_⟩
  · exact analyzeFixed_left h hn
  · obtain ⟨h1, h2, h3, h4, h5, h6, h7⟩ := hf hn
    refine ⟨⟨h2, h3, h4⟩, fun hlab => ?_⟩
    obtain ⟨e, he, h⟩ := analyzeFixed_cases h
    rw [h1, ← he]
    rcases h with ⟨_, rfl⟩ | ⟨c0, rest, hb, h⟩
    · simp [mkLeft] at hlab
    rcases h with ⟨_, _, rfl⟩ | ⟨_, _, rfl⟩ | ⟨_, _, h⟩
    · simp [mkLeft] at hlab
    · simp [mkLeft] at hlab
    rcases h with ⟨_, _, ⟨_, rfl⟩ | ⟨_, rfl⟩⟩ | ⟨_, h⟩
    · simp [mkLeft] at hlab
    · simp [mkLeft] at hlab
    unfold fixedRest at h
    rbind h with ⟨lt, b, r, bl⟩ hl
    have hle := fixedLeft_ok hb hl
    obtain ⟨q1, q2, q3, q4, q5, q6, q7, q8, q9, q10, q11, q12, q13, q14, q15⟩ := hle
    dsimp only at h
    split at h
    · rename_i hbl
      injection h with h
      subst h
      obtain ⟨p1, p2, p3⟩ := q2.mp hbl
      have hlab' : HasFixedLabel e := q3.mp (by simpa [mkLeft] using hlab)
      refine ⟨fun h0 => ?_, stoi_label hlab' ?_⟩
      · rw [h0] at hb
        cases hb
      · rw [← p3, q1, p1]
        rfl
    · exfalso
      have hbits := (analyzeFixedBody_misc h).2.1
      have hfor : f.isFortran = true := by
        unfold FileLine.isFortran FileLine.isTrivial
        rw [hbits, q6, q7, q8, q9, q10, q11]
        rfl
      rw [hn] at hfor
      cases hfor
  · have hk : fixedCat (decide (pd ≠ NUL)) (detab raw) ≠ .fortran := by
      intro hk
      have := (hcat .fortran).mpr hk
      simp [catFlag, hn] at this
    have h1 := hcat .preprocessor
    have h2 := hcat .directive
    have h3 := hcat .incl
    have h4 := hcat .comment
    have h5 := hcat .blank
    have h6 := fixedCat_ne_literal (decide (pd ≠ NUL)) (detab raw)
    unfold FileLine.isTrivial at ht
    revert h1 h2 h3 h4 h5 h6 hk ht
    cases fixedCat (decide (pd ≠ NUL)) (detab raw) <;> simp [catFlag] <;> intros <;> simp_all

theorem fixedLeft_ascii {e : Str} {pd : Char} {ri : Nat} {c : Char} (hae : AsciiStr e) (hup : isAscii c = true) (e4 : ri < e.length) :
    ∃ lt b r bl, fixedLeft e pd ri c = .ok (lt, b, r, bl) ∧ r ≤ e.length := by
  unfold fixedLeft
  dsimp only
  by_cases h6 : ri < 6
  · rw [if_pos h6]
    have inner : ∃ lt b r1, (if ri = 5 then
        .ok (e.take 6, (if e.getD 5 NUL ≠ '0' then
          { ({ fixed_format := true } : Bits) with continuation := true } else { fixed_format := true }), 6)
      else do
        let d ← cIsDigit c
        if d then
          let r ← scanDigits (6 - ri) ri (e.drop ri)
          .ok (e.take r, { ({ fixed_format := true } : Bits) with label := true }, r)
        else .ok ([], { fixed_format := true }, ri) : Res (Str × Bits × Nat)) = .ok (lt, b, r1) ∧
        r1 ≤ e.length := by
      by_cases h5 : ri = 5
      · rw [if_pos h5]
        exact ⟨_, _, _, rfl, by omega⟩
      · rw [if_neg h5]
        simp only [cIsDigit, hup, if_true, Res.ok_bind]
        split
        · obtain ⟨r, hr⟩ := scanDigits_ascii (6 - ri) ri _ (hae.drop ri)
          rw [hr]
          have := scanDigits_ge _ _ _ _ hr
          simp at this
          exact ⟨_, _, _, rfl, by omega⟩
        · exact ⟨_, _, _, rfl, by omega⟩
    obtain ⟨lt, b, r1, hin, hr1⟩ := inner
    rw [hin]
    simp only [Res.ok_bind]
    split
    · obtain ⟨r, hr⟩ := scanSpaces_ascii r1 _ (hae.drop r1)
      rw [hr]
      have := scanSpaces_ge _ _ _ hr
      simp at this
      exact ⟨_, _, _, _, rfl, by omega⟩
    · exact ⟨_, _, _, _, rfl, hr1⟩
  · rw [if_neg h6]
    exact ⟨_, _, _, _, rfl, by omega⟩

/-- Comments and blank lines can be read. -/
theorem analyzeFixed_trivial {raw : Str} (ha : AsciiStr raw) (hc : fixedCat false (detab raw) = .comment ∨ fixedCat false (detab raw) = .blank)
    (ln lc : Int) : ∃ f, analyzeFixed ln raw NUL lc = .ok f ∧ f.isTrivial = true ∧ f.open_delim = NUL := by
  suffices hs : ∃ f, analyzeFixed ln raw NUL lc = .ok f by
    obtain ⟨f, h⟩ := hs
    have hcat := C44_fixed_category ln raw NUL lc f h
    have hd : decide (NUL ≠ NUL) = false := by decide
    rw [hd] at hcat
    refine ⟨f, h, ?_, ?_⟩
    · unfold FileLine.isTrivial
      rcases hc with hc | hc
      · have := (hcat .comment).mpr hc
        simp only [catFlag] at this
        simp [this]
      · have := (hcat .blank).mpr hc
        simp only [catFlag] at this
        simp [this]
    · refine (C44_fixed_nonfortran_fields ln raw NUL lc f h ?_).2.2.2.2.2.1
      rw [hd]
      rcases hc with hc | hc <;> rw [hc] <;> decide
  rcases C44_fixed_outcome ln raw NUL lc (by decide) ha with h | h
  · exact h
  exfalso
  have hae := detab_ascii ha
  unfold analyzeFixed at h
  dsimp only at h
  rw [detab_eq] at h
  by_cases hraw : raw = []
  · rw [if_pos hraw] at h
    cases h
  rw [if_neg hraw] at h
  generalize detab raw = e at h hae hc
  cases hf : findFirstNotOf [' ', '\t', '\r'] e with
  | none =>
    rw [hf] at h
    cases h
  | some ri =>
    rw [hf] at h
    dsimp only at h
    obtain ⟨e1, e2, e3, e4⟩ := findFirstNotOf_blank _ _ hf
    obtain ⟨c0, rest, hbd⟩ : ∃ c0 rest, body e = c0 :: rest := by
      cases hbd : body e with
      | nil => exact absurd hbd e3
      | cons a b => exact ⟨a, b, rfl⟩
    have hget : e.getD ri NUL = c0 := by
      have : e[ri]? = some c0 := by
        rw [← List.head?_drop, e2, hbd]; rfl
      simp [List.getD_eq_getElem?_getD, this]
    have hac : isAscii c0 = true := by
      rw [← hget]
      apply hae
      rw [List.getD_eq_getElem?_getD, List.getElem?_eq_getElem e4]
      simp
    have hhead : ∀ x, isBlankChar x = false → ((ri = 0 ∧ c0 = x) ↔ e.head? = some x) := by
      intro x hx
      constructor
      · rintro ⟨h0, rfl⟩
        rw [h0, List.drop_zero] at e2
        rw [e2, hbd]; rfl
      · intro hh
        cases e with
        | nil => simp at hh
        | cons a as =>
          simp at hh
          subst hh
          have hi : indent (a :: as) = 0 := by unfold indent; simp [hx]
          have hbb : body (a :: as) = a :: as := by unfold body; simp [hx]
          rw [hbb] at hbd
          simp at hbd
          exact ⟨by omega, hbd.1.symm⟩
    rw [hget] at h
    simp only [cToUpper, hac, if_true, Res.ok_bind, upChar_hash, upChar_bang, upChar_star, upChar_C] at h
    unfold fixedCat at hc
    rw [if_neg e3] at hc
    -- the part behind the tests
    have key : ¬ (indent e ≠ 5 ∧ e.head? = some '#') → ¬ (indent e ≠ 5 ∧ startsInclude (body e)) →
        ¬ (indent e ≠ 5 ∧ ((body e).head? = some '!' ∨
          (indent e = 0 ∧ (e.head? = some '*' ∨ e.head? = some 'C' ∨ e.head? = some 'c')))) →
        fixedRest ln e NUL lc ri (upChar c0) = .error .exc → False := by
      intro k1 k2 k3 hr
      rw [if_neg k1, if_neg k2, if_neg k3] at hc
      have hbl : (indent e = 5 ∨ HasFixedLabel e) ∧ fixedStart false e = e.length := by
        by_contra hcon
        rw [if_neg (by simpa using hcon)] at hc
        rcases hc with hc | hc <;> cases hc
      unfold fixedRest at hr
      cases hl : fixedLeft e NUL ri (upChar c0) with
      | ok q =>
        obtain ⟨lt, b, r, bl⟩ := q
        have hl' := hl
        rw [e1] at hl'
        obtain ⟨q1, q2, _⟩ := fixedLeft_ok hbd hl'
        have : bl = true := q2.mpr ⟨rfl, hbl.1, by rw [q1]; exact hbl.2⟩
        rw [hl, Res.ok_bind] at hr
        dsimp only at hr
        rw [if_pos this] at hr
        cases hr
      | error er =>
        exfalso
        obtain ⟨lt, b, r, bl, hl', _⟩ := fixedLeft_ascii (pd := NUL) hae (isAscii_upChar _ hac) e4
        rw [hl] at hl'
        cases hl'
    by_cases h5 : ri ≠ 5
    · rw [if_pos h5] at h
      have h5' : indent e ≠ 5 := by omega
      by_cases hhash : ri = 0 ∧ c0 = '#'
      · rw [if_pos hhash] at h
        cases h
      · rw [if_neg hhash] at h
        have hhash' : ¬ (indent e ≠ 5 ∧ e.head? = some '#') := fun hx => hhash ((hhead _ (by decide)).mpr hx.2)
        obtain ⟨inc, hinc⟩ := isIncludeLine_ascii (ri := ri) hae
        have hinc' := isIncludeLine_ok e4 hinc
        rw [e2] at hinc'
        rw [hinc, Res.ok_bind] at h
        by_cases hi : inc = true
        · rw [if_pos hi] at h
          cases h
        · rw [if_neg hi] at h
          have hi' : ¬ (indent e ≠ 5 ∧ startsInclude (body e)) := fun hx => hi (hinc'.mpr hx.2)
          have q1 := hhead '*' (by decide)
          have q2 := hhead 'C' (by decide)
          have q3 := hhead 'c' (by decide)
          by_cases hcom : c0 = '!' ∨ ri = 0 ∧ (c0 = '*' ∨ c0 = 'C' ∨ c0 = 'c')
          · rw [if_pos hcom] at h
            have hcom' : indent e ≠ 5 ∧ ((body e).head? = some '!' ∨
                (indent e = 0 ∧ (e.head? = some '*' ∨ e.head? = some 'C' ∨ e.head? = some 'c'))) := by
              refine ⟨h5', ?_⟩
              rcases hcom with hx | ⟨hx, hy | hy | hy⟩
              · exact .inl (by rw [hbd, hx]; rfl)
              · exact .inr ⟨by omega, .inl (q1.mp ⟨hx, hy⟩)⟩
              · exact .inr ⟨by omega, .inr (.inl (q2.mp ⟨hx, hy⟩))⟩
              · exact .inr ⟨by omega, .inr (.inr (q3.mp ⟨hx, hy⟩))⟩
            rw [if_neg hhash', if_neg hi', if_pos hcom'] at hc
            have hm : ¬ isMarker (body e) := by
              intro hm
              rw [if_pos hm] at hc
              rcases hc with hc | hc <;> cases hc
            obtain ⟨bb, hbb, hiff⟩ := isFlprLiteral_ok e ri
            rw [e2] at hiff
            rw [hbb, Res.ok_bind, if_neg (fun hb => hm (hiff.mp hb).1)] at h
            split at h <;> cases h
          · rw [if_neg hcom] at h
            refine key hhash' hi' ?_ h
            rintro ⟨_, hx | ⟨hx, hy⟩⟩
            · rw [hbd] at hx
              injection hx with hx
              exact hcom (.inl hx)
            · rcases hy with hy | hy | hy
              · exact hcom (.inr ⟨by omega, .inl (q1.mpr hy).2⟩)
              · exact hcom (.inr ⟨by omega, .inr (.inl (q2.mpr hy).2)⟩)
              · exact hcom (.inr ⟨by omega, .inr (.inr (q3.mpr hy).2)⟩)
    · rw [if_neg h5] at h
      have h5' : indent e = 5 := by omega
      exact key (fun hx => hx.1 h5') (fun hx => hx.1 h5') (fun hx => hx.1 h5') h

/-! ### The line number -/

theorem fixedBody_number (ln ln' : Int) (e : Str) (pd : Char) (lc : Int) (lt : Str) (b : Bits) (ri : Nat) :
    BothWays Renumbered (analyzeFixedBody ln e pd lc lt b ri) (analyzeFixedBody ln' e pd lc lt b ri) := by
  unfold analyzeFixedBody
  refine BW.bind (BW.same _) (fun x b hab => ?_)
  cases hab
  obtain ⟨tb, od⟩ := x
  dsimp only
  refine BW.bind (BW.same _) (fun x b hab => ?_)
  cases hab
  obtain ⟨m, r⟩ := x
  dsimp only
  exact BW.ite (fun _ => BW.err _) (fun _ => mkFull_number _ _ _ _ _ _ _ _ _)

theorem analyzeFixed_number (ln ln' : Int) (raw : Str) (pd : Char) (lc : Int) :
    BothWays Renumbered (analyzeFixed ln raw pd lc) (analyzeFixed ln' raw pd lc) := by
  unfold analyzeFixed
  dsimp only
  refine BW.ite (fun _ => BW.ok rfl) (fun _ => ?_)
  generalize expandTabs raw = e
  cases findFirstNotOf [' ', '\t', '\r'] e with
  | none => exact BW.ok rfl
  | some ri =>
    refine BW.bind (BW.same _) (fun c b hab => ?_)
    cases hab
    have hrest : BothWays Renumbered (fixedRest ln e pd lc ri c) (fixedRest ln' e pd lc ri c) := by
      unfold fixedRest
      refine BW.bind (BW.same _) (fun x b hab => ?_)
      cases hab
      obtain ⟨lt, b, r, bl⟩ := x
      dsimp only
      exact BW.ite (fun _ => BW.ok rfl) (fun _ => fixedBody_number _ _ _ _ _ _ _ _)
    refine BW.ite (fun _ => ?_) (fun _ => hrest)
    refine BW.ite (fun _ => BW.ok rfl) (fun _ => ?_)
    refine BW.bind (BW.same _) (fun x b hab => ?_)
    cases hab
    refine BW.ite (fun _ => BW.ok rfl) (fun _ => ?_)
    refine BW.ite (fun _ => ?_) (fun _ => hrest)
    refine BW.bind (BW.same _) (fun x b hab => ?_)
    cases hab
    exact BW.ite (fun _ => BW.err _) (fun _ => BW.ite (fun _ => BW.ok rfl) (fun _ => BW.ok rfl))

theorem analyzeAllFixed_number (lc : Int) : ∀ (raws : List Str) (ln ln' : Nat) (pd : Char),
    BothWays (Lists Renumbered) (analyzeAllFixed lc ln pd raws) (analyzeAllFixed lc ln' pd raws)
  | [], ln, ln', pd => BW.ok (show Lists Renumbered (some []) (some []) from .nil)
  | r :: rs, ln, ln', pd => by
    rw [analyzeAllFixed, analyzeAllFixed]
    have h := analyzeFixed_number ln ln' r pd lc
    revert h
    cases analyzeFixed ln r pd lc with
    | error e =>
      cases analyzeFixed ln' r pd lc with
      | ok y => intro h; exact h.elim
      | error e' =>
        intro h
        have : e' = e := h
        subst this
        cases e' with
        | exc => exact BW.ok (show Lists Renumbered none none from trivial)
        | assertion => exact BW.err _
        | ub => exact BW.err _
    | ok f =>
      cases analyzeFixed ln' r pd lc with
      | error e' => intro h; exact h.elim
      | ok f' =>
        intro h1
        have h1 : Renumbered f f' := h1
        have h1' : f' = { f with linenum := f'.linenum } := h1
        have e1 : f'.open_delim = f.open_delim := by rw [h1']
        dsimp only
        rw [e1]
        refine BW.bind (analyzeAllFixed_number lc rs (ln + 1) (ln' + 1) _) (fun o o' ho => BW.ok ?_)
        cases o with
        | none =>
          cases o' with
          | none => trivial
          | some _ => exact ho.elim
        | some fs =>
          cases o' with
          | none => exact ho.elim
          | some fs' => exact List.Forall₂.cons h1 ho

/-! ### Lists of lines -/

theorem analyzeAllFixed_kind {lc : Int} : ∀ {raws : List Str} {ln : Nat} {pd : Char} {fs : List FileLine},
    analyzeAllFixed lc ln pd raws = .ok (some fs) → ∀ f ∈ fs, FixedKind f
  | [], _, _, fs, h => by
    simp [analyzeAllFixed] at h
    subst h
    simp
  | r :: rs, ln, pd, fs, h => by
    rw [analyzeAllFixed] at h
    split at h
    · cases h
    · cases h
    · rename_i f hf
      rbind h with o ho
      cases o with
      | none => simp at h
      | some gs =>
        simp at h
        subst h
        intro g hg
        rcases List.mem_cons.mp hg with rfl | hg
        · exact fixed_kind hf
        · exact analyzeAllFixed_kind ho g hg

theorem map_nil_append (x : Res (Option (List FileLine))) : (x >>= fun o => .ok (o.map ([] ++ ·))) = x := by
  cases x with
  | error e => rfl
  | ok o => cases o <;> rfl

/-- A failure of the first lines is a failure of all, and otherwise the rest is read with what the first lines leave behind. -/
theorem analyzeAllFixed_append (lc : Int) : ∀ (A : List Str) (ln : Nat) (pd : Char),
    (∀ fs, analyzeAllFixed lc ln pd A = .ok (some fs) → ∃ pd',
      (∀ B, analyzeAllFixed lc ln pd (A ++ B) = (analyzeAllFixed lc (ln + A.length) pd' B >>= fun o => .ok (o.map (fs ++ ·)))) ∧
      (fs = [] → pd' = pd) ∧ (∀ f, fs.getLast? = some f → pd' = f.open_delim)) ∧
    ((∀ fs, analyzeAllFixed lc ln pd A ≠ .ok (some fs)) → ∀ B, analyzeAllFixed lc ln pd (A ++ B) = analyzeAllFixed lc ln pd A)
  | [], ln, pd => by
    refine ⟨fun fs h => ?_, fun h => absurd rfl (h [])⟩
    simp [analyzeAllFixed] at h
    subst h
    refine ⟨pd, fun B => ?_, fun _ => rfl, by simp⟩
    exact (map_nil_append _).symm
  | r :: rs, ln, pd => by
    rw [analyzeAllFixed]
    cases hf : analyzeFixed ln r pd lc with
    | error e =>
      refine ⟨fun fs h => ?_, fun _ B => ?_⟩
      · cases e <;> cases h
      · rw [List.cons_append, analyzeAllFixed, hf]
        cases e <;> rfl
    | ok f =>
      dsimp only
      obtain ⟨ih1, ih2⟩ := analyzeAllFixed_append lc rs (ln + 1) f.open_delim
      constructor
      · intro fs h
        rbind h with o ho
        cases o with
        | none => simp at h
        | some gs =>
          simp at h
          subst h
          obtain ⟨pd', h1, h2, h3⟩ := ih1 gs ho
          refine ⟨pd', fun B => ?_, by simp, ?_⟩
          · rw [List.cons_append, analyzeAllFixed, hf]
            dsimp only
            rw [h1 B, List.length_cons, show ln + (rs.length + 1) = ln + 1 + rs.length by omega]
            cases analyzeAllFixed lc (ln + 1 + rs.length) pd' B with
            | error e => rfl
            | ok o => cases o <;> rfl
          · intro g hg
            cases gs with
            | nil =>
              simp at hg
              subst hg
              exact h2 rfl
            | cons a as =>
              rw [List.getLast?_cons_cons] at hg
              exact h3 g hg
      · intro h B
        rw [List.cons_append, analyzeAllFixed, hf]
        dsimp only
        rw [ih2 ?_ B]
        intro fs hfs
        refine h (f :: fs) ?_
        rw [hfs]
        rfl

/-- Comment lines and blank lines are read whatever follows and change nothing. -/
theorem analyze_inserted_fixed (lc : Int) : ∀ (C : List Str),
    (∀ c ∈ C, AsciiStr c ∧ (fixedCat false (detab c) = .comment ∨ fixedCat false (detab c) = .blank)) →
    ∀ (ln : Nat), ∃ fc, (∀ f ∈ fc, f.isTrivial = true) ∧ ∀ B, analyzeAllFixed lc ln NUL (C ++ B) =
      (analyzeAllFixed lc (ln + C.length) NUL B >>= fun o => .ok (o.map (fc ++ ·)))
  | [], _, ln => ⟨[], by simp, fun B => (map_nil_append _).symm⟩
  | c :: cs, hc, ln => by
    obtain ⟨fc, h1, h2⟩ := analyze_inserted_fixed lc cs (fun x hx => hc x (by simp [hx])) (ln + 1)
    obtain ⟨f, e1, e2, e3⟩ := analyzeFixed_trivial (hc c (by simp)).1 (hc c (by simp)).2 ln lc
    refine ⟨f :: fc, ?_, fun B => ?_⟩
    · intro g hg
      rcases List.mem_cons.mp hg with rfl | hg
      · exact e2
      · exact h1 g hg
    · rw [List.cons_append, analyzeAllFixed, e1]
      dsimp only
      rw [e3, h2 B, List.length_cons, show ln + (cs.length + 1) = ln + 1 + cs.length by omega]
      cases analyzeAllFixed lc (ln + 1 + cs.length) NUL B with
      | error e => rfl
      | ok o => cases o <;> rfl

end FLPR
