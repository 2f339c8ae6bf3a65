import Verif.FileLine.ModProps2
/-!
# Labels recognised by the line analysis (C45)

Fortran labels have one to five digits.
-/

namespace FLPR
open Spec

/-- A text that is a Fortran statement label after leading blanks: one to five digits. -/
def IsLabelText (s : Str) : Prop :=
  ∃ w d, s = w ++ d ∧ (∀ c ∈ w, isBlankChar c = true) ∧ 1 ≤ d.length ∧ d.length ≤ 5 ∧
    ∀ c ∈ d, isDigit c = true

theorem takeWhile_take_of_lt (p : Char → Bool) (s : Str) (n : Nat)
    (h : (s.takeWhile p).length < n) : (s.take n).takeWhile p = s.takeWhile p := by
  induction s generalizing n with
  | nil => simp
  | cons c cs ih =>
    obtain ⟨m, rfl⟩ : ∃ m, n = m + 1 := ⟨n - 1, by omega⟩
    rw [List.take_succ_cons]
    by_cases hc : p c = true
    · rw [List.takeWhile_cons_of_pos hc] at h ⊢
      rw [List.takeWhile_cons_of_pos hc, ih m (by simpa using h)]
    · rw [List.takeWhile_cons_of_neg hc, List.takeWhile_cons_of_neg hc]

/-- **C45** (free form) A label flag comes with one to five digits in `left_txt`, when the line does
not begin with more than five digits.  Missing: longer digit runs, see the violation. -/
theorem C45_free_label_partial (ln : Int) (raw : Str) (prevDelim : Char)
    (prevCont inLit : Bool) (f : FileLine) (inLit' : Bool) (hd : validDelim prevDelim = true)
    (h : analyzeFree ln raw prevDelim prevCont inLit = .ok (f, inLit'))
    (hk : lineCat inLit raw = .fortran) (hl : f.bits.label = true)
    (hrun : ((body raw).takeWhile isDigit).length ≤ 5) :
    IsLabelText f.left_txt ∧ ∃ w, f.left_txt = w ++ (body raw).takeWhile isDigit := by
  obtain ⟨_, h2, _, h4, _⟩ :=
    C02_free_fortran_fields ln raw prevDelim prevCont inLit f inLit' hd h hk
  obtain ⟨_, c, rest, hb, hdig⟩ := h2.mp hl
  have hlen : labelLen (body raw) = ((body raw).takeWhile isDigit).length := by
    unfold labelLen
    have := takeWhile_take_of_lt isDigit (body raw) 6 (by omega)
    rw [this]
  have htake : (body raw).take (labelLen (body raw)) = (body raw).takeWhile isDigit := by
    rw [hlen]
    exact (List.prefix_iff_eq_take.mp (List.takeWhile_prefix _)).symm
  have hlt : f.left_txt = raw.take (indent raw) ++ (body raw).takeWhile isDigit := by
    rw [h4 hl, List.take_add, drop_indent, htake]
  refine ⟨⟨raw.take (indent raw), (body raw).takeWhile isDigit, hlt, ?_, ?_, hrun, ?_⟩, _, hlt⟩
  · intro x hx
    rw [take_indent] at hx
    exact List.mem_takeWhile_imp hx
  · rw [hb, List.takeWhile_cons_of_pos hdig]; simp
  · intro x hx
    exact List.mem_takeWhile_imp hx

/-- Six digits are taken as a label. -/
theorem C45_free_label_violation :
    ∃ f, analyzeFree 1 "123456 x = 1".toList NUL false false = .ok (f, false) ∧
      f.bits.label = true ∧ f.left_txt = "123456".toList ∧ ¬ IsLabelText f.left_txt := by
  refine ⟨_, rfl, by decide, by decide, ?_⟩
  rintro ⟨w, d, h1, h2, h3, h4, h5⟩
  have h1' : "123456".toList = w ++ d := h1
  have hl := congrArg List.length h1'
  simp at hl
  cases w with
  | nil => simp at hl; omega
  | cons x xs =>
    have hx : x = '1' := by
      have := congrArg List.head? h1'
      simpa using this.symm
    have := h2 x (by simp)
    rw [hx] at this
    revert this; decide

/-- **C45** (fixed form) A label flag comes with one to five digits in `left_txt` when the line does
not have a digit in each of the columns up to the sixth. -/
theorem C45_fixed_label_partial (ln : Int) (raw : Str) (prevDelim : Char) (lastColumn : Int)
    (f : FileLine) (h : analyzeFixed ln raw prevDelim lastColumn = .ok f)
    (hk : fixedCat (decide (prevDelim ≠ NUL)) (detab raw) = .fortran) (hl : f.bits.label = true)
    (h6 : ∀ c, (detab raw)[5]? = some c → isDigit c = false) :
    IsLabelText f.left_txt ∧ ∀ c, f.left_txt[5]? ≠ some c := by
  obtain ⟨h1, _, _, _, _, h2, _⟩ := C44_fixed_left ln raw prevDelim lastColumn f h hk
  have hlab := h1.mp hl
  have hlt := h2 hlab
  generalize detab raw = e at *
  obtain ⟨hi, c, hc, hcd⟩ := hlab
  have hfl : fixedLabelLen e ≤ 5 - indent e := by
    by_contra hcon
    unfold fixedLabelLen at hcon
    -- then the character in column six is a digit
    have hdi := drop_indent e
    have hmem : ∃ d, (((body e).take (6 - indent e)).takeWhile isDigit)[5 - indent e]? = some d := by
      rw [← Option.isSome_iff_exists, List.getElem?_eq_getElem (by omega)]
      rfl
    obtain ⟨d, hd⟩ := hmem
    have hdd : isDigit d = true := List.mem_takeWhile_imp (List.mem_of_getElem? hd)
    have hp : ((body e).take (6 - indent e)).takeWhile isDigit <+: body e :=
      (List.takeWhile_prefix _).trans (List.take_prefix _ _)
    have : (body e)[5 - indent e]? = some d := by
      obtain ⟨t, ht⟩ := hp
      rw [← ht, List.getElem?_append_left (List.getElem?_eq_some_iff.mp hd).1]
      exact hd
    rw [← hdi, List.getElem?_drop, show indent e + (5 - indent e) = 5 by omega] at this
    rw [h6 d this] at hdd
    simp at hdd
  have htake : (body e).take (fixedLabelLen e) = ((body e).take (6 - indent e)).takeWhile isDigit := by
    have hp : ((body e).take (6 - indent e)).takeWhile isDigit <+: body e :=
      (List.takeWhile_prefix _).trans (List.take_prefix _ _)
    exact (List.prefix_iff_eq_take.mp hp).symm
  have hlen1 : 1 ≤ fixedLabelLen e := by
    unfold fixedLabelLen
    cases hb : body e with
    | nil => rw [hb] at hc; simp at hc
    | cons x xs =>
      rw [hb] at hc; simp at hc
      obtain ⟨m, hm⟩ : ∃ m, 6 - indent e = m + 1 := ⟨5 - indent e, by omega⟩
      rw [hm, List.take_succ_cons, hc, List.takeWhile_cons_of_pos hcd]
      simp
  have hlt' : f.left_txt = e.take (indent e) ++ ((body e).take (6 - indent e)).takeWhile isDigit := by
    rw [hlt, List.take_add, drop_indent, htake]
  refine ⟨⟨_, _, hlt', ?_, hlen1, le_trans hfl (by omega), ?_⟩, ?_⟩
  · intro x hx
    rw [take_indent] at hx
    exact List.mem_takeWhile_imp hx
  · intro x hx
    exact List.mem_takeWhile_imp hx
  · intro x hx
    have := (List.getElem?_eq_some_iff.mp hx).1
    rw [hlt] at this
    simp at this
    omega

/-- A digit in the continuation column is taken into the label. -/
theorem C45_fixed_label_violation :
    ∃ f, analyzeFixed 1 "123456 x = 1".toList NUL 72 = .ok f ∧ f.bits.label = true ∧
      f.left_txt = "123456".toList ∧ f.bits.continuation = false := ⟨_, rfl, by decide, by decide, by decide⟩

example : ∃ f, analyzeFree 1 "  00120 continue".toList NUL false false = .ok (f, false) ∧
    f.bits.label = true ∧ f.left_txt = "  00120".toList := ⟨_, rfl, by decide, by decide⟩

example : ∃ f, analyzeFixed 1 " 1200 continue".toList NUL 72 = .ok f ∧
    f.bits.label = true ∧ f.left_txt = " 1200".toList := ⟨_, rfl, by decide, by decide⟩

end FLPR
