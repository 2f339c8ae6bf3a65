import Verif.FileLine.FreeLemmas
/-!
# Properties of free-format line analysis (C01, C02, C03)

The statements use only the model's entry point `analyzeFree`, the fields of the resulting line
and the specification in `Verif/FileLine/Spec.lean`.
-/

namespace FLPR
open Spec

/-- **C01** Printing an analysed free-format line gives the raw line back, in every state. -/
theorem C01_free_roundtrip (ln : Int) (raw : Str) (prevDelim : Char) (prevCont inLit : Bool)
    (f : FileLine) (inLit' : Bool)
    (h : analyzeFree ln raw prevDelim prevCont inLit = .ok (f, inLit')) :
    f.print = raw := by
  rcases analyzeFree_cases h with ⟨_, rfl, _⟩ | ⟨_, _, rfl, _⟩ | ⟨c0, rest, _, hb, h⟩
  · rw [print_mkLeft]; rfl
  · rw [print_mkLeft]; rfl
  · rcases h with ⟨_, rfl, _⟩ | ⟨_, _, rfl, _⟩ | ⟨_, _, h⟩
    · rw [print_mkLeft]; rfl
    · rw [print_mkLeft]; rfl
    · rcases h with ⟨_, _, rfl, _⟩ | ⟨_, _, _, rfl, _⟩ | ⟨_, _, _, rfl, _⟩ | ⟨_, _, h⟩
      · rw [print_mkLeft]; rfl
      · rw [print_mkLeft]; rfl
      · rw [print_mkLeft]; simp
      · refine print_analyzeFreeBody ?_ h
        by_contra hcon
        have h2 := drop_indent raw
        rw [List.drop_eq_nil_of_le (by omega), hb] at h2
        simp at h2

/-- A line that meets the hypothesis of `C01_free_roundtrip`: a labelled, continued line with
quotes, tabs and a trailing comment. -/
example : ∃ f, analyzeFree 7 "  10\tx = 'it''s & !' // \"a\" & ! note ".toList NUL false false =
    .ok (f, false) ∧ f.left_txt = "  10".toList ∧ f.right_txt = "& ! note ".toList ∧
    f.bits.label = true ∧ f.bits.continued = true :=
  ⟨_, rfl, by decide, by decide, by decide, by decide⟩

/-- The category flag of an analysed line. -/
def catFlag (f : FileLine) : Cat → Bool
  | .blank => f.bits.blank
  | .comment => f.bits.comment
  | .preprocessor => f.bits.preprocessor
  | .incl => f.bits.incl
  | .directive => f.bits.flpr_pp
  | .literal => f.bits.flpr_lit
  | .fortran => f.isFortran

theorem catFlag_fortran {f : FileLine} (h : f.isFortran = true) (k : Cat) :
    catFlag f k = true ↔ Cat.fortran = k := by
  simp only [FileLine.isFortran, FileLine.isTrivial, Bool.and_eq_true, Bool.not_eq_true',
    Bool.or_eq_false_iff] at h
  obtain ⟨⟨⟨⟨⟨h1, h2⟩, h3⟩, h4⟩, h5⟩, h6⟩ := h
  cases k <;> simp [catFlag, FileLine.isFortran, FileLine.isTrivial, h1, h2, h3, h4, h5, h6]

/-- **C02** (classification) An analysed free-format line carries exactly one category flag: the
category that the specification assigns to the raw text. -/
theorem C02_free_category (ln : Int) (raw : Str) (prevDelim : Char) (prevCont inLit : Bool)
    (f : FileLine) (inLit' : Bool) (hd : validDelim prevDelim = true)
    (h : analyzeFree ln raw prevDelim prevCont inLit = .ok (f, inLit')) (k : Cat) :
    catFlag f k = true ↔ lineCat inLit raw = k := by
  unfold lineCat
  rcases analyzeFree_cases h with ⟨h1, rfl, _⟩ | ⟨h1, h2, rfl, _⟩ | ⟨c0, rest, h1, hb, h⟩
  · rw [if_pos h1]; cases k <;> simp [catFlag, mkLeft, FileLine.isFortran, FileLine.isTrivial]
  · rw [if_neg (by simp [h1]), if_pos h2]; cases k <;> simp [catFlag, mkLeft, FileLine.isFortran, FileLine.isTrivial]
  · rw [if_neg (by simp [h1]), if_neg (by simp [hb])]
    rcases h with ⟨h2, rfl, _⟩ | ⟨h2, h3, rfl, _⟩ | ⟨h2, h3, h⟩
    · rw [if_pos h2]; cases k <;> simp [catFlag, mkLeft, FileLine.isFortran, FileLine.isTrivial]
    · rw [if_neg h2, if_pos h3]; cases k <;> simp [catFlag, mkLeft, FileLine.isFortran, FileLine.isTrivial]
    · rw [if_neg h2, if_neg h3]
      rcases h with ⟨h4, h5, rfl, _⟩ | ⟨h4, h5, h6, rfl, _⟩ | ⟨h4, h5, h6, rfl, _⟩ | ⟨h4, _, h⟩
      · rw [if_pos (by simp [hb, h4]), if_pos h5]; cases k <;> simp [catFlag, mkLeft, FileLine.isFortran, FileLine.isTrivial]
      · rw [if_pos (by simp [hb, h4]), if_neg h5, if_pos h6]; cases k <;> simp [catFlag, mkLeft, FileLine.isFortran, FileLine.isTrivial]
      · rw [if_pos (by simp [hb, h4]), if_neg h5, if_neg h6]
        cases k <;> simp [catFlag, mkLeft, FileLine.isFortran, FileLine.isTrivial]
      · rw [if_neg (by simp [hb, h4])]
        obtain ⟨_, _, _, _, _, _, _, _, _, _, _, _, _, _, _, _, _, hf, _⟩ :=
          analyzeFreeBody_spec hb hd h
        exact catFlag_fortran hf k

/-- **C02** (literal blocks) The in/out literal-block flag: a line inside a block leaves it exactly
when its first non-blank starts a literal marker; a line outside enters one exactly when it is
itself such a marker line (and not a preprocessor or include line). -/
theorem C02_free_literal_state (ln : Int) (raw : Str) (prevDelim : Char) (prevCont inLit : Bool)
    (f : FileLine) (inLit' : Bool)
    (h : analyzeFree ln raw prevDelim prevCont inLit = .ok (f, inLit')) :
    inLit' = true ↔
      if inLit then ¬ ((body raw).head? = some '!' ∧ isLiteralMarker (body raw))
      else lineCat false raw = .literal := by
  rcases analyzeFree_cases h with ⟨h1, _, h2⟩ | ⟨h1, h2, _, h3⟩ | ⟨c0, rest, h1, hb, hh⟩
  · rw [h2]; simp [h1]
  · simp [h1, h3, lineCat, h2]
  · subst h1
    simp only [Bool.false_eq_true, if_false, lineCat]
    have hne : body raw ≠ [] := by simp [hb]
    rcases hh with ⟨h2, _, h3⟩ | ⟨h2, h3, _, h4⟩ | ⟨h2, h3, hh⟩
    · rw [if_neg hne, if_pos h2]; simp [h3]
    · rw [if_neg hne, if_neg h2, if_pos h3]; simp [h4]
    · rw [if_neg hne, if_neg h2, if_neg h3]
      rcases hh with ⟨h4, h5, _, h6⟩ | ⟨h4, h5, h6, _, h7⟩ | ⟨h4, h5, h6, _, h7⟩ | ⟨h4, h5, _⟩
      · rw [if_pos (by simp [hb, h4]), if_pos h5]; simp [h6]
      · rw [if_pos (by simp [hb, h4]), if_neg h5, if_pos h6]; simp [h7]
      · rw [if_pos (by simp [hb, h4]), if_neg h5, if_neg h6]; simp [h7]
      · rw [if_neg (by simp [hb, h4])]; simp [h5]

/-- **C02** (other lines) A line that is not Fortran keeps its raw text in `left_txt`, leaves the
other fields empty and leaves no character context open. -/
theorem C02_free_nonfortran_fields (ln : Int) (raw : Str) (prevDelim : Char)
    (prevCont inLit : Bool) (f : FileLine) (inLit' : Bool) (hd : validDelim prevDelim = true)
    (h : analyzeFree ln raw prevDelim prevCont inLit = .ok (f, inLit'))
    (hk : lineCat inLit raw ≠ .fortran) :
    f.left_txt = raw ∧ f.left_space = [] ∧ f.main_txt = [] ∧ f.right_space = [] ∧
      f.right_txt = [] ∧ f.open_delim = NUL := by
  have hf : ¬ f.isFortran = true := fun hf => hk ((C02_free_category _ _ _ _ _ _ _ hd h .fortran).mp hf)
  rcases analyzeFree_cases h with ⟨h1, rfl, _⟩ | ⟨h1, h2, rfl, _⟩ | ⟨c0, rest, h1, hb, h⟩
  · simp [mkLeft]
  · simp [mkLeft]
  · rcases h with ⟨h2, rfl, _⟩ | ⟨h2, h3, rfl, _⟩ | ⟨h2, h3, h⟩
    · simp [mkLeft]
    · simp [mkLeft]
    · rcases h with ⟨h4, h5, rfl, _⟩ | ⟨h4, h5, h6, rfl, _⟩ | ⟨h4, h5, h6, rfl, _⟩ | ⟨h4, _, h⟩
      · simp [mkLeft]
      · simp [mkLeft]
      · simp [mkLeft]
      · obtain ⟨_, _, _, _, _, _, _, _, _, _, _, _, _, _, _, _, _, hf', _⟩ :=
          analyzeFreeBody_spec hb hd h
        exact absurd hf' hf

theorem fortran_body {ln : Int} {raw : Str} {prevDelim : Char}
    {prevCont inLit : Bool} {f : FileLine} {inLit' : Bool}
    (h : analyzeFree ln raw prevDelim prevCont inLit = .ok (f, inLit'))
    (hk : lineCat inLit raw = .fortran) :
    ∃ c0 rest, body raw = c0 :: rest ∧ c0 ≠ '!' ∧
      analyzeFreeBody ln raw prevDelim prevCont (indent raw) (upChar c0) = .ok f := by
  unfold lineCat at hk
  rcases analyzeFree_cases h with ⟨h1, _⟩ | ⟨h1, h2, _⟩ | ⟨c0, rest, h1, hb, h⟩
  · simp [h1] at hk
  · simp [h1, h2] at hk
  · rw [if_neg (by simp [h1]), if_neg (by simp [hb])] at hk
    rcases h with ⟨h2, _⟩ | ⟨h2, h3, _⟩ | ⟨h2, h3, h⟩
    · simp [h2] at hk
    · simp [h2, h3] at hk
    · rw [if_neg h2, if_neg h3] at hk
      rcases h with ⟨h4, h5, _⟩ | ⟨h4, h5, h6, _⟩ | ⟨h4, h5, h6, _⟩ | ⟨hbang, _, h⟩
      · rw [if_pos (by simp [hb, h4]), if_pos h5] at hk; simp at hk
      · rw [if_pos (by simp [hb, h4]), if_neg h5, if_pos h6] at hk; simp at hk
      · rw [if_pos (by simp [hb, h4]), if_neg h5, if_neg h6] at hk; simp at hk
      · exact ⟨c0, rest, hb, hbang, h⟩

/-- **C02** (Fortran lines: fields) The label or leading ampersand goes to `left_txt` and the rest
of the statement to the fields right of it; `left_space` is whitespace, `right_space` is blanks
and tabs. -/
theorem C02_free_fortran_fields (ln : Int) (raw : Str) (prevDelim : Char)
    (prevCont inLit : Bool) (f : FileLine) (inLit' : Bool) (hd : validDelim prevDelim = true)
    (h : analyzeFree ln raw prevDelim prevCont inLit = .ok (f, inLit'))
    (hk : lineCat inLit raw = .fortran) :
    f.main_txt ++ f.right_space ++ f.right_txt = stmtText prevCont raw ∧
    (f.bits.label = true ↔ prevCont = false ∧ ∃ c rest, body raw = c :: rest ∧ isDigit c = true) ∧
    (f.bits.continuation = true ↔ ∃ rest, body raw = '&' :: rest) ∧
    (f.bits.label = true → f.left_txt = raw.take (indent raw + labelLen (body raw))) ∧
    (f.bits.continuation = true → f.left_txt = raw.take (indent raw + 1) ∧ f.left_space = []) ∧
    (f.bits.label = false → f.bits.continuation = false → f.left_txt = []) ∧
    (∀ c ∈ f.left_space, isSpace c = true) ∧
    (∀ c ∈ f.right_space, c = ' ' ∨ c = '\t') ∧
    (f.bits.continued = true ↔ ∃ rest, f.right_txt = '&' :: rest) ∧
    f.linenum = ln := by
  obtain ⟨c0, rest, hb, hbang, h⟩ := fortran_body h hk
  obtain ⟨h1, h2, h3, h4, h5, h6, h7, h8, h9, h10, h11, h12, h13, h14, h15, h16, h17, h18, h19⟩ :=
    analyzeFreeBody_spec hb hd h
  refine ⟨h1, ?_, ?_, h4, h5, h6, h7, h8, ?_, h17⟩
  · rw [h2, hb]; simp
  · rw [h3, hb]; simp
  · rw [h16]
    cases f.right_txt <;> simp

/-- **C02** (Fortran lines: trimming) What the header's "main text is trimmed of whitespace on both
ends" amounts to.  Missing: a line with a leading ampersand keeps its leading blanks, and only
blanks and tabs are trimmed at the end (a carriage return stays). -/
theorem C02_free_main_trimmed_partial (ln : Int) (raw : Str) (prevDelim : Char)
    (prevCont inLit : Bool) (f : FileLine) (inLit' : Bool) (hd : validDelim prevDelim = true)
    (h : analyzeFree ln raw prevDelim prevCont inLit = .ok (f, inLit'))
    (hk : lineCat inLit raw = .fortran) :
    (f.bits.continuation = false → ∀ c, f.main_txt.head? = some c → isBlankChar c = false) ∧
    (f.open_delim = NUL → ∀ c, f.main_txt.getLast? = some c → c ≠ ' ' ∧ c ≠ '\t') ∧
    (f.open_delim ≠ NUL → f.right_space = []) := by
  obtain ⟨c0, rest, hb, hbang, h⟩ := fortran_body h hk
  obtain ⟨h1, h2, h3, h4, h5, h6, h7, h8, h9, h10, h11, h12, h13, h14, h15, h16, h17, h18, h19⟩ :=
    analyzeFreeBody_spec hb hd h
  exact ⟨h11, h9, h10⟩

/-- **C02** (Fortran lines: emptiness) Only a labelled line or a continuation line can have an
empty main text.  The stated claim also excludes labelled lines; see the violation below. -/
theorem C02_free_main_nonempty_partial (ln : Int) (raw : Str) (prevDelim : Char)
    (prevCont inLit : Bool) (f : FileLine) (inLit' : Bool) (hd : validDelim prevDelim = true)
    (h : analyzeFree ln raw prevDelim prevCont inLit = .ok (f, inLit'))
    (hk : lineCat inLit raw = .fortran) (hm : f.main_txt = []) :
    f.bits.label = true ∨ f.bits.continuation = true := by
  obtain ⟨c0, rest, hb, hbang, h⟩ := fortran_body h hk
  obtain ⟨h1, h2, h3, h4, h5, h6, h7, h8, h9, h10, h11, h12, h13, h14, h15, h16, h17, h18, h19⟩ :=
    analyzeFreeBody_spec hb hd h
  by_contra hcon
  rw [not_or] at hcon
  have hl : ¬ (prevCont = false ∧ isDigit c0 = true) := fun hx => hcon.1 (h2.mpr hx)
  have hc : c0 ≠ '&' := fun hx => hcon.2 (h3.mpr hx)
  have hst : stmtText prevCont raw = c0 :: rest := by
    unfold stmtText; rw [hb]; simp only [hl, hc, if_false]
  have hnb : isBlankChar c0 = false := by
    have := List.head?_dropWhile_not isBlankChar raw
    have hb' : raw.dropWhile isBlankChar = c0 :: rest := hb
    rw [hb'] at this
    simpa using this
  rw [hm, hst] at h1
  cases hrs : f.right_space with
  | nil =>
    rw [hrs] at h1
    simp at h1
    have hb0 := (h13 (by simp [h1])).1
    rw [hm, hrs, hst] at hb0
    simp only [List.append_nil, List.length_nil, isBreak_zero] at hb0
    rcases hb0 with ⟨_, hx | hx⟩ | ⟨_, hx, _⟩
    · exact hbang hx
    · exact hc hx
    · exact hc hx
  | cons a as =>
    rw [hrs] at h1
    simp at h1
    have := h8 a (by simp [hrs])
    rw [h1.1] at this
    rcases this with rfl | rfl <;> simp [isBlankChar] at hnb

/-- A line holding only a label is a Fortran line with an empty main text. -/
theorem C02_free_main_nonempty_violation :
    ∃ f, analyzeFree 1 "10".toList NUL false false = .ok (f, false) ∧ f.isFortran = true ∧
      f.main_txt = [] ∧ f.bits.continuation = false :=
  ⟨_, rfl, by decide, by decide, by decide⟩

/-- The full trimming claim is false: a leading blank after a continuation ampersand. -/
theorem C02_free_main_trimmed_violation_leading :
    ∃ f, analyzeFree 1 "& x".toList NUL true false = .ok (f, false) ∧ f.isFortran = true ∧
      f.open_delim = NUL ∧ f.main_txt.head? = some ' ' :=
  ⟨_, rfl, by decide, by decide, by decide⟩

/-- The full trimming claim is false: a trailing carriage return (DOS line end). -/
theorem C02_free_main_trimmed_violation_trailing :
    ∃ f, analyzeFree 1 "x=1\r".toList NUL false false = .ok (f, false) ∧ f.isFortran = true ∧
      f.open_delim = NUL ∧ f.main_txt.getLast? = some '\r' :=
  ⟨_, rfl, by decide, by decide, by decide⟩

example : lineCat false "  10 x = 1".toList = .fortran ∧
    ∃ f, analyzeFree 1 "  10 x = 1".toList NUL false false = .ok (f, false) ∧
      f.main_txt = "x = 1".toList ∧ f.left_txt = "  10".toList :=
  ⟨by
    have := (C02_free_category 1 "  10 x = 1".toList NUL false false _ false rfl rfl .fortran).mp
    exact this (by decide), _, rfl, by decide, by decide⟩

example : lineCat false "!#flpr123 literal".toList = .literal ∧
    analyzeFree 1 "!#flpr123 literal".toList NUL false false =
      .ok ({ linenum := 1, left_txt := "!#flpr123 literal".toList,
             bits := { flpr_lit := true } }, true) :=
  ⟨(C02_free_category 1 "!#flpr123 literal".toList NUL false false _ true rfl rfl .literal).mp
    (by decide), rfl⟩

/-- **C03** (position) In a Fortran line, `right_txt` starts at the first position of the statement
text that starts a trailing comment or continuation, as decided by the quote automaton started in
the previous line's context; it is empty exactly when there is no such position. -/
theorem C03_free_break (ln : Int) (raw : Str) (prevDelim : Char)
    (prevCont inLit : Bool) (f : FileLine) (inLit' : Bool) (hd : validDelim prevDelim = true)
    (h : analyzeFree ln raw prevDelim prevCont inLit = .ok (f, inLit'))
    (hk : lineCat inLit raw = .fortran) :
    (f.right_txt = [] ∧ ∀ j, ¬ IsBreak (ctxOf prevDelim) (stmtText prevCont raw) j) ∨
    (f.right_txt ≠ [] ∧
      IsBreak (ctxOf prevDelim) (stmtText prevCont raw) (f.main_txt ++ f.right_space).length ∧
      ∀ j < (f.main_txt ++ f.right_space).length,
        ¬ IsBreak (ctxOf prevDelim) (stmtText prevCont raw) j) := by
  obtain ⟨c0, rest, hb, hbang, h⟩ := fortran_body h hk
  obtain ⟨h1, h2, h3, h4, h5, h6, h7, h8, h9, h10, h11, h12, h13, h14, h15, h16, h17, h18, h19⟩ :=
    analyzeFreeBody_spec hb hd h
  by_cases hr : f.right_txt = []
  · exact Or.inl ⟨hr, (h12 hr).1⟩
  · exact Or.inr ⟨hr, h13 hr⟩

/-- **C03** (context) The recorded open delimiter is the quote automaton's state after the
statement text in front of `right_txt`; with no `right_txt` no context is open. -/
theorem C03_free_open_delim (ln : Int) (raw : Str) (prevDelim : Char)
    (prevCont inLit : Bool) (f : FileLine) (inLit' : Bool) (hd : validDelim prevDelim = true)
    (h : analyzeFree ln raw prevDelim prevCont inLit = .ok (f, inLit'))
    (hk : lineCat inLit raw = .fortran) :
    ctxOf f.open_delim = quoteState (ctxOf prevDelim) (f.main_txt ++ f.right_space) ∧
    (f.open_delim = NUL ∨ f.open_delim = '"' ∨ f.open_delim = '\'') ∧
    (f.right_txt = [] → f.open_delim = NUL) := by
  obtain ⟨c0, rest, hb, hbang, h⟩ := fortran_body h hk
  obtain ⟨h1, h2, h3, h4, h5, h6, h7, h8, h9, h10, h11, h12, h13, h14, h15, h16, h17, h18, h19⟩ :=
    analyzeFreeBody_spec hb hd h
  exact ⟨h14, (validDelim_iff _).mp h15, fun hr => (h12 hr).2.2⟩

/-- **C03** (totality) On ASCII text and a legitimate previous context the analysis has no undefined
behaviour and fails no assertion; it throws exactly on a Fortran line that ends inside a character
context without a continuation. -/
theorem C03_free_outcome (ln : Int) (raw : Str) (prevDelim : Char) (prevCont inLit : Bool)
    (hd : validDelim prevDelim = true) (ha : AsciiStr raw) :
    (∃ r, analyzeFree ln raw prevDelim prevCont inLit = .ok r) ∨
    (analyzeFree ln raw prevDelim prevCont inLit = .error .exc ∧
      lineCat inLit raw = .fortran ∧
      (∀ j, ¬ IsBreak (ctxOf prevDelim) (stmtText prevCont raw) j) ∧
      quoteState (ctxOf prevDelim) (stmtText prevCont raw) ≠ none) := by
  unfold analyzeFree
  dsimp only
  split
  · left
    split
    · split
      · rename_i ri _ _
        obtain ⟨b, hb, _⟩ := isFlprLiteral_ok raw ri
        rw [hb]; exact ⟨_, rfl⟩
      · exact ⟨_, rfl⟩
    · exact ⟨_, rfl⟩
  · rename_i hin
    split
    · exact Or.inl ⟨_, rfl⟩
    · rename_i ri hri
      obtain ⟨e1, e2, e3, e4⟩ := findFirstNotOf_blank _ _ hri
      obtain ⟨c0, rest, hbd⟩ : ∃ c0 rest, body raw = c0 :: rest := by
        cases hbd : body raw with
        | nil => exact absurd hbd e3
        | cons a b => exact ⟨a, b, rfl⟩
      have hget : raw.getD ri NUL = c0 := by
        have : raw[ri]? = some c0 := by
          rw [← List.head?_drop, e2, hbd]; rfl
        simp [List.getD_eq_getElem?_getD, this]
      have hac : isAscii c0 = true := ha c0 (by
        apply List.mem_of_mem_drop (i := ri); rw [e2, hbd]; simp)
      rw [hget]
      simp only [cToUpper, hac, if_true, Res.ok_bind, upChar_hash, upChar_bang]
      split
      · exact Or.inl ⟨_, rfl⟩
      · rename_i hhash
        obtain ⟨inc, hinc⟩ := isIncludeLine_ascii (ri := ri) ha
        rw [hinc]
        simp only [Res.ok_bind]
        split
        · exact Or.inl ⟨_, rfl⟩
        · rename_i hninc
          split
          · left
            obtain ⟨b, hb, _⟩ := isFlprLiteral_ok raw ri
            rw [hb]
            simp only [Res.ok_bind]
            split
            · exact ⟨_, rfl⟩
            · split <;> exact ⟨_, rfl⟩
          · rename_i hbang
            rw [e1]
            rcases analyzeFreeBody_ascii (ln := ln) (pc := prevCont) hbd hd ha with
              ⟨f, hf⟩ | ⟨hf, h2, h3⟩
            · left; rw [hf]; exact ⟨_, rfl⟩
            · right
              rw [hf]
              refine ⟨rfl, ?_, h2, h3⟩
              have hi := isIncludeLine_ok e4 hinc
              rw [e2] at hi
              unfold lineCat
              rw [if_neg hin, if_neg e3, if_neg ?_, if_neg (fun hx => hninc (hi.mpr hx)),
                if_neg (by simp [hbd, hbang])]
              intro hh
              apply hhash
              cases raw with
              | nil => simp at hh
              | cons a as =>
                simp at hh
                subst hh
                have hi0 : indent ('#' :: as) = 0 := by
                  unfold indent; simp [isBlankChar]
                have hbb : body ('#' :: as) = '#' :: as := by
                  unfold body; simp [isBlankChar]
                rw [hbb] at hbd
                simp at hbd
                exact ⟨by omega, hbd.1.symm⟩

/-- The throwing case is real, and `!`/`&` inside a string are not breaks. -/
example : analyzeFree 1 "x = 'abc ! & d".toList NUL false false = .error .exc := by decide
example : ∃ f, analyzeFree 1 "x = 'a ! b' & c".toList NUL false false = .ok (f, false) ∧
    f.main_txt = "x = 'a ! b'".toList ∧ f.right_txt = "& c".toList :=
  ⟨_, rfl, by decide, by decide⟩
example : ∃ f, analyzeFree 1 "it''s' // \"x &  ".toList '\'' true false = .ok (f, false) ∧
    f.open_delim = '"' ∧ f.right_txt = "&  ".toList :=
  ⟨_, rfl, by decide, by decide⟩

end FLPR
