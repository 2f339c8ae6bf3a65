import Verif.FileLine.ModProps
/-!
# Properties of the line modifiers, part two (C09-C13)
-/

namespace FLPR
open Spec

/-! ## C09 -/

/-- **C09** `make_preprocessor` leaves exactly the preprocessor category, no statement flags, and
all the text in `left_txt`. -/
theorem C09_make_preprocessor_flags (f : FileLine) :
    (∀ k, catFlag f.makePreprocessor k = true ↔ k = Cat.preprocessor) ∧
    f.makePreprocessor.bits.label = false ∧ f.makePreprocessor.bits.continued = false ∧
    f.makePreprocessor.bits.continuation = false ∧
    f.makePreprocessor.bits.fixed_format = f.bits.fixed_format ∧
    f.makePreprocessor.print = f.makePreprocessor.left_txt := by
  refine ⟨?_, rfl, rfl, rfl, rfl, ?_⟩
  · intro k
    cases k <;> simp [catFlag, FileLine.makePreprocessor, FileLine.isFortran, FileLine.isTrivial]
  · simp [FileLine.makePreprocessor, FileLine.print, FileLine.isFortran, FileLine.isTrivial]

/-- **C09** `make_preprocessor` does not change the printed line, except that a fixed-format
Fortran line loses the padding of short control columns. -/
theorem C09_make_preprocessor_print_partial (f : FileLine)
    (h : f.bits.fixed_format = false ∨ f.isFortran = false ∨ 6 ≤ f.left_txt.length) :
    f.makePreprocessor.print = f.print := by
  rw [(C09_make_preprocessor_flags f).2.2.2.2.2]
  unfold FileLine.print FileLine.makePreprocessor
  dsimp only
  split
  · rename_i hb
    simp only [Bool.and_eq_true] at hb
    have h6 : 6 ≤ f.left_txt.length := by
      rcases h with h | h | h
      · simp [h] at hb
      · simp [h] at hb
      · exact h
    unfold FileLine.padRight6
    have : 6 - f.left_txt.length = 0 := by omega
    rw [this]; simp [blanks]
  · simp

/-- A fixed-format continuation of a preprocessor line loses its first six columns. -/
theorem C09_make_preprocessor_print_violation :
    ∃ f, analyzeFixed 1 "      x = 1".toList NUL 72 = .ok f ∧
      f.print = "      x = 1".toList ∧ f.makePreprocessor.print = "x = 1".toList :=
  ⟨_, rfl, by decide, by decide⟩

example : ∃ f, analyzeFree 1 " 10 x = 1 & ! c".toList NUL false false = .ok (f, false) ∧
    f.makePreprocessor.print = " 10 x = 1 & ! c".toList ∧ f.bits.label = true :=
  ⟨_, rfl, by decide, by decide⟩

/-! ## C10 -/

theorem makeBlank_print (g : FileLine) : g.makeBlank.print = [] := by
  simp [FileLine.print, FileLine.makeBlank, FileLine.isFortran, FileLine.isTrivial]

/-- **C10** The call returns normally unless the line claims to be continued and has no ampersand;
a comment line is left alone, and otherwise the result is flagged either comment or blank, never
Fortran. -/
theorem C10_make_comment_or_blank_category (f g : FileLine) (h : f.makeCommentOrBlank = .ok g) :
    (f.bits.comment = true → g = f) ∧
    (f.bits.comment = false →
      (g.bits = { fixed_format := f.bits.fixed_format, comment := true } ∧ '!' ∈ f.right_txt) ∨
      (g.bits = { fixed_format := f.bits.fixed_format, blank := true } ∧ g.print = [])) := by
  unfold FileLine.makeCommentOrBlank at h
  split at h
  · rename_i hc
    simp at h
    exact ⟨fun _ => h.symm, by simp [hc]⟩
  · rename_i hc
    refine ⟨fun hx => absurd hx hc, fun _ => ?_⟩
    split at h
    · simp at h
      subst h
      exact Or.inr ⟨rfl, makeBlank_print _⟩
    · rbind h with rt hrt
      split at h
      · rename_i k hk
        simp at h
        subst h
        refine Or.inl ⟨rfl, ?_⟩
        obtain ⟨h1, h2, t, h3⟩ := findChar_some hk
        have hm : '!' ∈ rt := List.mem_of_mem_drop (by rw [h3]; simp : '!' ∈ rt.drop (k + 1))
        split at hrt
        · split at hrt
          · rename_i t' ht'
            simp at hrt
            subst hrt
            rw [ht']
            simp at hm ⊢
            exact hm
          · simp at hrt
        · simp at hrt
          rw [hrt]; exact hm
      · simp at h
        subst h
        exact Or.inr ⟨rfl, makeBlank_print _⟩

/-- **C10** Without a comment in `right_txt` the line becomes blank.  Missing from the full claim:
what happens to a comment in `right_txt`; the violations show that it is lost. -/
theorem C10_make_comment_or_blank_partial (f : FileLine) (hc : f.bits.comment = false)
    (hr : '!' ∉ f.right_txt)
    (hcont : f.bits.continued = true → ∃ t, f.right_txt = '&' :: t) :
    ∃ g, f.makeCommentOrBlank = .ok g ∧
      g.bits = { fixed_format := f.bits.fixed_format, blank := true } ∧ g.print = [] := by
  have hp : ∀ g : FileLine, g.makeBlank.print = [] := by
    intro g; exact makeBlank_print g
  have hnone : ∀ s : Str, '!' ∉ s → findChar '!' s = none := by
    intro s hs
    unfold findChar
    rw [List.findIdx?_eq_none_iff]
    intro x hx
    simp
    intro he
    exact hs (he ▸ hx)
  unfold FileLine.makeCommentOrBlank
  rw [if_neg (by simp [hc])]
  split
  · exact ⟨_, rfl, rfl, hp _⟩
  · split
    · rename_i hct
      obtain ⟨t, ht⟩ := hcont hct
      rw [ht]
      simp only [Res.ok_bind]
      rw [hnone _ (by rw [ht] at hr; simp at hr ⊢; exact hr)]
      exact ⟨_, rfl, rfl, hp _⟩
    · simp only [Res.ok_bind]
      rw [hnone _ hr]
      exact ⟨_, rfl, rfl, hp _⟩

/-- The comment of an ordinary statement line is destroyed and the line becomes blank. -/
theorem C10_make_comment_or_blank_violation_blank :
    ∃ f g, analyzeFree 1 "x = 1 ! note".toList NUL false false = .ok (f, false) ∧
      f.right_txt = "! note".toList ∧ f.makeCommentOrBlank = .ok g ∧ g.bits.comment = false ∧
      g.print = [] := ⟨_, _, rfl, by decide, rfl, by decide, by decide⟩

/-- The comment of a continued line is overwritten with blanks, and the statement text stays. -/
theorem C10_make_comment_or_blank_violation_continued :
    ∃ f g, analyzeFree 1 "x = 1 & ! note".toList NUL false false = .ok (f, false) ∧
      f.makeCommentOrBlank = .ok g ∧ g.bits.comment = true ∧ '!' ∉ g.print ∧
      g.main_txt = "x = 1".toList := ⟨_, _, rfl, rfl, by decide, by decide, by decide⟩

example : ∃ f g, analyzeFree 1 "10 x = 1 &".toList NUL false false = .ok (f, false) ∧
    f.makeCommentOrBlank = .ok g ∧ g.bits.blank = true :=
  ⟨_, _, rfl, rfl, by decide⟩

/-- **C10** (what the comment case does) When `right_txt` has a comment behind something else, the
line is flagged as a comment, keeps its statement text, and its label and comment are overwritten
with as many blanks: only the text of the statement is left, in its place. -/
theorem C10_make_comment_or_blank_comment (f g : FileLine) (hc : f.bits.comment = false)
    (hb : f.bits.blank = false) (a t : Str) (c : Char) (hr : f.right_txt = c :: (a ++ '!' :: t))
    (hbang : c ≠ '!') (ha : '!' ∉ a) (h : f.makeCommentOrBlank = .ok g) :
    g.bits = { fixed_format := f.bits.fixed_format, comment := true } ∧
    g.left_txt = blanks f.left_txt.length ∧ g.left_space = f.left_space ∧
    g.main_txt = f.main_txt ∧ g.right_space = f.right_space ++ blanks (a.length + 1) ∧
    g.right_txt = blanks (t.length + 1) ∧ (f.bits.continued = true → c = '&') := by
  have hfind : ∀ d : Char, d ≠ '!' → findChar '!' (d :: (a ++ '!' :: t)) = some (a.length + 1) := by
    intro d hd
    have : findChar '!' ((d :: a) ++ '!' :: t) = some (d :: a).length := by
      rw [findChar_append_of_notMem (by simp [ha, hd.symm])]
    simpa using this
  have hdrop : ∀ d : Char, (d :: (a ++ '!' :: t)).drop (a.length + 1) = '!' :: t := by
    intro d; simp
  unfold FileLine.makeCommentOrBlank at h
  rw [if_neg (by simp [hc]), if_neg (by simp [hb]), hr] at h
  by_cases hcont : f.bits.continued = true
  · rw [if_pos hcont] at h
    by_cases hamp : c = '&'
    · subst hamp
      simp only [Res.ok_bind] at h
      rw [hfind ' ' (by decide)] at h
      dsimp only at h
      rw [hdrop] at h
      rw [← Except.ok.inj h]
      exact ⟨rfl, rfl, rfl, rfl, rfl, rfl, fun _ => rfl⟩
    · exfalso
      split at h
      · rename_i e; simp at e; exact hamp e.1
      · simp at h
  · rw [if_neg hcont] at h
    simp only [Res.ok_bind] at h
    rw [hfind c hbang] at h
    dsimp only at h
    rw [hdrop] at h
    rw [← Except.ok.inj h]
    exact ⟨rfl, rfl, rfl, rfl, rfl, rfl, fun h => absurd h hcont⟩

/-! ## C11 -/

/-- Everything `set_leading_spaces` may not touch on a Fortran line. -/
def SameStatement (f g : FileLine) : Prop :=
  g.linenum = f.linenum ∧ g.main_txt = f.main_txt ∧ g.right_txt = f.right_txt ∧
  g.open_delim = f.open_delim ∧ g.bits = f.bits ∧ nonblank g.left_txt = nonblank f.left_txt

theorem SameStatement.rfl' (f : FileLine) : SameStatement f f := ⟨rfl, rfl, rfl, rfl, rfl, rfl⟩

theorem moveMain_same {f g : FileLine} {n : Nat} {o : Offset}
    (h : f.moveMain n = .ok (some (g, o))) :
    SameStatement f g ∧ g.right_space = f.right_space := by
  unfold FileLine.moveMain at h
  dsimp only at h
  split at h
  · split at h
    · simp at h
    · simp at h; obtain ⟨rfl, rfl⟩ := h; exact ⟨⟨rfl, rfl, rfl, rfl, rfl, rfl⟩, rfl⟩
  · split at h
    · split at h
      · split at h
        · simp at h
        · simp at h; obtain ⟨rfl, rfl⟩ := h; exact ⟨⟨rfl, rfl, rfl, rfl, rfl, rfl⟩, rfl⟩
      · split at h
        · simp at h
        · simp at h; obtain ⟨rfl, rfl⟩ := h; exact ⟨⟨rfl, rfl, rfl, rfl, rfl, rfl⟩, rfl⟩
    · split at h
      · split at h
        · simp at h
        · split at h
          · simp at h; obtain ⟨rfl, rfl⟩ := h
            refine ⟨⟨rfl, rfl, rfl, rfl, rfl, ?_⟩, rfl⟩
            dsimp only
            rw [nonblank_append, nonblank_blanks]; rfl
          · split at h
            · simp at h
            · rename_i pos hpos
              simp at h; obtain ⟨rfl, rfl⟩ := h
              refine ⟨⟨rfl, rfl, rfl, rfl, rfl, ?_⟩, rfl⟩
              dsimp only
              obtain ⟨h1, h2, _⟩ := findFirst_blank_some hpos
              generalize hm : min pos (List.length f.left_txt + List.length f.left_space - n) = m
              have : f.left_txt.take m = blanks m := by
                have := congrArg (List.take m) h2
                rw [List.take_take] at this
                rw [show min m pos = m by omega] at this
                rw [this]
                simp [blanks]; omega
              conv_rhs => rw [← List.take_append_drop m f.left_txt, nonblank_append, this,
                nonblank_blanks]
              rfl
      · simp at h; obtain ⟨rfl, rfl⟩ := h; exact ⟨SameStatement.rfl' _, rfl⟩

theorem adjustRight_same {f g : FileLine} {o : Offset} (h : f.adjustRight o = .ok g) :
    SameStatement f g ∧ g.left_txt = f.left_txt ∧ g.left_space = f.left_space := by
  unfold FileLine.adjustRight at h
  split at h
  · simp at h; subst h; exact ⟨SameStatement.rfl' _, rfl, rfl⟩
  · split at h
    · simp at h
    · split at h
      · simp at h; subst h; exact ⟨SameStatement.rfl' _, rfl, rfl⟩
      · split at h
        · simp at h; subst h; exact ⟨SameStatement.rfl' _, rfl, rfl⟩
        · split at h
          · split at h
            · simp at h; subst h; exact ⟨⟨rfl, rfl, rfl, rfl, rfl, rfl⟩, rfl, rfl⟩
            · simp at h
          · simp only [Except.ok.injEq] at h; subst h
            generalize (max (if f.right_space = [] then (0 : Int) else 1) _).toNat = m
            split <;> exact ⟨⟨rfl, rfl, rfl, rfl, rfl, rfl⟩, rfl, rfl⟩

/-- **C11** (nothing else changes) On a line that is not a comment, `set_leading_spaces` keeps the
statement text, the comment and continuation text, the label or continuation mark and the flags. -/
theorem C11_text_kept (f g : FileLine) (n : Nat) (r : Bool) (hc : f.bits.comment = false)
    (h : f.setLeadingSpaces n = .ok (g, r)) :
    SameStatement f g ∧ (f.isFortran = false → g = f ∧ r = false) := by
  unfold FileLine.setLeadingSpaces at h
  rw [if_neg (by simp [hc])] at h
  split at h
  · rename_i hf
    refine ⟨?_, by simp [hf]⟩
    rbind h with x hx
    split at h
    · simp at h; rw [← h.1]; exact SameStatement.rfl' _
    · rbind h with y hy
      simp at h
      obtain ⟨⟨a1, a2, a3, a4, a5, a6⟩, _⟩ := moveMain_same hx
      obtain ⟨⟨b1, b2, b3, b4, b5, b6⟩, _⟩ := adjustRight_same hy
      rw [← h.1]
      exact ⟨b1.trans a1, b2.trans a2, b3.trans a3, b4.trans a4, b5.trans a5, b6.trans a6⟩
  · simp at h
    exact ⟨h.1 ▸ SameStatement.rfl' _, fun _ => ⟨h.1.symm, h.2⟩⟩

/-- **C11** (the column) On a free-format statement line the call gives exactly the requested
indentation when there is no label or leading ampersand, or when the label or the text before the
leading ampersand fits.  Missing: fixed format (see the violation); a label that does not fit
leaves one blank after it; a leading ampersand moves left at most to column one. -/
theorem C11_sets_indent_partial (f g : FileLine) (n : Nat) (r : Bool)
    (hf : f.isFortran = true) (hfix : f.bits.fixed_format = false) (hm : f.main_txt ≠ [])
    (hlt : f.left_txt ≠ [] → f.bits.label = true ∨ f.bits.continuation = true)
    (h : f.setLeadingSpaces n = .ok (g, r)) :
    (f.left_txt = [] → g.getLeadingSpaces = n) ∧
    (f.left_txt ≠ [] → f.bits.label = true →
      g.getLeadingSpaces = if f.left_txt.length < n then (n : Int) else f.left_txt.length + 1) ∧
    (f.left_txt ≠ [] → f.bits.label = false →
      g.getLeadingSpaces = if f.left_txt.length + f.left_space.length ≤ n then (n : Int)
        else max n (f.left_txt.length + f.left_space.length -
          (f.left_txt.takeWhile (· == ' ')).length)) := by
  have hget : ∀ g' : FileLine, SameStatement f g' →
      g'.getLeadingSpaces = (g'.left_txt.length + g'.left_space.length : Int) := by
    intro g' hs
    obtain ⟨s1, s2, s3, s4, s5, s6⟩ := hs
    have hc' : g'.bits.comment = false := by
      rw [s5]
      simp [FileLine.isFortran, FileLine.isTrivial] at hf
      simp [hf]
    have hf' : g'.isFortran = true := by
      unfold FileLine.isFortran FileLine.isTrivial at hf ⊢
      rw [s5]; exact hf
    unfold FileLine.getLeadingSpaces FileLine.mainFirstCol
    rw [if_neg (by simp [hc']), if_pos hf', s2, s5, if_neg hm]
    simp [hfix]
    omega
  have hc : f.bits.comment = false := by
    simp [FileLine.isFortran, FileLine.isTrivial] at hf
    simp [hf]
  have hs := (C11_text_kept f g n r hc h).1
  rw [hget g hs]
  unfold FileLine.setLeadingSpaces at h
  rw [if_neg (by simp [hc]), if_pos hf] at h
  rbind h with x hx
  have hgx : (x = none → g.left_txt = f.left_txt ∧ g.left_space = f.left_space) ∧
      (∀ y o, x = some (y, o) → g.left_txt = y.left_txt ∧ g.left_space = y.left_space) := by
    split at h
    · simp at h
      rw [← h.1]; simp
    · rename_i g0 o0
      rbind h with y hy
      simp at h
      obtain ⟨_, b1, b2⟩ := adjustRight_same hy
      rw [← h.1]
      simp [b1, b2]
  clear h
  obtain ⟨hgn, hgs⟩ := hgx
  unfold FileLine.moveMain at hx
  dsimp only at hx
  split at hx
  · rename_i h0
    refine ⟨fun _ => ?_, by simp [h0], by simp [h0]⟩
    split at hx
    · rename_i h1
      simp at hx
      obtain ⟨e1, e2⟩ := hgn hx.symm
      rw [e1, e2, h0, h1]; simp
    · simp at hx
      obtain ⟨e1, e2⟩ := hgs _ _ hx.symm
      rw [e1, e2, h0]; simp [blanks]
  · rename_i h0
    refine ⟨fun hx => absurd hx h0, fun _ hl => ?_, fun _ hl => ?_⟩
    · rw [if_pos hl] at hx
      split at hx
      · rename_i h1
        rw [if_pos h1]
        split at hx
        · rename_i h2
          simp at hx
          obtain ⟨e1, e2⟩ := hgn hx.symm
          rw [e1, e2, h2]; omega
        · simp at hx
          obtain ⟨e1, e2⟩ := hgs _ _ hx.symm
          rw [e1, e2]; simp [blanks]; omega
      · rename_i h1
        rw [if_neg h1]
        split at hx
        · rename_i h2
          simp at hx
          obtain ⟨e1, e2⟩ := hgn hx.symm
          rw [e1, e2, h2]; simp
        · simp at hx
          obtain ⟨e1, e2⟩ := hgs _ _ hx.symm
          rw [e1, e2]; simp
    · have hcn : f.bits.continuation = true := by
        rcases hlt h0 with h1 | h1
        · simp [hl] at h1
        · exact h1
      rw [if_neg (by simp [hl]), if_pos (by simp [hcn, hfix])] at hx
      split at hx
      · rename_i h1
        simp at hx
        obtain ⟨e1, e2⟩ := hgn hx.symm
        rw [e1, e2, if_pos (by omega)]; omega
      · split at hx
        · rename_i h1 h2
          simp at hx
          obtain ⟨e1, e2⟩ := hgs _ _ hx.symm
          rw [e1, e2, if_pos (by omega)]; simp [blanks]; omega
        · split at hx
          · simp at hx
          · rename_i h1 h2 pos hpos
            simp at hx
            obtain ⟨e1, e2⟩ := hgs _ _ hx.symm
            obtain ⟨p1, p2, c, t, p3, p4⟩ := findFirst_blank_some hpos
            have hlen : (f.left_txt.takeWhile (· == ' ')).length = pos := by
              rw [← List.take_append_drop pos f.left_txt, p2, p3,
                List.takeWhile_append_of_pos (by intro x hx; simp [blanks] at hx; simp [hx.2])]
              simp [blanks, p4]
            rw [e1, e2, if_neg (by omega), hlen]
            simp only [List.length_drop]
            omega

/-- **C11** (return value) On a statement line without text before the statement other than a label,
the result is `true` exactly when the line changed. -/
theorem C11_return_partial (f g : FileLine) (n : Nat) (r : Bool)
    (hf : f.isFortran = true) (hlt : f.left_txt ≠ [] → f.bits.label = true)
    (h : f.setLeadingSpaces n = .ok (g, r)) : r = true ↔ g ≠ f := by
  have hc : f.bits.comment = false := by
    simp [FileLine.isFortran, FileLine.isTrivial] at hf
    simp [hf]
  unfold FileLine.setLeadingSpaces at h
  rw [if_neg (by simp [hc]), if_pos hf] at h
  rbind h with x hx
  split at h
  · simp at h
    rw [← h.1, h.2]; simp
  · rename_i g0 o0
    rbind h with y hy
    simp at h
    obtain ⟨_, b1, b2⟩ := adjustRight_same hy
    rw [← h.1, ← h.2]
    simp only [true_iff]
    suffices hls : g0.left_space.length ≠ f.left_space.length by
      intro hy'
      rw [hy'] at b2
      exact hls (by rw [b2])
    clear hy h b1 b2
    unfold FileLine.moveMain at hx
    dsimp only at hx
    split at hx
    · split at hx
      · simp at hx
      · simp at hx
        rw [← hx.1]; simp [blanks]; omega
    · rename_i h0
      rw [if_pos (hlt h0)] at hx
      split at hx
      · split at hx
        · simp at hx
        · simp at hx
          rw [← hx.1]; simp [blanks]; omega
      · split at hx
        · simp at hx
        · simp at hx
          rw [← hx.1]; simp; omega

/-- `f` with all its text in `left_txt`. -/
def onlyLeft (f : FileLine) (s : Str) : FileLine :=
  { f with left_txt := s, left_space := [], main_txt := [], right_space := [], right_txt := [] }

/-- **C11** (comment lines) For a comment line whose first `!` follows only blanks, the comment
ends up at the requested column, and its text changes only in the blanks after the `!`. -/
theorem C11_comment_partial (f g : FileLine) (n : Nat) (r : Bool) (a : Nat) (t : Str)
    (hc : f.bits.comment = true) (hl : f.left_txt = blanks a ++ '!' :: t)
    (hrest : f.left_space = [] ∧ f.main_txt = [] ∧ f.right_space = [] ∧ f.right_txt = [])
    (h : f.setLeadingSpaces n = .ok (g, r)) :
    g.getLeadingSpaces = n ∧ (r = true ↔ a ≠ n) ∧ g.bits = f.bits ∧
    ∃ t', g.print = blanks n ++ '!' :: t' ∧ nonblank t' = nonblank t ∧ (0 < a ∨ a = n → t' = t) := by
  have hb : ∀ m, '!' ∉ blanks m := by intro m hx; simp [blanks] at hx
  have hfind : ∀ m s, findChar '!' (blanks m ++ '!' :: s) = some m := by
    intro m s
    rw [findChar_append_of_notMem (hb m)]; simp [blanks]
  unfold FileLine.setLeadingSpaces at h
  rw [if_pos hc] at h
  unfold FileLine.setLeadingComment at h
  rw [hl, hfind] at h
  obtain ⟨r1, r2, r3, r4⟩ := hrest
  dsimp only at h
  have main : ∀ s, g = onlyLeft f (blanks n ++ '!' :: s) →
      g.getLeadingSpaces = n ∧ g.bits = f.bits ∧ g.print = blanks n ++ '!' :: s := by
    intro s hg
    subst hg
    refine ⟨?_, rfl, ?_⟩
    · unfold FileLine.getLeadingSpaces
      simp only [onlyLeft, hc, if_true, hfind]
    · simp [onlyLeft, FileLine.print, FileLine.isFortran, FileLine.isTrivial, hc]
  split at h
  · rename_i han
    simp at h
    have hg : g = onlyLeft f (blanks n ++ '!' :: t) := by
      rw [← h.1, ← han]; rfl
    obtain ⟨m1, m2, m3⟩ := main t hg
    exact ⟨m1, by simp [← h.2, han], m2, t, m3, rfl, fun _ => rfl⟩
  · rename_i han
    simp only [Except.ok.injEq, Prod.mk.injEq] at h
    suffices hs : ∃ s, (if a = 0 then
          match findFirstNotOf [' ', '\t'] ((blanks a ++ '!' :: t).drop 1) with
          | some t_1 =>
            if t_1 + 1 > 5 then
              if t_1 + 1 ≥ n + 5 then
                (blanks a ++ '!' :: t).take 1 ++ (blanks a ++ '!' :: t).drop (1 + (n + 4))
              else (blanks a ++ '!' :: t).take 1 ++ (blanks a ++ '!' :: t).drop (1 + 4)
            else blanks a ++ '!' :: t
          | none => blanks a ++ '!' :: t
        else (blanks a ++ '!' :: t).drop a) = '!' :: s ∧ nonblank s = nonblank t ∧ (0 < a → s = t) by
      obtain ⟨s, hs1, hs2, hs3⟩ := hs
      have hg : g = onlyLeft f (blanks n ++ '!' :: s) := by
        rw [← h.1]
        unfold onlyLeft
        congr 1
        exact congrArg (blanks n ++ ·) hs1
      obtain ⟨m1, m2, m3⟩ := main s hg
      exact ⟨m1, by simp [← h.2, han], m2, s, m3, hs2, fun hx => hs3 (by omega)⟩
    by_cases ha : a = 0
    · subst ha
      simp only [if_true]
      have hz : blanks 0 ++ '!' :: t = '!' :: t := rfl
      rw [hz]
      have hdrop : ∀ k m, findFirstNotOf [' ', '\t'] t = some k → m ≤ k →
          nonblank (t.drop m) = nonblank t := by
        intro k m hk hmk
        have hall : nonblank (t.take m) = [] := by
          unfold nonblank
          rw [List.filter_eq_nil_iff]
          intro c hcm
          unfold findFirstNotOf at hk
          rw [List.findIdx?_eq_some_iff_getElem] at hk
          obtain ⟨hk1, hk2, hk3⟩ := hk
          rw [List.mem_take_iff_getElem] at hcm
          obtain ⟨i, hi, hci⟩ := hcm
          have := hk3 i (by omega)
          rw [hci] at this
          simp at this ⊢
          exact this
        conv_rhs => rw [← List.take_append_drop m t, nonblank_append, hall]
        rfl
      split
      · rename_i k hk
        simp only [List.drop_succ_cons, List.drop_zero] at hk
        split
        · split
          · refine ⟨t.drop (n + 4), ?_, hdrop k _ hk (by omega), by simp⟩
            rw [Nat.add_comm 1]; simp
          · exact ⟨t.drop 4, by simp, hdrop k _ hk (by omega), by simp⟩
        · exact ⟨t, rfl, rfl, by simp⟩
      · exact ⟨t, rfl, rfl, by simp⟩
    · rw [if_neg ha]
      refine ⟨t, ?_, rfl, fun _ => rfl⟩
      rw [List.drop_append_of_le_length (by simp [blanks])]
      simp [blanks]

/-- **C11** (outcome) On a free-format statement line whose `right_txt` is empty or starts with a
comment, the call returns normally. -/
theorem C11_outcome_partial (f : FileLine) (n : Nat) (hfix : f.bits.fixed_format = false)
    (hlt : f.left_txt ≠ [] → f.bits.label = true ∨ f.bits.continuation = true)
    (hamp : f.bits.continuation = true → f.left_txt ≠ blanks f.left_txt.length)
    (hr : f.right_txt = [] ∨ ∃ t, f.right_txt = '!' :: t) :
    ∃ g r, f.setLeadingSpaces n = .ok (g, r) := by
  have hadj : ∀ (g : FileLine) (i : Int), g.right_txt = f.right_txt →
      ∃ y, g.adjustRight (.val i) = .ok y := by
    intro g i hg
    unfold FileLine.adjustRight
    rw [hg]
    rcases hr with hr | ⟨t, hr⟩
    · rw [if_pos hr]; exact ⟨_, rfl⟩
    · rw [if_neg (by simp [hr])]
      dsimp only
      split
      · exact ⟨_, rfl⟩
      · have : findChar '!' f.right_txt = some 0 := by
          rw [hr]; simp [findChar, List.findIdx?_cons]
        rw [this]
        dsimp only
        split
        · simp
        · exact ⟨_, rfl⟩
  have hmv : ∃ x, f.moveMain n = .ok x ∧ ∀ g o, x = some (g, o) → ∃ i, o = .val i := by
    unfold FileLine.moveMain
    dsimp only
    split
    · split
      · exact ⟨_, rfl, by simp⟩
      · exact ⟨_, rfl, fun g o hx => by simp at hx; exact ⟨_, hx.2.symm⟩⟩
    · rename_i h0
      split
      · split
        · split
          · exact ⟨_, rfl, by simp⟩
          · exact ⟨_, rfl, fun g o hx => by simp at hx; exact ⟨_, hx.2.symm⟩⟩
        · split
          · exact ⟨_, rfl, by simp⟩
          · exact ⟨_, rfl, fun g o hx => by simp at hx; exact ⟨_, hx.2.symm⟩⟩
      · rename_i hlab
        have hcn : f.bits.continuation = true := by
          rcases hlt h0 with h1 | h1
          · exact absurd h1 hlab
          · exact h1
        rw [if_pos (by simp [hcn, hfix])]
        split
        · exact ⟨_, rfl, by simp⟩
        · split
          · exact ⟨_, rfl, fun g o hx => by simp at hx; exact ⟨_, hx.2.symm⟩⟩
          · split
            · rename_i hn
              exact absurd (findFirst_blank_none hn) (hamp hcn)
            · exact ⟨_, rfl, fun g o hx => by simp at hx; exact ⟨_, hx.2.symm⟩⟩
  unfold FileLine.setLeadingSpaces
  split
  · exact ⟨_, _, rfl⟩
  · split
    · obtain ⟨x, hx, hv⟩ := hmv
      rw [hx]
      simp only [Res.ok_bind]
      cases x with
      | none => exact ⟨_, _, rfl⟩
      | some p =>
        obtain ⟨g, o⟩ := p
        obtain ⟨i, rfl⟩ := hv g o rfl
        obtain ⟨y, hy⟩ := hadj g i (moveMain_same hx).1.2.2.1
        dsimp only
        rw [hy]
        exact ⟨_, _, rfl⟩
    · exact ⟨_, _, rfl⟩

/-- The width of what comes before the statement text. -/
def FileLine.leftWidth (f : FileLine) : Int := f.left_txt.length + f.left_space.length
/-- The column (from 0) of `right_txt` on a free-format line. -/
def FileLine.rightColumn (f : FileLine) : Int :=
  f.leftWidth + f.main_txt.length + f.right_space.length

theorem moveMain_offset {f g : FileLine} {n : Nat} {o : Offset}
    (h : f.moveMain n = .ok (some (g, o))) :
    o = .uninit ∨ o = .val (g.leftWidth - f.leftWidth) := by
  unfold FileLine.moveMain at h
  dsimp only at h
  have hb : ∀ k, ((blanks k).length : Int) = k := by intro k; simp [blanks]
  split at h
  · rename_i h0
    split at h
    · simp at h
    · simp only [Except.ok.injEq, Option.some.injEq, Prod.mk.injEq] at h
      obtain ⟨rfl, rfl⟩ := h
      right; congr 1; simp only [FileLine.leftWidth, h0, hb]; simp
  · split at h
    · split at h
      · split at h
        · simp at h
        · simp only [Except.ok.injEq, Option.some.injEq, Prod.mk.injEq] at h
          obtain ⟨rfl, rfl⟩ := h
          right; congr 1; simp only [FileLine.leftWidth, hb]; omega
      · split at h
        · simp at h
        · simp only [Except.ok.injEq, Option.some.injEq, Prod.mk.injEq] at h
          obtain ⟨rfl, rfl⟩ := h
          right; congr 1; simp only [FileLine.leftWidth, List.length_singleton]; omega
    · split at h
      · split at h
        · simp at h
        · split at h
          · simp only [Except.ok.injEq, Option.some.injEq, Prod.mk.injEq] at h
            obtain ⟨rfl, rfl⟩ := h
            right; congr 1
            simp only [FileLine.leftWidth, List.length_append]
            have := hb (n - (f.left_txt.length + f.left_space.length))
            omega
          · split at h
            · simp at h
            · rename_i pos hpos
              simp only [Except.ok.injEq, Option.some.injEq, Prod.mk.injEq] at h
              obtain ⟨rfl, rfl⟩ := h
              right; congr 1
              obtain ⟨h1, h2, _⟩ := findFirst_blank_some hpos
              simp only [FileLine.leftWidth, List.length_drop]
              omega
      · simp only [Except.ok.injEq, Option.some.injEq, Prod.mk.injEq] at h
        exact Or.inl h.2.symm

/-- **C11** (the trailing comment) A trailing comment stays in its column, unless the statement text
has moved so far to the right that it needs the place; then one blank is left between them, or none
if there was none before. -/
theorem C11_trailing_comment (f g : FileLine) (n : Nat) (r : Bool) (t : Str)
    (hf : f.isFortran = true) (hr : f.right_txt = '!' :: t)
    (h : f.setLeadingSpaces n = .ok (g, r)) :
    g.rightColumn = max f.rightColumn
      (g.leftWidth + g.main_txt.length + if f.right_space = [] then 0 else 1) := by
  have hc : f.bits.comment = false := by
    simp [FileLine.isFortran, FileLine.isTrivial] at hf
    simp [hf]
  have hrs : (if f.right_space = [] then (0 : Int) else 1) ≤ f.right_space.length := by
    cases f.right_space <;> simp
    omega
  unfold FileLine.setLeadingSpaces at h
  rw [if_neg (by simp [hc]), if_pos hf] at h
  rbind h with x hx
  split at h
  · simp only [Except.ok.injEq, Prod.mk.injEq] at h
    rw [← h.1]
    unfold FileLine.rightColumn
    omega
  · rename_i m o
    obtain ⟨hs, hsp⟩ := moveMain_same hx
    rbind h with y hy
    simp only [Except.ok.injEq, Prod.mk.injEq] at h
    rw [← h.1]
    obtain ⟨hs', hl1, hl2⟩ := adjustRight_same hy
    have hmain : y.main_txt = f.main_txt := by rw [hs'.2.1, hs.2.1]
    have hmr : m.right_txt = '!' :: t := by rw [hs.2.2.1, hr]
    have hw : y.leftWidth = m.leftWidth := by unfold FileLine.leftWidth; rw [hl1, hl2]
    have hfind : findChar '!' ('!' :: t) = some 0 := by simp [findChar, List.findIdx?_cons]
    have key : (y.right_space.length : Int) = max ((f.right_space.length : Int) +
        f.leftWidth - m.leftWidth) (if f.right_space = [] then 0 else 1) := by
      rcases moveMain_offset hx with rfl | rfl
      · unfold FileLine.adjustRight at hy
        rw [if_neg (by simp [hmr])] at hy
        simp at hy
      · unfold FileLine.adjustRight at hy
        rw [if_neg (by simp [hmr]), hmr, hsp] at hy
        dsimp only at hy
        rw [hfind] at hy
        dsimp only at hy
        have hb : ∀ k, (blanks k).length = k := by intro k; simp [blanks]
        by_cases hd0 : m.leftWidth - f.leftWidth = 0
        · rw [if_pos hd0] at hy
          rw [← Except.ok.inj hy, hsp]
          omega
        · rw [if_neg hd0] at hy
          by_cases hneg : m.leftWidth - f.leftWidth < 0
          · rw [if_pos hneg, if_pos (by omega)] at hy
            rw [← Except.ok.inj hy]
            simp only [List.take_zero, List.nil_append, List.drop_zero, List.length_append, hb]
            omega
          · rw [if_neg hneg] at hy
            rw [← Except.ok.inj hy]
            generalize hmn : (if f.right_space = [] then (0 : Int) else 1) = mn at hrs ⊢
            have hmn0 : 0 ≤ mn := by rw [← hmn]; split <;> omega
            by_cases hq : f.right_space.length = (max mn ((f.right_space.length : Int) -
                (m.leftWidth - f.leftWidth))).toNat
            · rw [if_neg (by simpa using hq), hsp]
              omega
            · rw [if_pos hq]
              dsimp only
              rw [hb]
              omega
    unfold FileLine.rightColumn
    rw [hw, hmain, key]
    split_ifs at * <;> omega

/-- In fixed format the result is off by the six control columns. -/
theorem C11_sets_indent_violation_fixed :
    ∃ f g, analyzeFixed 1 "      x = 1".toList NUL 72 = .ok f ∧
      f.setLeadingSpaces 8 = .ok (g, true) ∧ g.getLeadingSpaces = 14 :=
  ⟨_, _, rfl, rfl, by decide⟩

/-- A fixed-format continuation line with a trailing comment reads an uninitialised variable. -/
theorem C11_violation_uninitialised :
    ∃ f, analyzeFixed 1 "     & + y ! note".toList NUL 72 = .ok f ∧
      f.setLeadingSpaces 3 = .error .ub := ⟨_, rfl, by decide⟩

/-- Moving a continued line with a trailing comment to the left throws. -/
theorem C11_violation_throw :
    ∃ f, analyzeFree 1 "   x = & ! note".toList NUL false false = .ok (f, false) ∧
      f.setLeadingSpaces 0 = .error .exc := ⟨_, rfl, by decide⟩

/-- A fixed-format comment line that contains an exclamation mark loses the text before it. -/
theorem C11_comment_violation :
    ∃ f g, analyzeFixed 1 "C stop! really".toList NUL 72 = .ok f ∧
      f.setLeadingSpaces 2 = .ok (g, true) ∧ g.print = "  ! really".toList :=
  ⟨_, _, rfl, rfl, by decide⟩

/-- A leading ampersand in column one: `true` is returned although nothing changed. -/
theorem C11_return_violation :
    ∃ f, analyzeFree 1 "& x".toList NUL true false = .ok (f, false) ∧
      f.setLeadingSpaces 0 = .ok (f, true) := ⟨_, rfl, by decide⟩

example : ∃ f g, analyzeFree 1 "10 x = 1   ! note".toList NUL false false = .ok (f, false) ∧
    f.setLeadingSpaces 5 = .ok (g, true) ∧ g.print = "10   x = 1 ! note".toList ∧
    g.getLeadingSpaces = 5 := ⟨_, _, rfl, rfl, by decide, by decide⟩

example : ∃ f g, analyzeFree 1 "!          note".toList NUL false false = .ok (f, false) ∧
    f.setLeadingSpaces 2 = .ok (g, true) ∧ g.print = "  !    note".toList ∧
    f.left_txt = blanks 0 ++ '!' :: "          note".toList :=
  ⟨_, _, rfl, rfl, by decide, by decide⟩

/-! ## C12 -/

/-- **C12** Setting a positive label: when the call succeeds the line is labelled, the label text
reads as the number, and statement text, comment and other flags are untouched. -/
theorem C12_set_label (f g : FileLine) (k : Nat) (r : Bool) (hk : 0 < k)
    (h : f.setLabel k = .ok (g, r)) :
    r = true ∧ g.bits = { f.bits with label := true } ∧ decimal g.left_txt = k ∧
    g.left_txt = natToStr k ++ blanks (g.left_txt.length - (natToStr k).length) ∧
    g.main_txt = f.main_txt ∧ g.right_space = f.right_space ∧ g.right_txt = f.right_txt ∧
    g.open_delim = f.open_delim ∧ g.linenum = f.linenum := by
  have hdec : ∀ m, decimal (natToStr k ++ blanks m) = k := by
    intro m
    unfold decimal
    rw [List.takeWhile_append_of_pos (fun c hc => natToStr_digit hc)]
    have : (blanks m).takeWhile isDigit = [] := by
      cases m with
      | zero => rfl
      | succ m => simp [blanks, List.replicate_succ, isDigit]
    rw [this, List.append_nil]
    have := @Nat.ofDigitChars_ten_toDigits k
    rw [Nat.ofDigitChars_eq_foldl] at this
    exact this
  unfold FileLine.setLabel at h
  split at h
  · simp at h
  split at h
  · simp at h
  split at h
  · simp at h
  rw [if_neg (by omega)] at h
  dsimp only at h
  split at h
  · split at h
    · simp at h
      obtain ⟨rfl, rfl⟩ := h
      exact ⟨rfl, rfl, hdec _, by simp [blanks], rfl, rfl, rfl, rfl, rfl⟩
    · split at h
      · simp at h
      · simp at h
        obtain ⟨rfl, rfl⟩ := h
        exact ⟨rfl, rfl, hdec _, by simp [blanks], rfl, rfl, rfl, rfl, rfl⟩
  · simp at h
    obtain ⟨rfl, rfl⟩ := h
    refine ⟨rfl, rfl, ?_, by simp [blanks], rfl, rfl, rfl, rfl, rfl⟩
    have := hdec 0
    simpa [blanks] using this

/-- **C12** (outcome) The call succeeds on every Fortran line that is not a continuation line, for
every label up to 99999, except on a fixed-format line with unlabelled control columns. -/
theorem C12_set_label_outcome (f : FileLine) (k : Nat) :
    (∃ g r, f.setLabel k = .ok (g, r)) ↔
      k ≤ 99999 ∧ f.isFortran = true ∧ f.bits.continuation = false ∧
      (f.bits.fixed_format = true → f.left_txt ≠ [] → f.bits.label = false → k = 0) := by
  unfold FileLine.setLabel
  split
  · simp; omega
  split
  · simp_all
  split
  · simp_all
  split
  · rename_i h1 h2 h3 h4
    simp_all
  · rename_i h1 h2 h3 h4
    dsimp only
    split
    · split
      · simp_all
      · split
        · simp_all
        · simp_all
    · simp_all

/-- **C12** (alignment) Where the old text leaves room, setting a label does not move the
statement text. -/
theorem C12_set_label_column (f g : FileLine) (k : Nat) (r : Bool)
    (h : f.setLabel k = .ok (g, r))
    (hroom : if f.bits.fixed_format then f.left_txt ≠ [] ∨ f.left_space.length ≤ 6
      else (natToStr k).length ≤ f.left_txt.length ∨
        (natToStr k).length + 1 < f.left_txt.length + f.left_space.length) :
    g.mainFirstCol = f.mainFirstCol := by
  unfold FileLine.setLabel at h
  split at h
  · simp at h
  split at h
  · simp at h
  split at h
  · simp at h
  split at h
  · simp at h; rw [h.1]
  dsimp only at h
  split at h
  · rename_i hfix
    rw [if_pos hfix] at hroom
    split at h
    · rename_i h0
      have : f.left_space.length ≤ 6 := by
        rcases hroom with h1 | h1
        · exact absurd h0 h1
        · exact h1
      simp at h
      obtain ⟨rfl, rfl⟩ := h
      unfold FileLine.mainFirstCol
      simp only [hfix, if_true]
      rw [if_neg (show ¬ (f.left_space.length > 6) by omega)]
    · split at h
      · simp at h
      · simp at h
        obtain ⟨rfl, rfl⟩ := h
        unfold FileLine.mainFirstCol
        simp [hfix]
  · rename_i hfix
    rw [if_neg hfix] at hroom
    simp at h
    obtain ⟨rfl, rfl⟩ := h
    unfold FileLine.mainFirstCol
    simp only [hfix]
    by_cases hm : f.main_txt = []
    · simp [hm]
    · simp only [hm, if_false]
      by_cases h1 : (natToStr k).length < f.left_txt.length
      · simp [h1, blanks]; omega
      · by_cases h2 : f.left_txt.length < (natToStr k).length
        · have h3 : (natToStr k).length - f.left_txt.length + 1 < f.left_space.length := by omega
          simp [h1, h2, h3]; omega
        · simp [h1, h2]; omega

/-- **C12** Clearing the label of a line without one changes nothing. -/
theorem C12_clear_label_partial (f : FileLine) (hf : f.isFortran = true)
    (hc : f.bits.continuation = false) (hl : f.bits.label = false) :
    f.setLabel 0 = .ok (f, false) := by
  unfold FileLine.setLabel
  simp [hf, hc, hl]

/-- Clearing an existing label leaves the label `0`. -/
theorem C12_clear_label_violation :
    ∃ f g, analyzeFree 1 "10 x = 1".toList NUL false false = .ok (f, false) ∧
      f.setLabel 0 = .ok (g, true) ∧ g.bits.label = true ∧ g.print = "0  x = 1".toList :=
  ⟨_, _, rfl, rfl, by decide, by decide⟩

/-- Setting the label a line already has reports a change. -/
theorem C12_return_violation :
    ∃ f, analyzeFree 1 "10 x = 1".toList NUL false false = .ok (f, false) ∧
      f.setLabel 10 = .ok (f, true) := ⟨_, rfl, by decide⟩

/-- Labelling an indented fixed-format line moves its text six columns to the left. -/
theorem C12_set_label_column_violation :
    ∃ f g, analyzeFixed 1 "             x = 1".toList NUL 72 = .ok f ∧
      f.setLabel 10 = .ok (g, true) ∧ f.mainFirstCol = 14 ∧ g.mainFirstCol = 8 :=
  ⟨_, _, rfl, rfl, by decide, by decide⟩

example : ∃ f g, analyzeFree 1 "      x = 1".toList NUL false false = .ok (f, false) ∧
    f.setLabel 120 = .ok (g, true) ∧ g.print = "120   x = 1".toList :=
  ⟨_, _, rfl, rfl, by decide⟩

/-! ## C13 -/

/-- **C13** When `main_txt` is not all blank, the result has no leading or trailing blank, and
trailing blanks are moved to `right_space`.  With no leading blanks the printed line is unchanged.
Missing: leading blanks are dropped and an all-blank `main_txt` is kept; see the violations. -/
theorem C13_unspace_main_partial (f : FileLine) (h : ∃ c ∈ f.main_txt, c ≠ ' ') :
    f.unspaceMain.main_txt.head? ≠ some ' ' ∧ f.unspaceMain.main_txt.getLast? ≠ some ' ' ∧
    f.unspaceMain.main_txt ≠ [] ∧
    (∃ k, f.unspaceMain.right_space = f.right_space ++ blanks k) ∧
    f.unspaceMain.bits = f.bits ∧ f.unspaceMain.left_txt = f.left_txt ∧
    f.unspaceMain.left_space = f.left_space ∧ f.unspaceMain.right_txt = f.right_txt ∧
    (f.main_txt.head? ≠ some ' ' → f.right_space = blanks f.right_space.length →
      f.unspaceMain.print = f.print) := by
  unfold FileLine.unspaceMain
  split
  · rename_i hn
    have := findFirst_blank_none hn
    obtain ⟨c, hc, hcs⟩ := h
    rw [this] at hc
    simp [blanks] at hc
    exact absurd hc.2 hcs
  · rename_i k hk
    obtain ⟨h1, h2, c, t, h3, h4⟩ := findFirst_blank_some hk
    have hk0 : f.main_txt.head? ≠ some ' ' → k = 0 := by
      intro hh
      by_contra hne
      apply hh
      have := congrArg List.head? h2
      rw [List.head?_take, if_neg hne] at this
      rw [this]
      obtain ⟨m, rfl⟩ : ∃ m, k = m + 1 := ⟨k - 1, by omega⟩
      simp [blanks, List.replicate_succ]
    dsimp only
    have hle := lastNotOfSucc_le [' '] (f.main_txt.drop k)
    have hpos : 0 < lastNotOfSucc [' '] (f.main_txt.drop k) := by
      by_contra hz
      have hz' : lastNotOfSucc [' '] (f.main_txt.drop k) = 0 := by omega
      have := lastNotOfSucc_drop [' '] (f.main_txt.drop k) c (by rw [hz', h3]; simp)
      simp at this
      exact h4 this
    have hlast : ((f.main_txt.drop k).take (lastNotOfSucc [' '] (f.main_txt.drop k))).getLast? ≠ some ' ' := by
      intro hx
      have := lastNotOfSucc_last _ _ _ hx
      simp at this
    split
    · rename_i hlt
      refine ⟨?_, hlast, ?_, ⟨_, rfl⟩, rfl, rfl, rfl, rfl, ?_⟩
      · dsimp only
        rw [List.head?_take, if_neg (by omega), h3]; simpa using h4
      · dsimp only
        intro hx
        rw [List.take_eq_nil_iff] at hx
        rcases hx with hx | hx
        · omega
        · rw [h3] at hx; simp at hx
      · intro hh hrs
        have hk' := hk0 hh
        subst hk'
        simp only [List.drop_zero] at hlt hle hpos hlast ⊢
        have key : ∀ (m n : Nat), blanks n ++ blanks m = blanks m ++ blanks n := by
          intro m n; simp [blanks, Nat.add_comm]
        have htail : f.main_txt.drop (lastNotOfSucc [' '] f.main_txt) =
            blanks (f.main_txt.length - lastNotOfSucc [' '] f.main_txt) := by
          unfold blanks
          refine List.eq_replicate_iff.mpr ⟨by simp, fun x hx => ?_⟩
          simpa using lastNotOfSucc_drop _ _ _ hx
        have : f.main_txt.take (lastNotOfSucc [' '] f.main_txt) ++
            (f.right_space ++ blanks (f.main_txt.length - lastNotOfSucc [' '] f.main_txt)) =
            f.main_txt ++ f.right_space := by
          conv_rhs => rw [← List.take_append_drop (lastNotOfSucc [' '] f.main_txt) f.main_txt, htail]
          rw [List.append_assoc]
          congr 1
          rw [hrs]; exact key _ _
        unfold FileLine.print FileLine.isFortran FileLine.isTrivial
        dsimp only
        have this' := congrArg (· ++ f.right_txt) this
        simp only [List.append_assoc] at this' ⊢
        rw [this']
    · rename_i hlt
      have hfull : (f.main_txt.drop k).take (lastNotOfSucc [' '] (f.main_txt.drop k)) =
          f.main_txt.drop k := List.take_of_length_le (by omega)
      rw [hfull] at hlast
      refine ⟨?_, hlast, ?_, ⟨0, by simp [blanks]⟩, rfl, rfl, rfl, rfl, ?_⟩
      · dsimp only
        rw [h3]; simpa using h4
      · dsimp only
        rw [h3]; simp
      · intro hh _
        have hk' := hk0 hh
        subst hk'
        simp [FileLine.print, FileLine.isFortran, FileLine.isTrivial]

/-- Leading blanks are lost instead of moving to `left_space`. -/
theorem C13_unspace_main_violation_leading :
    ∃ f, analyzeFree 1 "&   x".toList NUL true false = .ok (f, false) ∧
      f.print = "&   x".toList ∧ f.unspaceMain.print = "&x".toList := ⟨_, rfl, by decide, by decide⟩

/-- An all-blank `main_txt` stays. -/
theorem C13_unspace_main_violation_blank :
    ({ main_txt := "  ".toList } : FileLine).unspaceMain.main_txt = "  ".toList := by decide

example : ({ main_txt := "x = 1  ".toList, right_txt := "! c".toList } : FileLine).unspaceMain =
    { main_txt := "x = 1".toList, right_space := "  ".toList, right_txt := "! c".toList } := by decide

end FLPR
