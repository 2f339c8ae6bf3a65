import Verif.LogicalFile.ConvertReread
/-!
# Reading a moved free-format line again (C74): one line
-/

namespace FLPR
open Spec

theorem blankChar_ascii {c : Char} (h : isBlankChar c = true) : isAscii c = true := by
  unfold isBlankChar at h
  simp at h
  rcases h with (rfl | rfl) | rfl <;> rfl

theorem digit_ascii {c : Char} (h : isDigit c = true) : isAscii c = true := by
  rw [isDigit_toNat] at h
  unfold isAscii; simp; omega

theorem space_ascii {c : Char} (h : isSpace c = true) : isAscii c = true := by
  unfold isSpace at h
  simp at h
  rcases h with ((((rfl | rfl) | rfl) | rfl) | rfl) | rfl <;> rfl

/-- What stands to the left of the text `m` of a Fortran line whose left end is read as it is written. -/
inductive LeftForm (pc : Bool) (m : Str) : Bits → Str → Str → Prop
  | plain {ls : Str} {c : Char} {t : Str} (hls : ∀ x ∈ ls, isBlankChar x = true) (hm : m = c :: t)
      (hb : isBlankChar c = false) (h1 : c ≠ '!') (h2 : c ≠ '&') (h3 : c ≠ '#') (hdig : pc = false → isDigit c = false)
      (hinc : ¬ startsInclude m) : LeftForm pc m {} [] ls
  | amp {w : Str} (hw : ∀ x ∈ w, isBlankChar x = true) : LeftForm pc m { continuation := true } (w ++ ['&']) []
  | label {w ds ls : Str} {c : Char} {t : Str} (hpc : pc = false) (hw : ∀ x ∈ w, isBlankChar x = true)
      (hds : ∀ x ∈ ds, isDigit x = true) (hne : ds ≠ []) (hlen : ds.length ≤ 6) (hls : ∀ x ∈ ls, isSpace x = true)
      (hm : m = c :: t) (hsp : isSpace c = false) (hdig : isDigit c = true → ls ≠ [] ∨ ds.length = 6) :
      LeftForm pc m { label := true } (w ++ ds) ls

/-- A Fortran line that is read as it is written, behind a line with open delimiter `pd` that is continued if `pc`. -/
structure LineOk (pd : Char) (pc : Bool) (f : FileLine) : Prop where
  left : LeftForm pc f.main_txt { f.bits with continued := false } f.left_txt f.left_space
  read : Readable pd f.open_delim f.bits.continued f.main_txt f.right_space f.right_txt

theorem LineOk.fortran {pd : Char} {pc : Bool} {f : FileLine} (h : LineOk pd pc f) :
    f.isFortran = true ∧ f.bits.fixed_format = false ∧ f.bits.comment = false := by
  have h := h.left
  generalize hb : ({ f.bits with continued := false } : Bits) = b at h
  generalize f.left_txt = lt, f.left_space = ls, f.main_txt = m at h
  have e1 : f.bits.fixed_format = b.fixed_format := by rw [← hb]
  have e2 : f.bits.comment = b.comment := by rw [← hb]
  have e3 : f.bits.blank = b.blank := by rw [← hb]
  have e4 : f.bits.preprocessor = b.preprocessor := by rw [← hb]
  have e5 : f.bits.flpr_pp = b.flpr_pp := by rw [← hb]
  have e6 : f.bits.flpr_lit = b.flpr_lit := by rw [← hb]
  have e7 : f.bits.incl = b.incl := by rw [← hb]
  simp only [FileLine.isFortran, FileLine.isTrivial, e1, e2, e3, e4, e5, e6, e7]
  cases h <;> exact ⟨rfl, rfl, rfl⟩

theorem LineOk.printed {pd : Char} {pc : Bool} {f : FileLine} (h : LineOk pd pc f) :
    f.print = (f.left_txt ++ f.left_space) ++ (f.main_txt ++ (f.right_space ++ f.right_txt)) := by
  unfold FileLine.print
  rw [h.fortran.2.1]
  simp

set_option maxHeartbeats 400000 in
/-- Such a line is read as it is. -/
theorem LineOk.reads {pd : Char} {pc : Bool} {f : FileLine} (h : LineOk pd pc f) (ln : Int) :
    analyzeFree ln f.print pd pc false = .ok ({ f with linenum := ln }, false) := by
  rw [h.printed]
  obtain ⟨hl, hr⟩ := h
  obtain ⟨n0, lt, ls, m, rs, u, od, B⟩ := f
  dsimp only at hl hr ⊢
  generalize hb : ({ B with continued := false } : Bits) = b at hl
  have hB : B = { b with continued := B.continued } := by rw [← hb]
  generalize B.continued = cont at hr hB
  subst hB
  clear hb
  cases hl with
  | @plain _ c t hls hm hnb h1 h2 h3 hdig hinc =>
    have hca : isAscii c = true := hr.ascii c (by rw [hm]; simp)
    obtain ⟨hbd, hi⟩ := body_blanks hls (M := m ++ (rs ++ u)) (by rw [hm]; rfl) hnb
    have hleft : freeLeft (ls ++ (m ++ (rs ++ u))) pc ls.length (upChar c) = .ok ([], {}, ls.length, 0) := by
      unfold freeLeft
      have : cIsDigit (upChar c) = .ok (isDigit c) := by
        simp [cIsDigit, isAscii_upChar c hca, isDigit_upChar]
      rw [this]
      simp only [Res.ok_bind]
      rw [if_neg, if_neg]
      · rw [upChar_amp]; exact h2
      · cases pc with
        | true => simp
        | false => simp [hdig rfl]
    have hg := free_body_full (ln := ln) hr.hd hr.hod hr.state hr.noMark hr.tail hr.ascii hleft (by simp [freeSkip])
    rw [List.nil_append]
    refine free_top (c0 := c) (rest := t ++ (rs ++ u)) ?_ (by rw [hbd, hm]; rfl) h1 ?_ ?_ (by
      rw [hi, hg]
      simp only [List.drop_zero, Nat.sub_zero, List.take_left]
      by_cases h0 : ls = []
      · subst h0; simp
      · rw [if_pos (List.length_pos_iff.mpr h0)])
    · intro x hx
      rcases List.mem_append.mp hx with hx | hx
      · exact blankChar_ascii (hls x hx)
      · exact hr.ascii x hx
    · cases ls with
      | nil => rw [hm]; simpa using h3
      | cons x ls =>
        have := hls x (by simp)
        simp
        rintro rfl
        revert this; decide
    · rw [hbd]
      intro hx
      exact hinc (include_tail hx (tail_shape hr.tail))
  | @amp w hw =>
    have e0 : (w ++ ['&']) ++ ([] : Str) ++ (m ++ (rs ++ u)) = w ++ ('&' :: (m ++ (rs ++ u))) := by simp
    obtain ⟨hbd, hi⟩ := body_blanks hw (M := '&' :: (m ++ (rs ++ u))) rfl (by decide)
    rw [← e0] at hbd hi
    have hleft : freeLeft ((w ++ ['&']) ++ ([] : Str) ++ (m ++ (rs ++ u))) pc w.length (upChar '&') =
        .ok (w ++ ['&'], { continuation := true }, w.length + 1, w.length + 1) := by
      unfold freeLeft
      have : cIsDigit (upChar '&') = .ok false := by decide
      rw [this]
      simp only [Res.ok_bind]
      rw [if_neg (by simp), if_pos (by decide)]
      rw [List.append_nil, List.take_left' (by simp)]
    have hg := free_body_full (ln := ln) hr.hd hr.hod hr.state hr.noMark hr.tail hr.ascii hleft (by simp [freeSkip])
    refine free_top (c0 := '&') (rest := m ++ (rs ++ u)) ?_ hbd (by decide) ?_ ?_ (by
      rw [hi, hg]
      rw [if_neg (by simp)])
    · intro x hx
      rcases List.mem_append.mp hx with hx | hx
      · rw [List.append_nil] at hx
        rcases List.mem_append.mp hx with hx | hx
        · exact blankChar_ascii (hw x hx)
        · simp at hx; subst hx; rfl
      · exact hr.ascii x hx
    · cases w with
      | nil => simp
      | cons x w =>
        have := hw x (by simp)
        simp
        rintro rfl
        revert this; decide
    · rw [hbd]
      rintro ⟨h1, _⟩
      simp at h1
      exact absurd h1.1 (by decide)
  | @label w ds _ c t hpc hw hds hne hlen hls hm hsp hdig =>
    subst hpc
    obtain ⟨d, ds', rfl⟩ : ∃ d ds', ds = d :: ds' := by
      cases ds with
      | nil => exact absurd rfl hne
      | cons d ds' => exact ⟨d, ds', rfl⟩
    have hd0 : isDigit d = true := hds d (by simp)
    have hdn : isBlankChar d = false := by
      by_contra hx
      have := digit_notSpace hd0
      rw [blank_isSpace d (by simpa using hx)] at this; simp at this
    have e0 : (w ++ d :: ds') ++ ls ++ (m ++ (rs ++ u)) = w ++ (d :: (ds' ++ (ls ++ (m ++ (rs ++ u))))) := by
      simp
    obtain ⟨hbd, hi⟩ := body_blanks hw (M := d :: (ds' ++ (ls ++ (m ++ (rs ++ u))))) rfl hdn
    rw [← e0] at hbd hi
    have hall : AsciiStr ((w ++ d :: ds') ++ ls ++ (m ++ (rs ++ u))) := by
      intro x hx
      rcases List.mem_append.mp hx with hx | hx
      · rcases List.mem_append.mp hx with hx | hx
        · rcases List.mem_append.mp hx with hx | hx
          · exact blankChar_ascii (hw x hx)
          · exact digit_ascii (hds x hx)
        · exact space_ascii (hls x hx)
      · exact hr.ascii x hx
    have hdrop : ((w ++ d :: ds') ++ ls ++ (m ++ (rs ++ u))).drop w.length =
        (d :: ds') ++ (ls ++ (m ++ (rs ++ u))) := by
      rw [e0, List.drop_left]; simp
    have hscan : scanDigits 6 w.length
        (((w ++ d :: ds') ++ ls ++ (m ++ (rs ++ u))).drop w.length) = .ok (w ++ d :: ds').length := by
      obtain ⟨r, hr⟩ := scanDigits_ascii 6 w.length _ (hall.drop w.length)
      rw [hr]
      have := scanDigits_ok _ _ _ _ hr
      rw [hdrop] at this
      rw [this]
      have : (((d :: ds') ++ (ls ++ (m ++ (rs ++ u)))).take 6).takeWhile isDigit = d :: ds' := by
        rw [List.take_append, List.take_of_length_le hlen]
        refine takeWhile_digits (d :: ds') hds _ ?_
        intro x hx
        cases hn : 6 - (d :: ds').length with
        | zero => rw [hn] at hx; simp at hx
        | succ k =>
          rw [hn] at hx
          cases ls with
          | cons y ls =>
            simp at hx; subst hx
            by_contra hy
            have h1 := digit_notSpace (c := y) (by simpa using hy)
            rw [hls y (by simp)] at h1; cases h1
          | nil =>
            rw [hm] at hx
            simp at hx; subst hx
            by_contra hy
            rcases hdig (by simpa using hy) with h1 | h1
            · exact h1 rfl
            · omega
      rw [this]; simp
    have hleft : freeLeft ((w ++ d :: ds') ++ ls ++ (m ++ (rs ++ u))) false w.length (upChar d) =
        .ok (w ++ d :: ds', { label := true }, (w ++ d :: ds').length, (w ++ d :: ds').length) := by
      unfold freeLeft
      have : cIsDigit (upChar d) = .ok true := by
        simp [cIsDigit, isAscii_upChar d (digit_ascii hd0), isDigit_upChar, hd0]
      rw [this]
      simp only [Res.ok_bind]
      rw [if_pos (by decide), hscan]
      simp only [Res.ok_bind]
      rw [List.append_assoc, List.take_left]
    have hskip : freeSkip ((w ++ d :: ds') ++ ls ++ (m ++ (rs ++ u))) (w ++ d :: ds') { label := true }
        (w ++ d :: ds').length = .ok ((w ++ d :: ds') ++ ls).length := by
      unfold freeSkip
      rw [if_pos ⟨by simp, rfl⟩]
      obtain ⟨r, hr⟩ := scanSpaces_ascii (w ++ d :: ds').length _ (hall.drop (w ++ d :: ds').length)
      rw [hr]
      have := scanSpaces_ok _ _ _ hr
      rw [List.append_assoc, List.drop_left] at this
      rw [this]
      have htw : ∀ ls : Str, (∀ c ∈ ls, isSpace c = true) →
          (ls ++ (m ++ (rs ++ u))).takeWhile isSpace = ls := by
        intro ls
        induction ls with
        | nil => intro _; rw [hm]; simp [hsp]
        | cons y ls ih =>
          intro hl
          simp [hl y (by simp), ih (fun c hc => hl c (by simp [hc]))]
      rw [htw ls hls]
      simp; omega
    have hg := free_body_full (ln := ln) hr.hd hr.hod hr.state hr.noMark hr.tail hr.ascii hleft hskip
    have hd1 : d ≠ '!' ∧ d ≠ '#' := by
      constructor <;> rintro rfl <;> revert hd0 <;> decide
    refine free_top (c0 := d) (rest := ds' ++ (ls ++ (m ++ (rs ++ u)))) hall hbd hd1.1 ?_ ?_ (by
      rw [hi, hg]
      by_cases h0 : ls = []
      · subst h0; simp
      · have hp := List.length_pos_iff.mpr h0
        rw [if_pos (by simp only [List.length_append]; omega)]
        rw [List.append_assoc (w ++ d :: ds'), List.drop_left]
        congr 3
        rw [List.take_left' (by simp; omega)])
    · cases w with
      | nil => simp; exact hd1.2
      | cons x w =>
        have := hw x (by simp)
        simp
        rintro rfl
        revert this; decide
    · rw [hbd]
      rintro ⟨h1, _⟩
      simp at h1
      have h1 := h1.1
      rw [lowChar_eq_i] at h1
      rcases h1 with rfl | rfl <;> revert hd0 <;> decide

/-! ## Moving -/

theorem Readable.space {pd od : Char} {cont : Bool} {m rs rs' u : Str} (h : Readable pd od cont m rs u)
    (hr : ∀ c ∈ rs', Blk c) (ho : od ≠ NUL → rs' = []) : Readable pd od cont m rs' u := by
  obtain ⟨h1, h2, h3, h4, h5, h6⟩ := h
  refine ⟨h1, h2, h3, h4, ⟨fun h => ⟨hr, (h5.1 h).2⟩, ho, h5.2.2.1, h5.2.2.2⟩, ?_⟩
  intro c hc
  rcases List.mem_append.mp hc with hc | hc
  · exact h6 c (by simp [hc])
  · rcases List.mem_append.mp hc with hc | hc
    · rcases hr c hc with rfl | rfl <;> rfl
    · exact h6 c (by simp [hc])

theorem Readable.blk {pd od : Char} {cont : Bool} {m rs u : Str} (h : Readable pd od cont m rs u) : ∀ c ∈ rs, Blk c := by
  by_cases ho : od = NUL
  · exact (h.tail.1 ho).1
  · rw [h.tail.2.1 ho]; simp

/-- In a character context there is no comment at the end of the line. -/
theorem Readable.noBang {pd od : Char} {cont : Bool} {m rs u : Str} (h : Readable pd od cont m rs u) (ho : od ≠ NUL) :
    findChar '!' u = none := by
  cases cont with
  | false => exact absurd (h.tail.2.2.2 rfl).1 ho
  | true =>
    obtain ⟨t, rfl, ht⟩ := h.tail.2.2.1 rfl
    have := ht ho
    unfold findChar
    rw [List.findIdx?_eq_none_iff]
    intro x hx
    rcases List.mem_cons.mp hx with rfl | hx
    · decide
    · have := this x hx
      by_contra hb
      simp at hb
      subst hb
      revert this; decide

/-- What moving a Fortran line leaves alone. -/
structure SameText (f f' : FileLine) : Prop where
  linenum : f'.linenum = f.linenum
  main : f'.main_txt = f.main_txt
  right : f'.right_txt = f.right_txt
  delim : f'.open_delim = f.open_delim
  bits : f'.bits = f.bits
  label : f.bits.continuation = false → f'.left_txt = f.left_txt

theorem SameText.refl (f : FileLine) : SameText f f := ⟨rfl, rfl, rfl, rfl, rfl, fun _ => rfl⟩

theorem SameText.trans {f g h : FileLine} (a : SameText f g) (b : SameText g h) : SameText f h :=
  ⟨b.linenum.trans a.linenum, b.main.trans a.main, b.right.trans a.right, b.delim.trans a.delim, b.bits.trans a.bits,
    fun hc => (b.label (by rw [a.bits]; exact hc)).trans (a.label hc)⟩

theorem LineOk.adjust {pd : Char} {pc : Bool} {f f' : FileLine} {o : Offset} (h : LineOk pd pc f)
    (ha : f.adjustRight o = .ok f') : LineOk pd pc f' ∧ SameText f f' ∧ f'.left_txt = f.left_txt ∧ f'.left_space = f.left_space ∧
      (f.right_space ≠ [] → f'.right_space ≠ []) ∧
      (f.right_space = [] → '!' ∉ f.right_txt → f'.right_space = []) := by
  have hsp : ∀ rs, (∀ c ∈ rs, Blk c) → (f.open_delim ≠ NUL → rs = []) → LineOk pd pc { f with right_space := rs } :=
    fun rs h1 h2 => ⟨h.left, h.read.space h1 h2⟩
  have hst : ∀ rs, SameText f { f with right_space := rs } := fun rs => ⟨rfl, rfl, rfl, rfl, rfl, fun _ => rfl⟩
  have hblanks : ∀ n, ∀ c ∈ blanks n, Blk c := fun n c hc => Or.inl (List.eq_of_mem_replicate hc)
  unfold FileLine.adjustRight at ha
  split at ha
  · cases ha
    exact ⟨h, .refl _, rfl, rfl, id, fun h _ => h⟩
  · split at ha
    · cases ha
    · rename_i off
      split at ha
      · cases ha
        exact ⟨h, .refl _, rfl, rfl, id, fun h _ => h⟩
      · split at ha
        · cases ha
          exact ⟨h, .refl _, rfl, rfl, id, fun h _ => h⟩
        · rename_i pos hpos
          have hN : f.open_delim = NUL := by
            by_contra ho
            rw [h.read.noBang ho] at hpos
            cases hpos
          have hbang : '!' ∈ f.right_txt := by
            unfold findChar at hpos
            obtain ⟨hlt, hp, _⟩ := List.findIdx?_eq_some_iff_getElem.mp hpos
            have := List.getElem_mem hlt
            simp at hp
            rw [hp] at this
            exact this
          split at ha
          · split at ha
            · cases ha
              refine ⟨hsp _ ?_ (fun ho => absurd hN ho), hst _, rfl, rfl, ?_, fun _ hb => absurd hbang hb⟩
              · intro c hc
                rcases List.mem_append.mp hc with hc | hc
                · rcases List.mem_append.mp hc with hc | hc
                  · exact h.read.blk c (List.mem_of_mem_take hc)
                  · exact hblanks _ c hc
                · exact h.read.blk c (List.mem_of_mem_drop hc)
              · intro hne hcon
                simp only [List.append_eq_nil_iff] at hcon
                obtain ⟨⟨h1, _⟩, h2⟩ := hcon
                exact hne (by rw [← List.take_append_drop pos f.right_space, h1, h2]; rfl)
            · cases ha
          · generalize hk : (max (if f.right_space = [] then (0 : Int) else 1) ((f.right_space.length : Int) - off)).toNat = k at ha
            have hk1 : f.right_space ≠ [] → 0 < k := by
              intro hne
              rw [if_neg hne] at hk
              omega
            dsimp only at ha
            rw [hk] at ha
            by_cases hc : f.right_space.length ≠ k
            · rw [if_pos hc] at ha
              cases ha
              refine ⟨hsp _ (hblanks _) (fun ho => absurd hN ho), hst _, rfl, rfl, ?_, fun _ hb => absurd hbang hb⟩
              intro hne hcon
              have h0 := congrArg List.length hcon
              have := hk1 hne
              simp only [blanks, List.length_replicate, List.length_nil] at h0
              omega
            · rw [if_neg hc] at ha
              cases ha
              exact ⟨h, .refl _, rfl, rfl, id, fun h _ => h⟩

set_option maxHeartbeats 400000 in
/-- Moving keeps a line readable, and keeps its text. -/
theorem LineOk.moved {pd : Char} {pc b : Bool} {f f' : FileLine} {n : Nat} (h : LineOk pd pc f)
    (hs : f.setLeadingSpaces n = .ok (f', b)) : LineOk pd pc f' ∧ SameText f f' ∧
      (f.right_space ≠ [] → f'.right_space ≠ []) ∧
      (f.right_space = [] → '!' ∉ f.right_txt → f'.right_space = []) ∧
      (f.bits.continuation = true → f'.left_space = [] ∧ f.left_space = []) ∧
      (f.bits.continuation = false → (f.left_txt = [] → 0 < n) → f.left_space ≠ [] → f'.left_space ≠ []) := by
  obtain ⟨hF, hfix, hcom⟩ := h.fortran
  unfold FileLine.setLeadingSpaces at hs
  rw [hcom, hF] at hs
  simp only [Bool.false_eq_true, if_false, if_true] at hs
  have hcs : f.bits.continuation = true → f.left_space = [] := by
    intro hc
    have := h.left
    generalize hb : ({ f.bits with continued := false } : Bits) = B at this
    have e1 : f.bits.continuation = B.continuation := by rw [← hb]
    rw [e1] at hc
    generalize f.left_txt = lt, f.left_space = ls, f.main_txt = m at this
    cases this <;> first | rfl | cases hc
  have hblank : ∀ k, ∀ x ∈ blanks k, isBlankChar x = true := by
    intro k x hx
    rw [List.eq_of_mem_replicate hx]; rfl
  have hspace : ∀ k, ∀ x ∈ blanks k, isSpace x = true := by
    intro k x hx
    rw [List.eq_of_mem_replicate hx]; rfl
  rbind hs with o ho
  -- what moving the text does
  have key : ∀ g off, f.moveMain n = .ok (some (g, off)) → LineOk pd pc g ∧ SameText f g ∧ g.right_space = f.right_space ∧
      (f.bits.continuation = true → g.left_space = []) ∧
      (f.bits.continuation = false → (f.left_txt = [] → 0 < n) → f.left_space ≠ [] → g.left_space ≠ []) := by
    intro g off hg
    have hl := h.left
    have hre := h.read
    obtain ⟨n0, lt, ls, m, rs, u, od, B⟩ := f
    dsimp only at *
    generalize hb : ({ B with continued := false } : Bits) = b' at hl
    have hB : B = { b' with continued := B.continued } := by rw [← hb]
    unfold FileLine.moveMain at hg
    dsimp only at hg
    cases hl with
    | @plain _ c t hls hm hnb h1 h2 h3 hdig hinc =>
      have hBc : B.continuation = false := by rw [hB]
      rw [if_pos rfl] at hg
      split at hg
      · cases hg
      · simp only [Except.ok.injEq, Option.some.injEq, Prod.mk.injEq] at hg
        obtain ⟨rfl, _⟩ := hg
        refine ⟨⟨by dsimp only; rw [hb]; exact .plain (hblank n) hm hnb h1 h2 h3 hdig hinc, hre⟩,
          ⟨rfl, rfl, rfl, rfl, rfl, fun _ => rfl⟩, rfl, fun hc => (by rw [hBc] at hc; cases hc), fun _ hn _ => ?_⟩
        have := hn rfl
        intro hcon
        have := congrArg List.length hcon
        simp [blanks] at this
        omega
    | @amp w hw =>
      have hBc : B.continuation = true := by rw [hB]
      have hBl : B.label = false := by rw [hB]
      have hBf : B.fixed_format = false := by rw [hB]
      rw [if_neg (by simp), if_neg (by rw [hBl]; simp), if_pos (by rw [hBc, hBf]; rfl)] at hg
      split at hg
      · cases hg
      · split at hg
        · simp only [Except.ok.injEq, Option.some.injEq, Prod.mk.injEq] at hg
          obtain ⟨rfl, _⟩ := hg
          refine ⟨⟨?_, hre⟩, ⟨rfl, rfl, rfl, rfl, rfl, fun hc => (by rw [hBc] at hc; cases hc)⟩, rfl, fun _ => rfl,
            fun hc => (by rw [hBc] at hc; cases hc)⟩
          dsimp only
          rw [hb, ← List.append_assoc]
          refine .amp ?_
          intro x hx
          rcases List.mem_append.mp hx with hx | hx
          · exact hblank _ x hx
          · exact hw x hx
        · split at hg
          · cases hg
          · rename_i pos hpos
            simp only [Except.ok.injEq, Option.some.injEq, Prod.mk.injEq] at hg
            obtain ⟨rfl, _⟩ := hg
            refine ⟨⟨?_, hre⟩, ⟨rfl, rfl, rfl, rfl, rfl, fun hc => (by rw [hBc] at hc; cases hc)⟩, rfl, fun _ => rfl,
              fun hc => (by rw [hBc] at hc; cases hc)⟩
            dsimp only
            have hle : pos ≤ w.length := by
              unfold findFirstNotOf at hpos
              obtain ⟨hlt, hp, hq⟩ := List.findIdx?_eq_some_iff_getElem.mp hpos
              simp at hlt; omega
            rw [hb, List.drop_append_of_le_length (by omega)]
            exact .amp (fun x hx => hw x (List.mem_of_mem_drop hx))
    | @label w ds _ c t hpc hw hds hne hlen hls hm hsp hdig =>
      have hBc : B.continuation = false := by rw [hB]
      have hBl : B.label = true := by rw [hB]
      have hne' : w ++ ds ≠ [] := by simp [hne]
      rw [if_neg hne', if_pos hBl] at hg
      split at hg
      · rename_i hlt
        split at hg
        · cases hg
        · simp only [Except.ok.injEq, Option.some.injEq, Prod.mk.injEq] at hg
          obtain ⟨rfl, _⟩ := hg
          have hnn : blanks (n - (w ++ ds).length) ≠ [] := by
            intro hcon
            have := congrArg List.length hcon
            simp only [blanks, List.length_replicate, List.length_nil] at this
            omega
          refine ⟨⟨by dsimp only; rw [hb]; exact .label hpc hw hds hne hlen (hspace _) hm hsp (fun _ => Or.inl hnn), hre⟩,
            ⟨rfl, rfl, rfl, rfl, rfl, fun _ => rfl⟩, rfl, fun hc => (by rw [hBc] at hc; cases hc), fun _ _ _ => hnn⟩
      · split at hg
        · cases hg
        · simp only [Except.ok.injEq, Option.some.injEq, Prod.mk.injEq] at hg
          obtain ⟨rfl, _⟩ := hg
          refine ⟨⟨by dsimp only; rw [hb]; exact .label hpc hw hds hne hlen (by simp; rfl) hm hsp (fun _ => Or.inl (by simp)), hre⟩,
            ⟨rfl, rfl, rfl, rfl, rfl, fun _ => rfl⟩, rfl, fun hc => (by rw [hBc] at hc; cases hc), fun _ _ _ => by simp⟩
  cases o with
  | none =>
    simp only [Except.ok.injEq, Prod.mk.injEq] at hs
    obtain ⟨rfl, _⟩ := hs
    exact ⟨h, .refl _, id, fun h _ => h, fun hc => ⟨hcs hc, hcs hc⟩, fun _ _ h => h⟩
  | some go =>
    obtain ⟨g, off⟩ := go
    dsimp only at hs
    rbind hs with h2 hh2
    simp only [Except.ok.injEq, Prod.mk.injEq] at hs
    obtain ⟨rfl, _⟩ := hs
    obtain ⟨k1, k2, k3, k4, k5⟩ := key g off ho
    obtain ⟨a1, a2, a3, a4, a5, a6⟩ := k1.adjust hh2
    refine ⟨a1, k2.trans a2, fun hr => a5 (by rw [k3]; exact hr), fun hr hb => a6 (by rw [k3]; exact hr) (by rw [k2.right]; exact hb),
      fun hc => ⟨by rw [a4]; exact k4 hc, hcs hc⟩, fun hc hn hl => ?_⟩
    rw [a4]
    exact k5 hc hn hl

end FLPR
