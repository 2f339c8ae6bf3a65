import Verif.LogicalFile.ConvertChain
/-!
# Reading a converted file in free format
-/

namespace FLPR
open Spec

/-! ## Lines that are not Fortran -/

theorem free_other {ln : Int} {raw : Str} {k : Cat} (ha : AsciiStr raw)
    (hk : lineCat false raw = k) (h1 : k ≠ .fortran) (h2 : k ≠ .literal) :
    ∃ g, analyzeFree ln raw NUL false false = .ok (g, false) ∧ g.open_delim = NUL ∧ g.main_txt = [] ∧
      g.bits.continued = false ∧ g.bits.label = false ∧ ∀ k', catFlag g k' = true ↔ k = k' := by
  rcases C03_free_outcome ln raw NUL false false validDelim_NUL ha with ⟨⟨g, lit⟩, hg⟩ | ⟨_, h, _⟩
  · have hlit : lit = false := by
      have := C02_free_literal_state _ _ _ _ _ _ _ hg
      simp only [Bool.false_eq_true, if_false] at this
      rw [hk] at this
      cases lit with
      | false => rfl
      | true => exact absurd (this.mp rfl) h2
    subst hlit
    have hcat := C02_free_category _ _ _ _ _ _ _ validDelim_NUL hg
    rw [hk] at hcat
    obtain ⟨_, _, f3, _, _, f6⟩ := C02_free_nonfortran_fields _ _ _ _ _ _ _ validDelim_NUL hg
      (by rw [hk]; exact h1)
    refine ⟨g, hg, f6, f3, ?_, ?_, hcat⟩
    all_goals
      have hf : g.isFortran = false := by
        cases hx : g.isFortran with
        | false => rfl
        | true => exact absurd ((hcat .fortran).mp hx) h1
      rcases analyzeFree_cases hg with ⟨h, _⟩ | ⟨_, _, rfl, _⟩ | ⟨c0, rest, _, hb, h⟩
      · simp at h
      · rfl
      · rcases h with ⟨_, rfl, _⟩ | ⟨_, _, rfl, _⟩ | ⟨_, _, h⟩
        · rfl
        · rfl
        · rcases h with ⟨_, _, rfl, _⟩ | ⟨_, _, _, rfl, _⟩ | ⟨_, _, _, rfl, _⟩ | ⟨_, _, h⟩
          · rfl
          · rfl
          · rfl
          · obtain ⟨_, _, _, _, _, _, _, _, _, _, _, _, _, _, _, _, _, hf', _⟩ :=
              analyzeFreeBody_spec hb validDelim_NUL h
            rw [hf] at hf'; simp at hf'
  · exact absurd (hk ▸ h) h1

theorem same_flags {f g : FileLine} {k : Cat} (hf : ∀ k', catFlag f k' = true ↔ k = k')
    (hg : ∀ k', catFlag g k' = true ↔ k = k') (hm : g.main_txt = f.main_txt)
    (hl : f.bits.label = false) (hl' : g.bits.label = false) : SameContent f g := by
  have h : ∀ k', catFlag g k' = catFlag f k' := by
    intro k'
    rw [Bool.eq_iff_iff, hf, hg]
  exact ⟨hm, by simp [lineLabel, hl, hl'], h .fortran, h .comment, h .blank, h .preprocessor, h .incl,
    h .directive⟩

theorem detab_ascii {raw : Str} (h : AsciiStr raw) : AsciiStr (detab raw) := by
  intro c hc
  rcases detab_mem hc with hc | rfl
  · exact h c hc
  · rfl

/-- A line that is no Fortran, converted and read again. -/
theorem other_line {ln : Int} {raw : Str} {pd : Char} {lc : Int} {f : FileLine}
    (h : analyzeFixed ln raw pd lc = .ok f) (hraw : PlainFixed lc raw) (hf : f.isFortran = false)
    (hbl : f.bits.blank = true → body f.left_txt = [])
    (hpp : f.bits.flpr_pp = true → (body f.left_txt).head? = some '!') :
    ∃ f', (if (unfix f).bits.comment then convComment (unfix f) else .ok (unfix f)) = .ok f' ∧
      ∀ ln' : Int, ∃ g, analyzeFree ln' f'.print NUL false false = .ok (g, false) ∧ SameContent f g ∧
        g.open_delim = NUL ∧ g.bits.continued = false := by
  have hcat := C44_fixed_category _ _ _ _ _ h
  have hasc := detab_ascii hraw.ascii
  have hprint : ∀ (b : Bits) (t : Str), (unfix (mkLeft ln b t)).print = t := by
    intro b t
    rw [print_free rfl]
    simp [unfix, mkLeft]
  -- it is enough to find the category
  have fin : ∀ (f' : FileLine) (k : Cat), fixedCat (decide (pd ≠ NUL)) (detab raw) = k →
      lineCat false f'.print = k → AsciiStr f'.print → k ≠ .fortran → k ≠ .literal →
      f.main_txt = [] → f.bits.label = false →
      ∀ ln' : Int, ∃ g, analyzeFree ln' f'.print NUL false false = .ok (g, false) ∧ SameContent f g ∧
        g.open_delim = NUL ∧ g.bits.continued = false := by
    intro f' k h1 h2 h3 h4 h5 h6 h7 ln'
    obtain ⟨g, g1, g2, g3, g4, g5, g6⟩ := free_other (ln := ln') h3 h2 h4 h5
    rw [h1] at hcat
    exact ⟨g, g1, same_flags hcat g6 (by rw [g3, h6]) h7 g5, g2, g4⟩
  obtain ⟨e, he, hcs⟩ := analyzeFixed_cases h
  rw [← he] at hasc fin hcat
  rcases hcs with ⟨h1, rfl⟩ | ⟨c0, rest, hb, hcs⟩
  · refine ⟨_, rfl, fin _ .blank ?_ ?_ ?_ (by simp) (by simp) rfl rfl⟩
    · exact (hcat .blank).mp rfl
    · rw [hprint]; simp [lineCat, h1]
    · rw [hprint]; exact hasc
  rcases hcs with ⟨h1, h2, rfl⟩ | ⟨h1, h2, rfl⟩ | ⟨h1, h2, hcs⟩
  · refine ⟨_, rfl, fin _ .preprocessor ?_ ?_ ?_ (by simp) (by simp) rfl rfl⟩
    · exact (hcat .preprocessor).mp rfl
    · rw [hprint]; simp [lineCat, hb, h2]
    · rw [hprint]; exact hasc
  · have hh : e.head? ≠ some '#' := fun hx => h1 ⟨h2.1, hx⟩
    refine ⟨_, rfl, fin _ .incl ?_ ?_ ?_ (by simp) (by simp) rfl rfl⟩
    · exact (hcat .incl).mp rfl
    · rw [hprint]; simp only [lineCat]
      rw [if_neg (by simp), if_neg (by simp [hb]), if_neg hh, if_pos h2.2]
    · rw [hprint]; exact hasc
  rcases hcs with ⟨⟨h3, h3'⟩, h4, ⟨h5, rfl⟩ | ⟨h5, rfl⟩⟩ | ⟨h3, hcs⟩
  · have hh : e.head? ≠ some '#' := fun hx => h1 ⟨h3, hx⟩
    refine ⟨_, rfl, fin _ .directive ?_ ?_ ?_ (by simp) (by simp) rfl rfl⟩
    · exact (hcat .directive).mp rfl
    · have hbang := hpp rfl
      rw [hprint]; simp only [lineCat]
      rw [if_neg (by simp), if_neg (by simp [hb]), if_neg hh, if_neg (fun hx => h2 ⟨h3, hx⟩),
        if_pos (by simpa [mkLeft] using hbang), if_neg h4, if_pos h5]
    · rw [hprint]; exact hasc
  · have hcatc : fixedCat (decide (pd ≠ NUL)) e = .comment := (hcat .comment).mp rfl
    obtain ⟨c, t, hce⟩ : ∃ c t, e = c :: t := by
      cases hx : e with
      | nil => rw [hx] at hb; simp [body] at hb
      | cons c t => exact ⟨c, t, rfl⟩
    have hconv : (if (unfix (mkLeft ln { fixed_format := true, comment := true } e)).bits.comment = true then
          convComment (unfix (mkLeft ln { fixed_format := true, comment := true } e))
        else .ok (unfix (mkLeft ln { fixed_format := true, comment := true } e))) =
        .ok (unfix (mkLeft ln { fixed_format := true, comment := true }
          (if c ≠ ' ' then '!' :: t else e))) := by
      rw [if_pos (show (unfix (mkLeft ln { fixed_format := true, comment := true } e)).bits.comment = true
        from rfl)]
      subst hce
      unfold convComment
      by_cases hc : c = ' ' <;> simp [unfix, mkLeft, hc]
    refine ⟨_, hconv, ?_⟩
    by_cases hc : c = ' '
    · rw [if_neg (by simp [hc])]
      have hbang : (body e).head? = some '!' := by
        rcases h3' with hx | ⟨_, hx⟩
        · exact hx
        · rw [hce, hc] at hx; simp at hx
      refine fin _ .comment hcatc ?_ ?_ (by simp) (by simp) rfl rfl
      · rw [hprint]
        simp only [lineCat]
        rw [if_neg (by simp), if_neg (by simp [hb]), if_neg (by rw [hce, hc]; simp),
          if_neg (fun hx => h2 ⟨h3, hx⟩), if_pos hbang, if_neg h4, if_neg h5]
      · rw [hprint]; exact hasc
    · rw [if_pos hc]
      have hnb : isBlankChar c = false := by
        by_contra hx
        have hx : isBlankChar c = true := by simpa using hx
        have hmem : c ∈ detab raw := by rw [← he, hce]; simp
        have hw : c = ' ' ∨ c = '\t' := by
          rcases detab_mem hmem with hm | hm
          · exact hraw.white c hm (blank_isSpace c hx)
          · exact Or.inl hm
        rcases hw with rfl | rfl
        · exact hc rfl
        · have := detab_no_tab raw
          rw [← he, hce] at this
          simp at this
      have hbe : body e = c :: t := by rw [hce]; simp [body, hnb]
      have hb' : body ('!' :: t) = '!' :: t := by simp [body, isBlankChar]
      have hm' : ¬ isMarker ('!' :: t) := by
        intro hx; apply h5; rw [hbe]; exact hx
      refine fin _ .comment hcatc ?_ ?_ (by simp) (by simp) rfl rfl
      · rw [hprint]
        simp only [lineCat]
        rw [hb', if_neg (by simp), if_neg (by simp), if_neg (by simp), if_neg, if_pos (by simp),
          if_neg (fun hx => hm' hx.1), if_neg hm']
        rintro ⟨hx, _⟩
        simp at hx
        exact absurd hx.1 (by decide)
      · rw [hprint]
        intro x hx
        rcases List.mem_cons.mp hx with rfl | hx
        · rfl
        · exact hasc x (by rw [hce]; simp [hx])
  · exfalso
    unfold fixedRest at hcs
    rbind hcs with ⟨lt, b, r, bl⟩ hl
    dsimp only at hcs
    by_cases hbl' : bl = true
    · rw [if_pos hbl'] at hcs
      simp at hcs
      subst hcs
      have := hbl rfl
      simp [mkLeft, hb] at this
    · rw [if_neg hbl'] at hcs
      have hbits := (analyzeFixedBody_misc hcs).2.1
      obtain ⟨q1, q2, q3, q4, q5, q6, q7, q8, q9, q10, q11, q12, q13, q14, q15⟩ :=
        fixedLeft_ok hb hl
      simp [FileLine.isFortran, FileLine.isTrivial, hbits, q6, q7, q8, q9, q10, q11] at hf

/-! ## Chains of analysed lines -/

/-- The lines are what the analysis gives, one after the other, starting in context `pd`. -/
def FixChain (lc : Int) : Char → List FileLine → Prop
  | _, [] => True
  | pd, f :: fs =>
    (∃ ln raw, PlainFixed lc raw ∧ analyzeFixed ln raw pd lc = .ok f) ∧ FixChain lc f.open_delim fs

/-- The context at the end of a list of lines. -/
def endDelim : Char → List FileLine → Char
  | pd, [] => pd
  | _, f :: fs => endDelim f.open_delim fs

theorem fixChain_of_all {lc : Int} : ∀ {raws : List Str} {ln : Nat} {pd : Char} {fl : List FileLine},
    (∀ r ∈ raws, PlainFixed lc r) → analyzeAllFixed lc ln pd raws = .ok (some fl) → FixChain lc pd fl
  | [], _, _, fl, _, h => by simp [analyzeAllFixed] at h; subst h; trivial
  | r :: rs, ln, pd, fl, hp, h => by
    unfold analyzeAllFixed at h
    split at h
    · simp at h
    · simp at h
    · rename_i f hf
      rbind h with o ho
      cases o with
      | none => simp at h
      | some fs =>
        simp at h
        subst h
        exact ⟨⟨_, r, hp r (by simp), hf⟩, fixChain_of_all (fun x hx => hp x (by simp [hx])) ho⟩

theorem fixChain_append {lc : Int} : ∀ {a b : List FileLine} {pd : Char}, FixChain lc pd (a ++ b) →
    FixChain lc pd a ∧ FixChain lc (endDelim pd a) b
  | [], _, _, h => ⟨trivial, h⟩
  | _ :: _, _, _, h =>
    let r := fixChain_append h.2
    ⟨⟨h.1, r.1⟩, r.2⟩

theorem analyzeFixed_fixed {ln : Int} {raw : Str} {pd : Char} {lc : Int} {f : FileLine}
    (h : analyzeFixed ln raw pd lc = .ok f) : f.bits.fixed_format = true := by
  obtain ⟨e, he, h⟩ := analyzeFixed_cases h
  rcases h with ⟨h1, rfl⟩ | ⟨c0, rest, hb, h⟩
  · rfl
  rcases h with ⟨h1, h2, rfl⟩ | ⟨h1, h2, rfl⟩ | ⟨h1, h2, h⟩
  · rfl
  · rfl
  rcases h with ⟨h3, h4, ⟨h5, rfl⟩ | ⟨h5, rfl⟩⟩ | ⟨h3, h⟩
  · rfl
  · rfl
  unfold fixedRest at h
  rbind h with ⟨lt, b, r, bl⟩ hl
  obtain ⟨q1, q2, q3, q4, q5, _⟩ := fixedLeft_ok hb hl
  dsimp only at h
  split at h
  · simp at h; subst h; exact q5
  · rw [(analyzeFixedBody_misc h).2.1]; exact q5

theorem fixChain_lines {lc : Int} : ∀ {fl : List FileLine} {pd : Char}, validDelim pd = true →
    FixChain lc pd fl → (∀ f ∈ fl, f.isFortran = true) → ∀ i f, fl[i]? = some f →
    FixLine ((if i = 0 then pd else openBefore fl i)) f
  | [], _, _, _, _, i, f, h => by simp at h
  | g :: fl, pd, hd, ⟨⟨ln, raw, hp, hg⟩, hc⟩, hf, i, f, h => by
    cases i with
    | zero =>
      simp at h; subst h
      rw [if_pos rfl]
      exact fixed_line hd hg (hf g (by simp)) hp
    | succ i =>
      have := fixChain_lines (analyzeFixed_misc hg).2 hc (fun x hx => hf x (by simp [hx])) i f
        (by simpa using h)
      rw [if_neg (by omega)]
      cases i with
      | zero => simpa [openBefore] using this
      | succ i => simpa [openBefore] using this

theorem endDelim_eq : ∀ (fl : List FileLine) (pd : Char),
    endDelim pd fl = ((fl.getLast?).map (·.open_delim)).getD pd
  | [], _ => rfl
  | [f], _ => rfl
  | f :: g :: fl, pd => by
    rw [endDelim, endDelim_eq (g :: fl)]
    rw [List.getLast?_cons_cons]
    cases h : (g :: fl).getLast? with
    | none => simp at h
    | some x => rfl

/-- Lines that are no Fortran, converted and read again. -/
theorem other_chain {lc : Int} : ∀ {fs : List FileLine} {pd : Char}, FixChain lc pd fs →
    (∀ f ∈ fs, f.isFortran = false ∧ (f.bits.blank = true → body f.left_txt = []) ∧
      (f.bits.flpr_pp = true → (body f.left_txt).head? = some '!')) →
    (fs ≠ [] → endDelim pd fs = NUL) ∧
    ∃ r, convOther (fs.map unfix) = .ok r ∧
      ∀ ln : Nat, ∃ gl, List.Forall₂ SameContent fs gl ∧ ∀ rest o,
        analyzeAllFree (ln + fs.length) NUL false false rest = .ok (some o) →
        analyzeAllFree ln NUL false false (r.map FileLine.print ++ rest) = .ok (some (gl ++ o))
  | [], pd, _, _ => ⟨by simp, [], rfl, fun ln => ⟨[], .nil, fun rest o h => by simpa using h⟩⟩
  | f :: fs, pd, ⟨⟨ln0, raw, hp, hf⟩, hc⟩, hall => by
    obtain ⟨a1, a2, a3⟩ := hall f (by simp)
    obtain ⟨f', b1, b2⟩ := other_line hf hp a1 a2 a3
    have hnul : f.open_delim = NUL := by
      have hk : fixedCat (decide (pd ≠ NUL)) (detab raw) ≠ .fortran := by
        intro hk
        have := (C44_fixed_category _ _ _ _ _ hf .fortran).mpr hk
        simp [catFlag, a1] at this
      exact (C44_fixed_nonfortran_fields _ _ _ _ _ hf hk).2.2.2.2.2.1
    obtain ⟨c1, r, c2, c3⟩ := other_chain hc (fun x hx => hall x (by simp [hx]))
    refine ⟨?_, f' :: r, ?_, ?_⟩
    · intro _
      cases fs with
      | nil => exact hnul
      | cons x xs => exact c1 (by simp)
    · rw [List.map_cons]
      unfold convOther
      rw [b1]
      simp only [Res.ok_bind]
      rw [c2]
      rfl
    · intro ln
      obtain ⟨g, g1, g2, g3, g4⟩ := b2 ln
      obtain ⟨gl, d1, d2⟩ := c3 (ln + 1)
      refine ⟨g :: gl, .cons g2 d1, ?_⟩
      intro rest o ho
      rw [List.map_cons, List.cons_append]
      unfold analyzeAllFree
      rw [g1]
      dsimp only
      rw [g3, g4, d2 rest o (by rw [← ho]; congr 1; simp; omega)]
      rfl

/-- One group, converted and read again. -/
theorem chunk_reads {lc : Int} {chunk rest : List FileLine} {g : Group} {l : LLine}
    (hne : chunk ≠ []) (hk : FixedChunk chunk g rest) (hch : FixChain lc NUL chunk)
    (hl : l.layout = g.layout) (hc : Convertible l) :
    endDelim NUL chunk = NUL ∧ ∃ l', convertLine l = .ok (l', true) ∧
      ∀ ln : Nat, ∃ gl, List.Forall₂ SameContent l.layout gl ∧ ∀ rest o,
        analyzeAllFree (ln + l.layout.length) NUL false false rest = .ok (some o) →
        analyzeAllFree ln NUL false false (l'.layout.map FileLine.print ++ rest) =
          .ok (some (gl ++ o)) := by
  have other : l.layout = chunk → (∀ f ∈ chunk, f.isFortran = false ∧
      (f.bits.blank = true → body f.left_txt = []) ∧
      (f.bits.flpr_pp = true → (body f.left_txt).head? = some '!')) →
      endDelim NUL chunk = NUL ∧ ∃ l', convertLine l = .ok (l', true) ∧
      ∀ ln : Nat, ∃ gl, List.Forall₂ SameContent l.layout gl ∧ ∀ rest o,
        analyzeAllFree (ln + l.layout.length) NUL false false rest = .ok (some o) →
        analyzeAllFree ln NUL false false (l'.layout.map FileLine.print ++ rest) =
          .ok (some (gl ++ o)) := by
    intro h1 h2
    obtain ⟨c1, r, c2, c3⟩ := other_chain hch h2
    refine ⟨c1 hne, { l with layout := r }, ?_, by rw [h1]; exact c3⟩
    cases hcc : chunk with
    | nil => exact absurd hcc hne
    | cons f fs =>
      rw [hcc] at hch h1 h2 c2
      obtain ⟨⟨ln0, raw, hp, hf⟩, _⟩ := hch
      unfold convertLine
      rw [h1]
      dsimp only
      have hnf : (unfix f).isFortran = false := (h2 f (by simp)).1
      rw [if_neg (by rw [analyzeFixed_fixed hf]; simp), if_neg (by rw [hnf]; simp), c2]
      rfl
  rcases hk with ⟨k1, k2, rfl⟩ | ⟨f, cs, rfl, k1, k2, k3, k4, k5, k6, k7⟩ | ⟨f, cs, rfl, k1, rfl, k2, k3, k4⟩
  · -- comments and blank lines
    have hx : ∀ f ∈ chunk, f.isFortran = false := by
      intro f hf
      simp [FileLine.isFortran, k1 f hf]
    have hflags : ∀ f ∈ chunk, f.bits.flpr_pp = false := by
      have : ∀ (c : List FileLine) (pd : Char), FixChain lc pd c → (∀ f ∈ c, f.isTrivial = true) →
          ∀ f ∈ c, f.bits.flpr_pp = false := by
        intro c
        induction c with
        | nil => simp
        | cons f c ih =>
          intro pd ⟨⟨ln0, raw, hp, hf⟩, h2⟩ h3 x hx
          rcases List.mem_cons.mp hx with rfl | hx
          · have hcat := C44_fixed_category _ _ _ _ _ hf
            by_contra hpp
            have hpp : catFlag x .directive = true := by simpa [catFlag] using hpp
            have e1 := (hcat .directive).mp hpp
            have ht := h3 x (by simp)
            simp only [FileLine.isTrivial, Bool.or_eq_true] at ht
            rcases ht with ht | ht
            · have e2 := (hcat .comment).mp ht
              rw [e1] at e2; simp at e2
            · have e2 := (hcat .blank).mp ht
              rw [e1] at e2; simp at e2
          · exact ih _ h2 (fun y hy => h3 y (by simp [hy])) x hx
      exact this chunk NUL hch k1
    refine other hl ?_
    intro f hf
    refine ⟨hx f hf, ?_, by rw [hflags f hf]; simp⟩
    rcases hc with hc | ⟨f0, h1, h2, h3, h4⟩ | hc
    · exact (hc f (by rw [hl]; exact hf)).2
    · have : f = f0 := by
        have : f ∈ [f0] := by rw [← h1, hl]; exact hf
        simpa using this
      rw [← this, k1 f hf] at h3
      simp at h3
    · have := hc.fortran f (by rw [hl]; exact hf)
      rw [hx f hf] at this; simp at this
  · -- a directive
    have hnf : f.isFortran = false := by
      rcases k3 with h | h | h <;> simp [FileLine.isFortran, h]
    have hmem : f ∈ l.layout := by rw [hl, k6]; simp
    rcases hc with hc | ⟨f0, h1, h2, h3, h4⟩ | hc
    · have := (hc f hmem).1
      rw [k1] at this; simp at this
    · have hcs : cs = [] := by
        have := congrArg List.length h1
        rw [hl, k6] at this
        simp at this
        exact this
      subst hcs
      have hf0 : f0 = f := by
        rw [hl, k6] at h1
        simp at h1
        exact h1.symm
      subst hf0
      refine other (by rw [h1]) ?_
      intro x hx
      simp at hx
      subst hx
      refine ⟨hnf, ?_, h4⟩
      intro hb
      simp [FileLine.isTrivial, hb] at k1
    · have := hc.fortran f hmem
      rw [hnf] at this; simp at this
  · -- a statement
    have hmem : f ∈ l.layout := by rw [hl]; simp
    have htr : f.isTrivial = false := by
      cases ht : f.isTrivial with
      | false => rfl
      | true => simp [FileLine.isFortran, ht] at k1
    rcases hc with hc | ⟨f0, h1, h2, h3, h4⟩ | hc
    · have := (hc f hmem).1
      rw [htr] at this; simp at this
    · have : f = f0 := by
        rw [h1] at hmem; simpa using hmem
      subst this
      rw [k1] at h2; simp at h2
    · have hlay : l.layout = f :: cs := hl
      have hs : StmtLines l := by
        refine ⟨?_, ?_⟩
        · intro i x hx
          have := fixChain_lines validDelim_NUL hch (by rw [← hlay]; exact hc.fortran) i x
            (by rw [← hlay]; exact hx)
          rw [hlay]
          split at this
          · rename_i hi; subst hi; exact this
          · exact this
        · intro i x hi hx
          rw [hlay] at hx
          cases i with
          | zero => omega
          | succ i =>
            have hxm : x ∈ cs := List.mem_of_getElem? (by simpa using hx)
            rcases k2 x hxm with h | h
            · exact h
            · have := hc.fortran x (by rw [hlay]; simp [hxm])
              simp [FileLine.isFortran, h] at this
      have hend : endDelim NUL (f :: cs) = NUL := by
        rw [endDelim_eq]
        cases hgl : (f :: cs).getLast? with
        | none => rfl
        | some x => exact (hc.closed x (by rw [hlay, hgl]; rfl)).1
      obtain ⟨q, q1, q2, q3⟩ := frontLines_spec l.frags hc.tokens
      obtain ⟨r, r1, r2⟩ := stmt_chain hs hc l.layout 0 q rfl (by omega) q2
        (by
          intro x hx
          obtain ⟨t, ht, s, hs1, hs2, hs3⟩ := (q3 x).mp hx
          obtain ⟨s', hs', h0, _⟩ := hc.tokens.1 t ht
          rw [hs1] at hs'
          simp at hs'
          subst hs'
          have : ((max 0 1 : Nat) : Int) = 1 := rfl
          rw [this]; omega)
        (fun j _ => q3 j)
      refine ⟨hend, { l with layout := r }, ?_, ?_⟩
      · obtain ⟨⟨ln0, raw, hp, hf⟩, _⟩ := hch
        unfold convertLine
        rw [hlay]
        dsimp only
        have hnf : (unfix f).isFortran = true := k1
        rw [if_neg (by rw [analyzeFixed_fixed hf]; simp), if_pos hnf, q1]
        simp only [Res.ok_bind]
        have htot : (((f :: cs).map unfix).filter (·.isFortran)).length = l.layout.length := by
          rw [← hlay, List.filter_eq_self.mpr, List.length_map]
          intro x hx
          obtain ⟨y, hy, rfl⟩ := List.mem_map.mp hx
          exact hc.fortran y hy
        rw [htot, ← hlay, r1]
        rfl
      · intro ln
        obtain ⟨gl, g1, g2⟩ := r2 ln
        refine ⟨gl, g1, ?_⟩
        intro rest o ho
        have := g2 rest o ho
        rw [show openBefore l.layout 0 = NUL from rfl,
          show decide (0 < 0 ∧ 0 < l.layout.length) = false by simp] at this
        exact this

theorem forall2_append {α β : Type} {R : α → β → Prop} {a c : List α} {b d : List β}
    (h1 : List.Forall₂ R a b) (h2 : List.Forall₂ R c d) : List.Forall₂ R (a ++ c) (b ++ d) := by
  induction h1 with
  | nil => exact h2
  | cons h _ ih => exact .cons h ih

/-- A file, converted and read again. -/
theorem file_reads {lc : Int} {fl : List FileLine} {gs : List Group} (hcut : Cut FixedChunk fl gs) :
    ∀ {lines : List LLine}, lines.map (·.layout) = gs.map (·.layout) → (∀ l ∈ lines, Convertible l) →
    FixChain lc NUL fl →
    ∃ lines', convertFile lines = .ok (lines', decide (lines ≠ [])) ∧ lines'.length = lines.length ∧
      ∀ ln : Nat, ∃ gl, List.Forall₂ SameContent (lines.flatMap (·.layout)) gl ∧
        analyzeAllFree ln NUL false false (fileText lines') = .ok (some gl) := by
  induction hcut with
  | nil =>
    intro lines hl _ _
    cases lines with
    | nil => exact ⟨[], rfl, rfl, fun ln => ⟨[], .nil, rfl⟩⟩
    | cons l ls => simp at hl
  | @cons chunk g rest gs hne hk _ ih =>
    intro lines hl hc hch
    cases lines with
    | nil => simp at hl
    | cons l ls =>
      simp only [List.map_cons, List.cons.injEq] at hl
      obtain ⟨h1, h2⟩ := fixChain_append hch
      obtain ⟨e1, l', e2, e3⟩ := chunk_reads hne hk h1 hl.1 (hc l (by simp))
      rw [e1] at h2
      obtain ⟨ls', i1, i0, i2⟩ := ih hl.2 (fun x hx => hc x (by simp [hx])) h2
      refine ⟨l' :: ls', ?_, by simp [i0], ?_⟩
      · unfold convertFile
        rw [e2]
        simp only [Res.ok_bind]
        rw [i1]
        simp
      · intro ln
        obtain ⟨gl, g1, g2⟩ := e3 ln
        obtain ⟨go, o1, o2⟩ := i2 (ln + l.layout.length)
        refine ⟨gl ++ go, ?_, ?_⟩
        · rw [List.flatMap_cons]
          exact forall2_append g1 o1
        · have := g2 _ _ o2
          simpa [fileText] using this

theorem initFromLayout_layout {st st' : Flex.State} {l l' : LLine}
    (h : LLine.initFromLayout st l = .ok (l', st')) : l'.layout = l.layout := by
  have tok : ∀ (l : LLine) (la : LineAccum), LLine.tokenize st l la = .ok (l', st') →
      l'.layout = l.layout := by
    intro l la h
    unfold LLine.tokenize at h
    rbind h with r hr
    rbind h with fr hfr
    simp only [Except.ok.injEq, Prod.mk.injEq] at h
    rw [← h.1]
    rfl
  unfold LLine.initFromLayout at h
  dsimp only at h
  split at h
  · simp at h
  · split at h
    · split at h
      · simp at h
      · rbind h with v hv
        exact tok { l with label := v } _ h
    · exact tok { l with label := 0 } _ h

theorem buildLines_layout : ∀ {gs : List Group} {st st' : Flex.State} {lines : List LLine},
    buildLines st gs = .ok (lines, st') → lines.map (·.layout) = gs.map (·.layout)
  | [], _, _, _, h => by simp [buildLines] at h; rw [h.1]; rfl
  | g :: gs, st, st', lines, h => by
    unfold buildLines at h
    rbind h with r hr
    rbind h with rs hrs
    simp only [Except.ok.injEq, Prod.mk.injEq] at h
    rw [← h.1]
    have := buildLines_layout hrs
    simp only [List.map_cons, this, List.cons.injEq, and_true]
    unfold buildLine at hr
    rbind hr with q hq
    simp only [Except.ok.injEq] at hr
    rw [← hr]
    show q.1.layout = g.layout
    exact initFromLayout_layout (l := { layout := g.layout }) (st := st) (st' := q.2) hq

end FLPR
