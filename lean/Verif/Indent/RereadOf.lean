import Verif.Indent.Reread
import Verif.FileLine.Reread
/-!
# Reading a moved free-format line again (C74): the lines that are read as they are written
-/

namespace FLPR
open Spec

theorem takeWhile_stop {p : Char → Bool} : ∀ (k : Nat) (s : Str) (c : Char), s[((s.take k).takeWhile p).length]? = some c →
    ((s.take k).takeWhile p).length < k → p c = false
  | 0, s, c, _, h => by simp at h
  | k + 1, [], c, h, _ => by simp at h
  | k + 1, x :: s, c, h, hl => by
    rw [List.take_succ_cons, List.takeWhile_cons] at h hl
    cases hp : p x with
    | false =>
      rw [hp] at h
      simp at h
      rw [← h]; exact hp
    | true =>
      rw [hp] at h hl
      simp at h hl
      exact takeWhile_stop k s c (by simpa using h) (by simpa using hl)

set_option maxHeartbeats 400000 in
/-- A Fortran line that was read is read as it is written: unless its text begins with a `#`, or it has nothing but a
label. -/
theorem lineOk_of {ln : Int} {raw : Str} {pd : Char} {pc lit lit' : Bool} {f : FileLine} (hd : validDelim pd = true)
    (h : analyzeFree ln raw pd pc lit = .ok (f, lit')) (hf : f.isFortran = true) (ha : AsciiStr raw)
    (hhash : f.main_txt.head? ≠ some '#') (hlab : f.bits.label = true → f.main_txt ≠ []) : LineOk pd pc f := by
  have hk : lineCat lit raw = .fortran := (C02_free_category _ _ _ _ _ _ _ hd h .fortran).mp hf
  have hprint := C01_free_roundtrip _ _ _ _ _ _ _ h
  have hnonempty := C02_free_main_nonempty_partial _ _ _ _ _ _ _ hd h hk
  have hninc : ¬ startsInclude (body raw) := by
    rcases analyzeFree_cases h with ⟨h1, rfl, _⟩ | ⟨h1, h2, rfl, _⟩ | ⟨c0, rest, h1, hb, h⟩
    · revert hf; simp [mkLeft, FileLine.isFortran, FileLine.isTrivial]
    · revert hf; simp [mkLeft, FileLine.isFortran, FileLine.isTrivial]
    · rcases h with ⟨_, rfl, e⟩ | ⟨_, _, rfl, e⟩ | ⟨_, h2, h⟩
      · revert hf; simp [mkLeft, FileLine.isFortran, FileLine.isTrivial]
      · revert hf; simp [mkLeft, FileLine.isFortran, FileLine.isTrivial]
      · exact h2
  obtain ⟨c0, rest, hb, hbang, hbody⟩ := fortran_body h hk
  obtain ⟨h1, h2, h3, h4, h5, h6, h7, h8, h9, h10, h11, h12, h13, h14, h15, h16, h17, h18, h19⟩ :=
    analyzeFreeBody_spec hb hd hbody
  have hc0 : isBlankChar c0 = false := by
    have hh := List.head?_dropWhile_not isBlankChar raw
    have hb' : raw.dropWhile isBlankChar = c0 :: rest := hb
    rw [hb'] at hh
    simpa using hh
  have hraw : raw = (f.left_txt ++ f.left_space) ++ (f.main_txt ++ (f.right_space ++ f.right_txt)) := by
    conv_lhs => rw [← hprint]
    unfold FileLine.print
    rw [h19]
    simp [List.append_assoc]
  have hsplit : raw = raw.take (indent raw) ++ (c0 :: rest) := by
    rw [← hb, ← drop_indent, List.take_append_drop]
  have hind : ∀ x ∈ raw.take (indent raw), isBlankChar x = true := by
    rw [take_indent]
    exact fun x hx => List.mem_takeWhile_imp hx
  have hqs : ctxOf f.open_delim = quoteState (ctxOf pd) f.main_txt := by
    rw [h14, quoteState_append]
    exact quoteState_blank (realCtx_state _ (realCtx_ctxOf hd)) (fun c hc => isSpace_of_blankTab (h8 c hc))
  have h1' : stmtText pc raw = f.main_txt ++ (f.right_space ++ f.right_txt) := by rw [← h1, List.append_assoc]
  have hnb : ∀ k < f.main_txt.length, ¬ IsBreak (ctxOf pd) (stmtText pc raw) k := by
    intro k hk
    by_cases hr : f.right_txt = []
    · exact (h12 hr).1 k
    · exact (h13 hr).2 k (by simp; omega)
  refine ⟨?_, ⟨hd, h15, hqs, ?_, ⟨fun ho => ⟨h8, h9 ho⟩, h10, ?_, ?_⟩, ?_⟩⟩
  · have hbits : ∀ {l c : Bool}, f.bits.label = l → f.bits.continuation = c →
        ({ f.bits with continued := false } : Bits) = { label := l, continuation := c } := by
      intro l c e1 e2
      have := bits_unique (f := { bits := { label := l, continuation := c } }) (f' := f) (b := f.bits.continued) rfl hf rfl h19 e1 e2 rfl
      rw [this]
    by_cases hl : f.bits.label = true
    · obtain ⟨hpc, hdg⟩ := h2.mp hl
      have hc : f.bits.continuation = false := by
        by_contra hc
        rw [h3.mp (by simpa using hc)] at hdg
        revert hdg; decide
      rw [hbits hl hc]
      have hle : labelLen (body raw) ≤ (body raw).length := labelLen_le _
      have hlt : f.left_txt = raw.take (indent raw) ++ (body raw).take (labelLen (body raw)) := by
        rw [h4 hl, List.take_add, drop_indent]
      have hdsE : (body raw).take (labelLen (body raw)) = ((body raw).take 6).takeWhile isDigit := by
        unfold labelLen
        have := List.takeWhile_prefix (p := isDigit) (l := (body raw).take 6)
        have hp := this.trans (List.take_prefix 6 (body raw))
        exact (List.prefix_iff_eq_take.mp hp).symm
      have hlen6 : ((body raw).take (labelLen (body raw))).length ≤ 6 := by
        rw [hdsE]
        exact (List.takeWhile_prefix _).length_le.trans (by simp; omega)
      obtain ⟨c, t, hm⟩ : ∃ c t, f.main_txt = c :: t := by
        cases hm : f.main_txt with
        | nil => exact absurd hm (hlab hl)
        | cons c t => exact ⟨c, t, rfl⟩
      have hbE : body raw = (body raw).take (labelLen (body raw)) ++ (f.left_space ++ (f.main_txt ++ (f.right_space ++ f.right_txt))) := by
        have e1 : raw = raw.take (indent raw) ++ body raw := by
          conv_lhs => rw [hsplit]
          rw [hb]
        have e2 := hraw
        rw [hlt] at e2
        have e3 : raw.take (indent raw) ++ body raw = raw.take (indent raw) ++
            ((body raw).take (labelLen (body raw)) ++ (f.left_space ++ (f.main_txt ++ (f.right_space ++ f.right_txt)))) := by
          rw [← e1]
          simpa [List.append_assoc] using e2
        exact List.append_cancel_left e3
      rw [hlt]
      refine .label (c := c) (t := t) hpc hind ?_ ?_ hlen6 h7 hm ?_ ?_
      · rw [hdsE]; exact fun x hx => List.mem_takeWhile_imp hx
      · rw [hdsE, hb]; simp [hdg]
      · have hst : stmtText pc raw = ((body raw).drop (labelLen (body raw))).dropWhile isSpace := by
          unfold stmtText
          rw [hb]
          dsimp only
          rw [if_pos ⟨hpc, hdg⟩]
        have hh := List.head?_dropWhile_not isSpace ((body raw).drop (labelLen (body raw)))
        rw [← hst, h1', hm] at hh
        simpa using hh
      · intro hcd
        by_cases hls : f.left_space = []
        · right
          by_contra h6
          rw [hls, hm] at hbE
          have hlt6 : (((body raw).take 6).takeWhile isDigit).length < 6 := by rw [← hdsE]; omega
          have hgc : (body raw)[(((body raw).take 6).takeWhile isDigit).length]? = some c := by
            rw [← hdsE]
            generalize (body raw).take (labelLen (body raw)) = D at hbE ⊢
            rw [hbE]; simp
          rw [takeWhile_stop 6 _ c hgc hlt6] at hcd
          cases hcd
        · exact Or.inl hls
    · by_cases hc : f.bits.continuation = true
      · obtain ⟨e1, e2⟩ := h5 hc
        have hamp : c0 = '&' := h3.mp hc
        rw [hbits (by simpa using hl) hc, e2]
        have : f.left_txt = raw.take (indent raw) ++ ['&'] := by
          rw [e1, List.take_add, drop_indent, hb, hamp]; rfl
        rw [this]
        exact .amp hind
      · have hl' : f.bits.label = false := by simpa using hl
        have hc' : f.bits.continuation = false := by simpa using hc
        rw [hbits hl' hc', h6 hl' hc']
        have hmne : f.main_txt ≠ [] := fun e => by
          rcases hnonempty e with h | h
          · exact hl h
          · exact hc h
        obtain ⟨c, t, hm⟩ : ∃ c t, f.main_txt = c :: t := by
          cases hm : f.main_txt with
          | nil => exact absurd hm hmne
          | cons c t => exact ⟨c, t, rfl⟩
        have hcamp : c0 ≠ '&' := fun e => hc (h3.mpr e)
        have hst : stmtText pc raw = c0 :: rest := by
          unfold stmtText
          rw [hb]
          dsimp only
          rw [if_neg (fun e => hl (h2.mpr e)), if_neg hcamp]
        have hcc : c = c0 := by
          rw [h1', hm] at hst
          simp at hst; exact hst.1
        have hlsE : f.left_space = raw.take (indent raw) := by
          have e2 := hraw
          rw [h6 hl' hc', ← h1', hst, List.nil_append] at e2
          have e3 : raw.take (indent raw) ++ (c0 :: rest) = f.left_space ++ (c0 :: rest) := by rw [← hsplit]; exact e2
          exact (List.append_cancel_right e3).symm
        rw [hlsE]
        refine .plain hind hm (by rw [hcc]; exact hc0) (by rw [hcc]; exact hbang) (by rw [hcc]; exact hcamp)
          (fun e => hhash (by rw [hm, e]; rfl)) ?_ ?_
        · intro hpc
          rw [hcc]
          by_contra hdg
          exact hl (h2.mpr ⟨hpc, by simpa using hdg⟩)
        · intro hi
          apply hninc
          rw [hb, ← hst, h1']
          obtain ⟨i1, q, r, i2, i3⟩ := hi
          have h7 : 7 ≤ f.main_txt.length := by
            have := congrArg List.length i1
            simp at this
            omega
          refine ⟨by rw [List.take_append_of_le_length h7]; exact i1, q, r ++ (f.right_space ++ f.right_txt), ?_, i3⟩
          rw [List.drop_append_of_le_length h7, List.dropWhile_append, i2]
          simp
  · intro k hq
    by_cases hk : k < f.main_txt.length
    · have hnk := hnb k hk
      rw [h1'] at hnk
      refine ⟨fun he => hnk (Or.inl ⟨?_, Or.inl ?_⟩), fun he => hnk (Or.inl ⟨?_, Or.inr ?_⟩)⟩
      · rw [List.take_append_of_le_length (by omega)]; exact hq
      · rw [List.getElem?_append_left hk]; exact he
      · rw [List.take_append_of_le_length (by omega)]; exact hq
      · rw [List.getElem?_append_left hk]; exact he
    · rw [List.getElem?_eq_none (by omega)]
      simp
  · intro hct
    have hh := h16.mp hct
    obtain ⟨t, ht⟩ : ∃ t, f.right_txt = '&' :: t := by
      cases hr : f.right_txt with
      | nil => rw [hr] at hh; cases hh
      | cons x t => rw [hr] at hh; simp at hh; exact ⟨t, by rw [hh]⟩
    refine ⟨t, ht, fun ho => ?_⟩
    rcases (h13 (by rw [ht]; simp)).1 with ⟨e, _⟩ | ⟨_, _, e⟩
    · rw [← h1, ht, List.take_left, ← h14] at e
      exact absurd (ctx_inj (e.trans ctxOf_NUL.symm)) ho
    · rw [← h1, ht] at e
      have e4 : List.drop ((f.main_txt ++ f.right_space).length + 1) (f.main_txt ++ f.right_space ++ '&' :: t) = t := by
        rw [List.drop_append]; simp
      rw [e4] at e
      exact e
  · intro hct
    cases hr : f.right_txt with
    | nil => exact ⟨(h12 hr).2.2, Or.inl rfl⟩
    | cons x t =>
      have hx : x ≠ '&' := by
        rintro rfl
        rw [h16.mpr (by rw [hr]; rfl)] at hct
        cases hct
      have hget : (stmtText pc raw)[(f.main_txt ++ f.right_space).length]? = some x := by
        rw [← h1, hr, List.getElem?_append_right (by simp)]
        simp
      rcases (h13 (by rw [hr]; simp)).1 with ⟨e, e2⟩ | ⟨_, e2, _⟩
      · refine ⟨ctx_inj (by rw [h14]; rw [← h1, List.append_assoc] at e; rw [← List.append_assoc, List.take_left] at e; rw [e, ctxOf_NUL]),
          Or.inr ⟨t, ?_⟩⟩
        rcases e2 with e2 | e2
        · rw [hget] at e2; rw [Option.some.inj e2]
        · rw [hget] at e2; exact absurd (Option.some.inj e2) hx
      · rw [hget] at e2; exact absurd (Option.some.inj e2) hx
  · intro c hc
    refine ha c ?_
    rw [hraw]
    exact List.mem_append_right _ hc

end FLPR
