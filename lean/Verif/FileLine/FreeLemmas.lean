import Verif.FileLine.Lemmas2
/-!
# Lemmas about free-format line analysis
-/

namespace FLPR
open Spec

/-- What `freeLeft` returns. -/
theorem freeLeft_ok {raw : Str} {pc : Bool} {ri : Nat} {c : Char} {lt : Str} {b : Bits}
    {r1 ib : Nat} (h : freeLeft raw pc ri c = .ok (lt, b, r1, ib)) :
    lt = raw.take ib ∧ ri ≤ r1 ∧ ib ≤ r1 ∧ (ri < raw.length → r1 ≤ raw.length) ∧
      b.fixed_format = false ∧ b.blank = false ∧ b.comment = false ∧ b.preprocessor = false ∧
      b.incl = false ∧ b.flpr_pp = false ∧ b.flpr_lit = false ∧ b.continued = false := by
  unfold freeLeft at h
  obtain ⟨d, hd, h⟩ := Res.bind_ok h
  split at h
  · obtain ⟨r, hr, h⟩ := Res.bind_ok h
    have := scanDigits_ge _ _ _ _ hr
    simp at h this
    obtain ⟨rfl, rfl, rfl, rfl⟩ := h
    simp
    omega
  · split at h
    · simp at h
      obtain ⟨rfl, rfl, rfl, rfl⟩ := h
      simp; omega
    · simp at h
      obtain ⟨rfl, rfl, rfl, rfl⟩ := h
      simp; omega

/-- Everything the later theorems need about a Fortran line produced by `analyzeFreeBody`. -/
theorem analyzeFreeBody_ok {ln : Int} {raw : Str} {pd : Char} {pc : Bool} {ri : Nat} {c : Char}
    {f : FileLine} (hri : ri < raw.length)
    (h : analyzeFreeBody ln raw pd pc ri c = .ok f) :
    ∃ r2 tb main0, f.left_txt ++ f.left_space = raw.take r2 ∧ r2 ≤ raw.length ∧
      findTrailingFree raw r2 pd = .ok (tb, f.open_delim) ∧
      (match tb with
       | none => main0 = raw.drop r2 ∧ f.right_txt = []
       | some t => r2 ≤ t ∧ t < raw.length ∧ main0 = (raw.drop r2).take (t - r2) ∧
           f.right_txt = raw.drop t) ∧
      (f.main_txt, f.right_space) = trimMain main0 f.open_delim ∧
      f.bits.fixed_format = false ∧ f.isFortran = true ∧ f.linenum = ln := by
  unfold analyzeFreeBody at h
  obtain ⟨⟨lt, b, r1, ib⟩, hl, h⟩ := Res.bind_ok h
  obtain ⟨hlt, hr1, hib, hr1l, hb1, hb2, hb3, hb4, hb5, hb6, hb7, hb8⟩ := freeLeft_ok hl
  dsimp only at h
  obtain ⟨r2, hr2, h⟩ := Res.bind_ok h
  have hr2' : r1 ≤ r2 ∧ r2 ≤ raw.length := by
    unfold freeSkip at hr2
    split at hr2
    · have := scanSpaces_ge _ _ _ hr2
      simp at this
      omega
    · simp at hr2; omega
  obtain ⟨⟨tb, od⟩, htb, h⟩ := Res.bind_ok h
  dsimp only at h
  have hls : lt ++ (if r2 > ib then List.take (r2 - ib) (List.drop ib raw) else []) =
      raw.take r2 := by
    rw [hlt]
    split
    · exact take_append_drop_take _ _ _ (by omega)
    · have : r2 = ib := by omega
      simp [this]
  cases tb with
  | none =>
    dsimp only at h
    obtain ⟨main0, hm, h⟩ := Res.bind_ok h
    simp only [substrFrom, hr2'.2, if_true] at hm
    simp at hm
    unfold mkFull at h
    split at h
    · simp at h
      subst h
      refine ⟨r2, none, main0, ?_, hr2'.2, ?_, ?_, ?_, ?_, ?_, ?_⟩
      · simpa using hls
      · simpa using htb
      · simp [hm]
      · simp
      · simpa using hb1
      · simp [FileLine.isFortran, FileLine.isTrivial, hb2, hb3, hb4, hb5, hb6, hb7]
      · simp
    · simp at h
  | some t =>
    dsimp only at h
    obtain ⟨main0, hm, h⟩ := Res.bind_ok h
    obtain ⟨rt, hrt, h⟩ := Res.bind_ok h
    have ht : r2 ≤ t ∧ t < raw.length := by
      unfold findTrailingFree at htb
      split at htb
      · have := findTrailingFreeGo_range _ _ _ _ _ htb
        simp at this; omega
      · simp at htb
    simp only [substr, hr2'.2, if_true] at hm
    simp at hm
    have : t ≤ raw.length := by omega
    simp only [substrFrom, this, if_true] at hrt
    simp at hrt
    unfold mkFull at h
    split at h
    · simp at h
      subst h
      refine ⟨r2, some t, main0, ?_, hr2'.2, ?_, ?_, ?_, ?_, ?_, ?_⟩
      · simpa using hls
      · simpa using htb
      · simp [ht, hm, hrt]
      · simp
      · dsimp only; split <;> simpa using hb1
      · simp only [FileLine.isFortran, FileLine.isTrivial]
        split <;> simp [hb2, hb3, hb4, hb5, hb6, hb7]
      · simp
    · simp at h

theorem print_analyzeFreeBody {ln : Int} {raw : Str} {pd : Char} {pc : Bool} {ri : Nat}
    {c : Char} {f : FileLine} (hri : ri < raw.length)
    (h : analyzeFreeBody ln raw pd pc ri c = .ok f) : f.print = raw := by
  obtain ⟨r2, tb, main0, h1, h2, h3, h4, h5, h6, h7, _⟩ := analyzeFreeBody_ok hri h
  have hm := trimMain_append main0 f.open_delim
  rw [← h5] at hm
  dsimp only at hm
  unfold FileLine.print
  simp only [h6, Bool.and_false, Bool.false_eq_true, if_false]
  rw [h1, List.append_assoc (raw.take r2), hm]
  cases tb with
  | none =>
    simp only at h4
    simp [h4.1, h4.2]
  | some t =>
    simp only at h4
    obtain ⟨ha, hb, hc, hd⟩ := h4
    rw [hc, hd, take_append_drop_take _ _ _ ha, List.take_append_drop]

@[simp] theorem print_mkLeft (ln : Int) (b : Bits) (t : Str)
    (h : (b.blank || b.comment || b.preprocessor || b.flpr_pp || b.flpr_lit || b.incl) = true) :
    (mkLeft ln b t).print = t := by
  unfold FileLine.print
  have : (mkLeft ln b t).isFortran = false := by
    simp only [FileLine.isFortran, FileLine.isTrivial, mkLeft]
    revert h
    cases b.blank <;> cases b.comment <;> cases b.preprocessor <;> cases b.flpr_pp <;>
      cases b.flpr_lit <;> cases b.incl <;> simp
  simp [this]
  simp [mkLeft]

/-- The statement part is the text from the position where `main_txt` starts. -/
theorem freeStart {raw : Str} {pc : Bool} {ri : Nat} {c0 : Char} {rest : Str} {lt : Str} {b : Bits}
    {r1 ib r2 : Nat} (hri : raw.drop ri = c0 :: rest) (hb : body raw = c0 :: rest)
    (hl : freeLeft raw pc ri (upChar c0) = .ok (lt, b, r1, ib))
    (hs : freeSkip raw lt b r1 = .ok r2) :
    raw.drop r2 = stmtText pc raw ∧
    (b.label = true ↔ pc = false ∧ isDigit c0 = true) ∧
    (b.continuation = true ↔ c0 = '&') ∧
    (b.label = true → lt = raw.take (ri + labelLen (c0 :: rest)) ∧
       ∀ c, (stmtText pc raw).head? = some c → isSpace c = false) ∧
    (b.continuation = true → lt = raw.take (ri + 1) ∧ r2 = ri + 1 ∧ ib = ri + 1) ∧
    (b.label = false → b.continuation = false → lt = [] ∧ r2 = ri ∧ ib = 0) ∧
    (b.label = true → (∀ c ∈ (raw.take r2).drop ib, isSpace c = true)) := by
  have hri_lt : ri < raw.length := by
    by_contra hcon
    rw [List.drop_eq_nil_of_le (by omega)] at hri
    simp at hri
  unfold freeLeft at hl
  obtain ⟨d, hd, hl2⟩ := Res.bind_ok hl
  clear hl
  rename' hl2 => hl
  have hd' := cIsDigit_ok hd
  rw [isDigit_upChar] at hd'
  rw [hd'] at hl
  split at hl
  · rename_i hc
    simp at hc
    obtain ⟨rfl, hdig⟩ := hc
    obtain ⟨r, hr, hl2⟩ := Res.bind_ok hl
    clear hl
    rename' hl2 => hl
    have hr' := scanDigits_ok _ _ _ _ hr
    rw [hri] at hr'
    simp at hl
    obtain ⟨rfl, rfl, rfl, rfl⟩ := hl
    have hlen : r = ri + labelLen (c0 :: rest) := hr'
    have hne : raw.take r ≠ [] := by
      have : 0 < labelLen (c0 :: rest) := by simp [labelLen, hdig]
      intro h
      simp at h
      rcases h with h | h
      · omega
      · rw [h] at hri_lt; simp at hri_lt
    unfold freeSkip at hs
    rw [if_pos ⟨hne, rfl⟩] at hs
    have hs' := scanSpaces_ok _ _ _ hs
    have ed : raw.drop r = (c0 :: rest).drop (labelLen (c0 :: rest)) := by
      rw [← hri, hlen, hri, List.drop_drop.symm, hri]
    have e0 : raw.drop r2 = (raw.drop r).dropWhile isSpace := by
      rw [hs', ← List.drop_drop, drop_takeWhile_length]
    have e1 : raw.drop r2 = stmtText false raw := by
      unfold stmtText
      rw [hb]
      simp only [hdig, and_self, if_true]
      rw [e0, ed]
    refine ⟨e1, by simp [hdig], ?_, ?_, by simp, by simp, ?_⟩
    · simp
      rintro rfl
      revert hdig; decide
    · intro _
      refine ⟨by rw [hlen], ?_⟩
      intro c hc
      rw [← e1, e0] at hc
      have := List.head?_dropWhile_not isSpace (raw.drop r)
      rw [hc] at this
      simpa using this
    · intro _ c hc
      rw [hs', List.drop_take] at hc
      simp only [Nat.add_sub_cancel_left] at hc
      rw [take_takeWhile_length] at hc
      exact List.mem_takeWhile_imp hc
  · rename_i hc
    have hnd : ¬ (pc = false ∧ isDigit c0 = true) := by
      simpa using hc
    split at hl
    · rename_i hamp
      rw [upChar_amp] at hamp
      subst hamp
      simp at hl
      obtain ⟨rfl, rfl, rfl, rfl⟩ := hl
      unfold freeSkip at hs
      simp at hs
      subst hs
      refine ⟨?_, ?_, by simp, by simp, by simp, by simp, by simp⟩
      · unfold stmtText
        rw [hb]
        simp only [hnd, if_false, if_true]
        rw [← List.drop_drop, hri]; rfl
      · simp; simpa using hnd
    · rename_i hamp
      rw [upChar_amp] at hamp
      simp at hl
      obtain ⟨rfl, rfl, rfl, rfl⟩ := hl
      unfold freeSkip at hs
      simp at hs
      subst hs
      refine ⟨?_, ?_, by simp [hamp], by simp, by simp, by simp, by simp⟩
      · unfold stmtText
        rw [hb]
        simp only [hnd, hamp, if_false]
        exact hri
      · simp; simpa using hnd

/-- What a Fortran line looks like, in terms of the specification. -/
theorem analyzeFreeBody_spec {ln : Int} {raw : Str} {pd : Char} {pc : Bool} {c0 : Char}
    {rest : Str} {f : FileLine} (hb : body raw = c0 :: rest) (hpd : validDelim pd = true)
    (h : analyzeFreeBody ln raw pd pc (indent raw) (upChar c0) = .ok f) :
    f.main_txt ++ f.right_space ++ f.right_txt = stmtText pc raw ∧
    (f.bits.label = true ↔ pc = false ∧ isDigit c0 = true) ∧
    (f.bits.continuation = true ↔ c0 = '&') ∧
    (f.bits.label = true → f.left_txt = raw.take (indent raw + labelLen (body raw))) ∧
    (f.bits.continuation = true → f.left_txt = raw.take (indent raw + 1) ∧ f.left_space = []) ∧
    (f.bits.label = false → f.bits.continuation = false → f.left_txt = []) ∧
    (∀ c ∈ f.left_space, isSpace c = true) ∧
    (∀ c ∈ f.right_space, c = ' ' ∨ c = '\t') ∧
    (f.open_delim = NUL → ∀ c, f.main_txt.getLast? = some c → c ≠ ' ' ∧ c ≠ '\t') ∧
    (f.open_delim ≠ NUL → f.right_space = []) ∧
    (f.bits.continuation = false →
      ∀ c, f.main_txt.head? = some c → isBlankChar c = false) ∧
    (f.right_txt = [] → (∀ j, ¬ IsBreak (ctxOf pd) (stmtText pc raw) j) ∧
      quoteState (ctxOf pd) (stmtText pc raw) = none ∧ f.open_delim = NUL) ∧
    (f.right_txt ≠ [] →
      IsBreak (ctxOf pd) (stmtText pc raw) (f.main_txt ++ f.right_space).length ∧
      (∀ j < (f.main_txt ++ f.right_space).length, ¬ IsBreak (ctxOf pd) (stmtText pc raw) j)) ∧
    ctxOf f.open_delim = quoteState (ctxOf pd) (f.main_txt ++ f.right_space) ∧
    validDelim f.open_delim = true ∧
    (f.bits.continued = true ↔ f.right_txt.head? = some '&') ∧
    f.linenum = ln ∧ f.isFortran = true ∧ f.bits.fixed_format = false := by
  have hri : raw.drop (indent raw) = c0 :: rest := by rw [drop_indent, hb]
  have hri_lt : indent raw < raw.length := by
    by_contra hcon
    rw [List.drop_eq_nil_of_le (by omega)] at hri
    simp at hri
  unfold analyzeFreeBody at h
  obtain ⟨⟨lt, b, r1, ib⟩, hl, h⟩ := Res.bind_ok h
  obtain ⟨hlt, hr1, hib, hr1l, hb1, hb2, hb3, hb4, hb5, hb6, hb7, hb8⟩ := freeLeft_ok hl
  dsimp only at h
  obtain ⟨r2, hr2, h⟩ := Res.bind_ok h
  obtain ⟨hst, hlab, hcont, hlabt, hcontt, hnone, hls⟩ := freeStart hri hb hl hr2
  have hr2' : r1 ≤ r2 ∧ r2 ≤ raw.length := by
    unfold freeSkip at hr2
    split at hr2
    · have := scanSpaces_ge _ _ _ hr2
      simp at this
      omega
    · simp at hr2; omega
  obtain ⟨⟨tb, od⟩, htb, h⟩ := Res.bind_ok h
  dsimp only at h
  have hlsp : ∀ c ∈ (if r2 > ib then List.take (r2 - ib) (List.drop ib raw) else []),
      isSpace c = true := by
    intro c hc
    split at hc
    · rw [← List.drop_take] at hc
      by_cases hl1 : b.label = true
      · exact hls hl1 c hc
      · by_cases hc1 : b.continuation = true
        · obtain ⟨_, e1, e2⟩ := hcontt hc1
          rename_i hgt
          omega
        · obtain ⟨_, e1, e2⟩ := hnone (by simpa using hl1) (by simpa using hc1)
          subst e1 e2
          rw [List.drop_zero, take_indent] at hc
          exact blank_isSpace _ (List.mem_takeWhile_imp hc)
    · simp at hc
  have hhead : ∀ c, b.continuation = false → (stmtText pc raw).head? = some c →
      isBlankChar c = false := by
    intro c hc1 hc
    by_cases hl1 : b.label = true
    · have := (hlabt hl1).2 c hc
      by_contra hcon
      have := blank_isSpace c (by simpa using hcon)
      simp_all
    · obtain ⟨_, e1, e2⟩ := hnone (by simpa using hl1) hc1
      rw [← hst, e1, drop_indent] at hc
      have := List.head?_dropWhile_not isBlankChar raw
      unfold body at hc
      rw [hc] at this
      simpa using this
  unfold findTrailingFree at htb
  rw [if_pos hpd, hst] at htb
  cases tb with
  | none =>
    dsimp only at h
    obtain ⟨main0, hm, h⟩ := Res.bind_ok h
    simp only [substrFrom, hr2'.2, if_true] at hm
    simp at hm
    rw [hst] at hm
    subst hm
    obtain ⟨hod, hnb, hqs⟩ := findTrailingFreeGo_none hpd htb
    subst hod
    unfold mkFull at h
    split at h
    · simp only [Except.ok.injEq] at h
      subst h
      have hap := trimMain_append (stmtText pc raw) NUL
      dsimp only
      refine ⟨by simpa using hap, hlab, hcont, fun hh => by rw [(hlabt hh).1, hb], ?_,
        fun h1 h2 => (hnone h1 h2).1, hlsp, trimMain_right _ _, fun _ => trimMain_last _, by simp,
        ?_, fun _ => ⟨hnb, hqs, rfl⟩, by simp, ?_, rfl, by simp [hb8], rfl, ?_, hb1⟩
      · intro hh
        obtain ⟨e0, e1, e2⟩ := hcontt hh
        refine ⟨e0, ?_⟩
        simp [e1, e2]
      · intro hh c hc
        apply hhead c hh
        rw [← hap]
        revert hc
        cases (trimMain (stmtText pc raw) NUL).1 <;> simp
      · rw [hap, hqs]; rfl
      · simp [FileLine.isFortran, FileLine.isTrivial, hb2, hb3, hb4, hb5, hb6, hb7]
    · simp at h
  | some t =>
    dsimp only at h
    obtain ⟨main0, hm, h⟩ := Res.bind_ok h
    obtain ⟨rt, hrt, h⟩ := Res.bind_ok h
    obtain ⟨ht1, hbr, hnb, hctx, hvd⟩ := findTrailingFreeGo_some hpd htb
    have ht2 := findTrailingFreeGo_range _ _ _ _ _ htb
    rw [← hst] at ht2
    simp at ht2
    have htl : t < raw.length := by omega
    simp only [substr, hr2'.2, if_true] at hm
    simp at hm
    have htle : t ≤ raw.length := by omega
    simp only [substrFrom, htle, if_true] at hrt
    simp at hrt
    rw [hst] at hm
    subst hm
    have hrt2 : rt = (stmtText pc raw).drop (t - r2) := by
      rw [← hst, List.drop_drop, ← hrt]
      congr 1; omega
    have hrtne : rt ≠ [] := by
      rw [← hrt]; simp; omega
    have hap := trimMain_append ((stmtText pc raw).take (t - r2)) od
    have haplen : ((trimMain ((stmtText pc raw).take (t - r2)) od).1 ++
        (trimMain ((stmtText pc raw).take (t - r2)) od).2).length = t - r2 := by
      rw [hap, ← hst]; simp; omega
    have hhd : rt.head? = some (rt.getD 0 NUL) := by
      revert hrtne; cases rt <;> simp
    unfold mkFull at h
    split at h
    · simp only [Except.ok.injEq] at h
      subst h
      dsimp only
      have hbits : ∀ b' : Bits, b' = (if rt.getD 0 NUL = '&' then { b with continued := true } else b) →
          b'.label = b.label ∧ b'.continuation = b.continuation ∧
          b'.fixed_format = b.fixed_format ∧ b'.blank = b.blank ∧ b'.comment = b.comment ∧
          b'.preprocessor = b.preprocessor ∧ b'.incl = b.incl ∧ b'.flpr_pp = b.flpr_pp ∧
          b'.flpr_lit = b.flpr_lit ∧ (b'.continued = true ↔ rt.getD 0 NUL = '&') := by
        intro b' hb'
        subst hb'
        split
        · rename_i hh
          exact ⟨rfl, rfl, rfl, rfl, rfl, rfl, rfl, rfl, rfl, fun _ => hh, fun _ => rfl⟩
        · rename_i hh
          exact ⟨rfl, rfl, rfl, rfl, rfl, rfl, rfl, rfl, rfl,
            fun h => absurd (hb8.symm.trans h) (by decide), fun h => absurd h hh⟩
      generalize hgen : (if rt.getD 0 NUL = '&' then { b with continued := true } else b) = b'
      obtain ⟨k1, k2, k3, k4, k5, k6, k7, k8, k9, k10⟩ := hbits b' hgen.symm
      rw [k1, k2]
      refine ⟨?_, hlab, hcont, fun hh => by rw [(hlabt hh).1, hb], ?_,
        fun h1 h2 => (hnone h1 h2).1, hlsp, trimMain_right _ _, ?_, ?_,
        ?_, fun hh => absurd hh hrtne, fun _ => ?_, ?_, hvd, ?_, rfl, ?_, ?_⟩
      · rw [hap, hrt2, List.take_append_drop]
      · intro hh
        obtain ⟨e0, e1, e2⟩ := hcontt hh
        refine ⟨e0, ?_⟩
        simp [e1, e2]
      · intro hod; rw [hod]; exact trimMain_last _
      · intro hod; simp [trimMain, hod]
      · intro hh c hc
        apply hhead c hh
        rw [← List.take_append_drop (t - r2) (stmtText pc raw), ← hap]
        revert hc
        cases (trimMain ((stmtText pc raw).take (t - r2)) od).1 <;> simp
      · rw [haplen]; exact ⟨hbr, hnb⟩
      · rw [hap, hctx]
      · rw [k10, hhd]; simp
      · simp [FileLine.isFortran, FileLine.isTrivial, k4, k5, k6, k7, k8, k9, hb2, hb3, hb4, hb5, hb6, hb7]
      · rw [k3, hb1]
    · rename_i hx
      exact absurd hvd hx

/-- Failures of a Fortran line on ASCII text. -/
theorem analyzeFreeBody_ascii {ln : Int} {raw : Str} {pd : Char} {pc : Bool} {c0 : Char}
    {rest : Str} (hb : body raw = c0 :: rest) (hpd : validDelim pd = true) (ha : AsciiStr raw) :
    (∃ f, analyzeFreeBody ln raw pd pc (indent raw) (upChar c0) = .ok f) ∨
    (analyzeFreeBody ln raw pd pc (indent raw) (upChar c0) = .error .exc ∧
      (∀ j, ¬ IsBreak (ctxOf pd) (stmtText pc raw) j) ∧
      quoteState (ctxOf pd) (stmtText pc raw) ≠ none) := by
  have hri : raw.drop (indent raw) = c0 :: rest := by rw [drop_indent, hb]
  have hri_lt : indent raw < raw.length := by
    by_contra hcon
    rw [List.drop_eq_nil_of_le (by omega)] at hri
    simp at hri
  have hac : isAscii c0 = true := ha c0 (by
    apply List.mem_of_mem_drop (i := indent raw); rw [hri]; simp)
  have hl : ∃ q, freeLeft raw pc (indent raw) (upChar c0) = .ok q := by
    unfold freeLeft cIsDigit
    rw [if_pos (isAscii_upChar _ hac)]
    simp only [Res.ok_bind]
    split
    · obtain ⟨r, hr⟩ := scanDigits_ascii 6 (indent raw) _ (ha.drop (indent raw))
      rw [hr]; exact ⟨_, rfl⟩
    · split <;> exact ⟨_, rfl⟩
  obtain ⟨⟨lt, b, r1, ib⟩, hl⟩ := hl
  obtain ⟨_, hr1, hib, hr1l, _⟩ := freeLeft_ok hl
  have hs : ∃ r2, freeSkip raw lt b r1 = .ok r2 := by
    unfold freeSkip
    split
    · exact scanSpaces_ascii _ _ (ha.drop _)
    · exact ⟨_, rfl⟩
  obtain ⟨r2, hr2⟩ := hs
  obtain ⟨hst, _⟩ := freeStart hri hb hl hr2
  have hr2' : r1 ≤ r2 ∧ r2 ≤ raw.length := by
    unfold freeSkip at hr2
    split at hr2
    · have := scanSpaces_ge _ _ _ hr2
      simp at this
      omega
    · simp at hr2; omega
  have hast : AsciiStr (stmtText pc raw) := by rw [← hst]; exact ha.drop _
  unfold analyzeFreeBody findTrailingFree
  rw [hl]
  simp only [Res.ok_bind]
  rw [hr2]
  simp only [Res.ok_bind]
  rw [if_pos hpd, hst]
  rcases findTrailingFreeGo_ascii (i := r2) hpd hast with ⟨⟨tb, od⟩, h⟩ | ⟨h, h2, h3⟩
  · left
    rw [h]
    simp only [Res.ok_bind]
    cases tb with
    | none =>
      obtain ⟨hod, _, _⟩ := findTrailingFreeGo_none hpd h
      subst hod
      simp only [substrFrom, hr2'.2, if_true, Res.ok_bind]
      unfold mkFull
      simp [validDelim]
    | some t =>
      obtain ⟨_, _, _, _, hvd⟩ := findTrailingFreeGo_some hpd h
      have ht2 := findTrailingFreeGo_range _ _ _ _ _ h
      rw [← hst] at ht2
      simp at ht2
      have htle : t ≤ raw.length := by omega
      simp only [substr, substrFrom, hr2'.2, htle, if_true, Res.ok_bind]
      unfold mkFull
      simp [hvd]
  · right
    rw [h]
    exact ⟨rfl, h2, h3⟩

/-- Which category `analyze_free` gives a line, and what else it returns. -/
theorem analyzeFree_cases {ln : Int} {raw : Str} {pd : Char} {pc inLit : Bool} {f : FileLine}
    {inLit' : Bool} (h : analyzeFree ln raw pd pc inLit = .ok (f, inLit')) :
    (inLit = true ∧ f = mkLeft ln { flpr_lit := true } raw ∧
      (inLit' = true ↔ ¬ ((body raw).head? = some '!' ∧ isLiteralMarker (body raw)))) ∨
    (inLit = false ∧ body raw = [] ∧ f = mkLeft ln { blank := true } raw ∧ inLit' = false) ∨
    ∃ c0 rest, inLit = false ∧ body raw = c0 :: rest ∧
      ((raw.head? = some '#' ∧ f = mkLeft ln { preprocessor := true } raw ∧ inLit' = false) ∨
       (raw.head? ≠ some '#' ∧ startsInclude (body raw) ∧ f = mkLeft ln { incl := true } raw ∧
         inLit' = false) ∨
       (raw.head? ≠ some '#' ∧ ¬ startsInclude (body raw) ∧
         ((c0 = '!' ∧ isLiteralMarker (body raw) ∧ f = mkLeft ln { flpr_lit := true } raw ∧
            inLit' = true) ∨
          (c0 = '!' ∧ ¬ isLiteralMarker (body raw) ∧ isMarker (body raw) ∧
            f = mkLeft ln { flpr_pp := true } raw ∧ inLit' = false) ∨
          (c0 = '!' ∧ ¬ isLiteralMarker (body raw) ∧ ¬ isMarker (body raw) ∧
            f = mkLeft ln { comment := true, continued := pc } raw ∧ inLit' = false) ∨
          (c0 ≠ '!' ∧ inLit' = false ∧
            analyzeFreeBody ln raw pd pc (indent raw) (upChar c0) = .ok f)))) := by
  unfold analyzeFree at h
  dsimp only at h
  split at h
  · rename_i hin
    left
    refine ⟨hin, ?_⟩
    split at h
    · rename_i ri hri
      obtain ⟨e1, e2, e3, e4⟩ := findFirstNotOf_blank _ _ hri
      have hhd : (body raw).head? = some (raw.getD ri NUL) := by
        rw [← e2, List.head?_drop]; simp [List.getD_eq_getElem?_getD, e4]
      split at h
      · rename_i hb
        obtain ⟨lit, hlit, h⟩ := Res.bind_ok h
        simp at h
        refine ⟨h.1.symm, ?_⟩
        obtain ⟨bb, hbb, hiff⟩ := isFlprLiteral_ok raw ri
        rw [hbb] at hlit
        simp at hlit
        subst hlit
        rw [hhd, hb, ← e2, ← hiff, h.2]
        simp
      · rename_i hb
        simp at h
        refine ⟨h.1.symm, ?_⟩
        rw [hhd]
        simp only [List.getD_eq_getElem?_getD] at hb
        simp [h.2, hb]
    · rename_i hri
      have e := findFirstNotOf_none _ hri
      simp at h
      refine ⟨h.1.symm, ?_⟩
      simp [h.2, e]
  · rename_i hin
    right
    simp at hin
    split at h
    · rename_i hri
      have e := findFirstNotOf_none _ hri
      simp at h
      left
      exact ⟨hin, e, h.1.symm, h.2⟩
    · rename_i ri hri
      obtain ⟨e1, e2, e3, e4⟩ := findFirstNotOf_blank _ _ hri
      right
      obtain ⟨c, hc, h⟩ := Res.bind_ok h
      have hc' := cToUpper_ok hc
      subst hc'
      have hcons : ∃ c0 rest, body raw = c0 :: rest := by
        cases hbd : body raw with
        | nil => exact absurd hbd e3
        | cons a b => exact ⟨a, b, rfl⟩
      obtain ⟨c0, rest, hbd⟩ := hcons
      have hget : raw.getD ri NUL = c0 := by
        have : raw[ri]? = some c0 := by
          rw [← List.head?_drop, e2, hbd]; rfl
        simp [List.getD_eq_getElem?_getD, this]
      rw [hget] at h
      simp only [upChar_hash, upChar_bang] at h
      refine ⟨c0, rest, hin, hbd, ?_⟩
      have hhash : (ri = 0 ∧ c0 = '#') ↔ raw.head? = some '#' := by
        constructor
        · rintro ⟨rfl, rfl⟩
          rw [List.drop_zero] at e2
          rw [e2, hbd]; rfl
        · intro hh
          cases raw with
          | nil => simp at hh
          | cons a as =>
            simp at hh
            subst hh
            have hi : indent ('#' :: as) = 0 := by
              unfold indent; simp [isBlankChar]
            have hbb : body ('#' :: as) = '#' :: as := by
              unfold body; simp [isBlankChar]
            rw [hbb] at hbd
            simp at hbd
            exact ⟨by omega, hbd.1.symm⟩
      split at h
      · rename_i hh
        simp at h
        left
        exact ⟨hhash.mp hh, h.1.symm, h.2⟩
      · rename_i hh
        rw [hhash] at hh
        right
        obtain ⟨inc, hinc, h⟩ := Res.bind_ok h
        have hinc' := isIncludeLine_ok e4 hinc
        rw [e2] at hinc'
        split at h
        · rename_i hi
          simp at h
          left
          exact ⟨hh, hinc'.mp hi, h.1.symm, h.2⟩
        · rename_i hi
          right
          refine ⟨hh, fun hx => hi (hinc'.mpr hx), ?_⟩
          split at h
          · rename_i hbang
            obtain ⟨lit, hlit, h⟩ := Res.bind_ok h
            obtain ⟨bb, hbb, hiff⟩ := isFlprLiteral_ok raw ri
            rw [hbb] at hlit
            simp at hlit
            subst hlit
            rw [e2] at hiff
            split at h
            · rename_i hl
              simp at h
              left
              exact ⟨hbang, hiff.mp hl, h.1.symm, h.2⟩
            · rename_i hl
              right
              have hmk := isFlprDirective_iff raw ri
              rw [e2] at hmk
              split at h
              · rename_i hm
                simp at h
                left
                exact ⟨hbang, fun hx => hl (hiff.mpr hx), hmk.mp hm, h.1.symm, h.2⟩
              · rename_i hm
                simp at h
                right; left
                exact ⟨hbang, fun hx => hl (hiff.mpr hx), fun hx => hm (hmk.mpr hx),
                  h.1.symm, h.2⟩
          · rename_i hbang
            obtain ⟨g, hg, h⟩ := Res.bind_ok h
            simp at h
            obtain ⟨rfl, rfl⟩ := h
            right; right; right
            refine ⟨hbang, rfl, ?_⟩
            rw [← e1]; exact hg

end FLPR
