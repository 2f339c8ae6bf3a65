import Verif.FileLine.FreeLemmas
/-!
# Lemmas about fixed-format line analysis
-/

namespace FLPR
open Spec

theorem takeWhile_findIdx (p : Char → Bool) (s : Str) :
    (s.findIdx? p = none → s.dropWhile (fun c => !p c) = []) ∧
    (∀ k, s.findIdx? p = some k → k = (s.takeWhile (fun c => !p c)).length ∧
      s.dropWhile (fun c => !p c) ≠ []) := by
  induction s with
  | nil => simp
  | cons c cs ih =>
    rw [List.findIdx?_cons]
    by_cases h : p c = true
    · simp [h]
    · simp only [h, Bool.false_eq_true, if_false, Option.map_eq_none_iff, Option.map_eq_some_iff]
      simp only [Bool.not_eq_true] at h
      simp only [List.takeWhile_cons, List.dropWhile_cons, h, Bool.not_false, if_true,
        List.length_cons]
      refine ⟨ih.1, ?_⟩
      rintro k ⟨j, hj, rfl⟩
      have := ih.2 j hj
      exact ⟨by omega, this.2⟩

theorem detab_eq (raw : Str) : expandTabs raw = detab raw := by
  unfold expandTabs detab findChar
  obtain ⟨h1, h2⟩ := takeWhile_findIdx (· == '\t') raw
  have hfun : (fun c : Char => !(c == '\t')) = (fun c => c != '\t') := rfl
  rw [hfun] at h1 h2
  dsimp only
  cases hf : raw.findIdx? (· == '\t') with
  | none => simp [h1 hf]
  | some k =>
    obtain ⟨hk, hne⟩ := h2 k hf
    dsimp only
    by_cases hk6 : k < 6
    · rw [if_pos hk6, if_pos ⟨hne, by omega⟩]
      have e1 : raw.take k = raw.takeWhile (· != '\t') := by rw [hk, take_takeWhile_length]
      have e2 : raw.drop k = raw.dropWhile (· != '\t') := by rw [hk, drop_takeWhile_length]
      rw [← List.drop_drop, e1, e2, drop_takeWhile_length]
      congr 1
      rw [List.append_assoc]
      congr 1
      unfold blanks
      rw [List.replicate_append_replicate]
      congr 1; omega
    · rw [if_neg hk6, if_neg (by intro hx; omega)]

theorem isFixedBreak_succ (ctx : Option Char) (c : Char) (s : Str) (k : Nat) :
    IsFixedBreak ctx (c :: s) (k + 1) ↔ IsFixedBreak (quoteStep ctx c) s k := by
  unfold IsFixedBreak quoteState
  simp

theorem isFixedBreak_zero (ctx : Option Char) (c : Char) (s : Str) :
    IsFixedBreak ctx (c :: s) 0 ↔ ctx = none ∧ c = '!' := by
  unfold IsFixedBreak quoteState
  simp

theorem isFixedBreak_nil (ctx : Option Char) (k : Nat) : ¬ IsFixedBreak ctx [] k := by
  unfold IsFixedBreak
  simp

theorem findTrailingFixedGo_spec (ctx : Char) (i : Nat) (s : Str) (hv : validDelim ctx = true) :
    (∃ t, findTrailingFixedGo ctx i s = (some t, NUL) ∧ i ≤ t ∧ t < i + s.length ∧
      IsFixedBreak (ctxOf ctx) s (t - i) ∧ ∀ j < t - i, ¬ IsFixedBreak (ctxOf ctx) s j) ∨
    (∃ d, findTrailingFixedGo ctx i s = (none, d) ∧ validDelim d = true ∧
      ctxOf d = quoteState (ctxOf ctx) s ∧ ∀ j, ¬ IsFixedBreak (ctxOf ctx) s j) := by
  induction s generalizing ctx i with
  | nil =>
    right
    exact ⟨ctx, rfl, hv, rfl, fun j => isFixedBreak_nil _ _⟩
  | cons c cs ih =>
    have step : ∀ ctx' : Char, validDelim ctx' = true →
        ctxOf ctx' = quoteStep (ctxOf ctx) c → ¬ IsFixedBreak (ctxOf ctx) (c :: cs) 0 →
        (∃ t, findTrailingFixedGo ctx' (i + 1) cs = (some t, NUL) ∧ i ≤ t ∧
          t < i + (c :: cs).length ∧ IsFixedBreak (ctxOf ctx) (c :: cs) (t - i) ∧
          ∀ j < t - i, ¬ IsFixedBreak (ctxOf ctx) (c :: cs) j) ∨
        (∃ d, findTrailingFixedGo ctx' (i + 1) cs = (none, d) ∧ validDelim d = true ∧
          ctxOf d = quoteState (ctxOf ctx) (c :: cs) ∧
          ∀ j, ¬ IsFixedBreak (ctxOf ctx) (c :: cs) j) := by
      intro ctx' hv' hs hn
      rcases ih ctx' (i + 1) hv' with ⟨t, h1, h2, h3, h4, h5⟩ | ⟨d, h1, h2, h3, h4⟩
      · left
        have e : t - i = (t - (i + 1)) + 1 := by omega
        refine ⟨t, h1, by omega, by simp; omega, ?_, ?_⟩
        · rw [e, isFixedBreak_succ, ← hs]; exact h4
        · intro j hj
          cases j with
          | zero => exact hn
          | succ j => rw [isFixedBreak_succ, ← hs]; exact h5 j (by omega)
      · right
        refine ⟨d, h1, h2, ?_, ?_⟩
        · rw [h3, hs]; simp [quoteState]
        · intro j
          cases j with
          | zero => exact hn
          | succ j => rw [isFixedBreak_succ, ← hs]; exact h4 j
    simp only [findTrailingFixedGo]
    by_cases hc0 : ctx = NUL
    · subst hc0
      rw [if_pos rfl]
      by_cases hq : c = '\'' ∨ c = '"'
      · rw [if_pos hq]
        refine step c ?_ ?_ ?_
        · rw [validDelim_iff]; rcases hq with rfl | rfl <;> simp
        · rw [ctxOf_ne (by rcases hq with rfl | rfl <;> decide)]
          simp [ctxOf_NUL, quoteStep, hq]
        · rw [isFixedBreak_zero]; rcases hq with rfl | rfl <;> simp
      · rw [if_neg hq]
        by_cases hb : c = '!'
        · rw [if_pos hb]
          left
          refine ⟨i, rfl, le_refl _, by simp, ?_, by simp⟩
          simp [isFixedBreak_zero, ctxOf_NUL, hb]
        · rw [if_neg hb]
          refine step NUL rfl ?_ ?_
          · simp [ctxOf_NUL, quoteStep, hq]
          · simp [isFixedBreak_zero, hb]
    · rw [if_neg hc0]
      have hctx := ctxOf_ne hc0
      by_cases hcc : c = ctx
      · rw [if_pos hcc]
        refine step NUL rfl ?_ ?_
        · simp [ctxOf_NUL, hctx, quoteStep, hcc]
        · rw [isFixedBreak_zero, hctx]; simp
      · rw [if_neg hcc]
        refine step ctx hv ?_ ?_
        · rw [hctx]; simp [quoteStep, hcc]
        · rw [isFixedBreak_zero, hctx]; simp

theorem truncCol_eq (lc : Int) (e : Str) : truncCol lc e.length = usedCols lc e := rfl

theorem usedCols_le (lc : Int) (e : Str) : usedCols lc e ≤ e.length := by
  unfold usedCols; split <;> omega

theorem usedCols_lt {lc : Int} {e : Str} (h : usedCols lc e < e.length) :
    lc > 0 ∧ (usedCols lc e : Int) = lc := by
  unfold usedCols at h ⊢
  split at h
  · rename_i h0
    rw [if_pos h0]
    refine ⟨h0, ?_⟩
    omega
  · omega

theorem fixRight_overflow (tail : Str) (t : Nat) (lc : Int) (h0 : lc > 0) (h1 : (t : Int) = lc) :
    fixRight tail t lc = overflowText tail := by
  unfold fixRight overflowText
  rw [if_pos ⟨h0, h1⟩]
  cases hf : findFirstNotOf [' ', '\t', '\r'] tail with
  | none => rw [findFirstNotOf_none _ hf]
  | some k =>
    obtain ⟨e1, e2, e3, e4⟩ := findFirstNotOf_blank _ _ hf
    dsimp only
    cases hb : body tail with
    | nil => exact absurd hb e3
    | cons c rest =>
      have hget : tail.getD k NUL = c := by
        have : tail[k]? = some c := by
          rw [← List.head?_drop, e2, hb]; rfl
        simp [List.getD_eq_getElem?_getD, this]
      rw [hget]
      dsimp only
      by_cases h1 : c = '&' <;> by_cases h2 : c = '!' <;> simp [h1, h2]

/-- The body of a fixed-format Fortran line whose text starts inside the used columns. -/
theorem analyzeFixedBody_spec {ln : Int} {raw : Str} {pd : Char} {lc : Int} {lt : Str} {b : Bits}
    {ri : Nat} {f : FileLine} (hpd : validDelim pd = true) (hri : ri < usedCols lc raw)
    (h : analyzeFixedBody ln raw pd lc lt b ri = .ok f) :
    f.left_txt = lt ∧ f.left_space = (if ri > 6 then (raw.drop 6).take (ri - 6) else []) ∧
    f.bits = b ∧ f.linenum = ln ∧ validDelim f.open_delim = true ∧
    f.main_txt ++ f.right_space ≠ [] ∧
    (∀ c ∈ f.right_space, c = ' ' ∨ c = '\t') ∧
    (f.open_delim = NUL → ∀ c, f.main_txt.getLast? = some c → c ≠ ' ' ∧ c ≠ '\t') ∧
    (f.open_delim ≠ NUL → f.right_space = []) ∧
    ((∃ k, f.main_txt ++ f.right_space = ((raw.take (usedCols lc raw)).drop ri).take k ∧
        ri + k < usedCols lc raw ∧
        IsFixedBreak (ctxOf pd) ((raw.take (usedCols lc raw)).drop ri) k ∧
        (∀ j < k, ¬ IsFixedBreak (ctxOf pd) ((raw.take (usedCols lc raw)).drop ri) j) ∧
        f.open_delim = NUL ∧ f.right_txt = raw.drop (ri + k)) ∨
     (f.main_txt ++ f.right_space = (raw.take (usedCols lc raw)).drop ri ∧
        (∀ j, ¬ IsFixedBreak (ctxOf pd) ((raw.take (usedCols lc raw)).drop ri) j) ∧
        ctxOf f.open_delim = quoteState (ctxOf pd) ((raw.take (usedCols lc raw)).drop ri) ∧
        f.right_txt = overflowText (raw.drop (usedCols lc raw)))) := by
  have hul := usedCols_le lc raw
  unfold analyzeFixedBody findTrailingFixed at h
  rw [if_pos hpd] at h
  simp only [truncCol_eq] at h
  rcases findTrailingFixedGo_spec pd ri ((raw.take (usedCols lc raw)).drop ri) hpd with
    ⟨t, h1, h2, h3, h4, h5⟩ | ⟨d, h1, h2, h3, h4⟩
  · -- a comment inside the used columns
    rw [h1] at h
    simp only [Res.ok_bind] at h
    simp at h3
    have ht : t < usedCols lc raw := by omega
    have htl : t ≤ raw.length := by omega
    have hril : ri ≤ raw.length := by omega
    simp only [substr, substrFrom, hril, htl, h2, if_true, Res.ok_bind] at h
    split at h
    · simp at h
    rename_i hne
    have hfr : fixRight (raw.drop t) t lc = raw.drop t := by
      unfold fixRight
      rw [if_neg]
      rintro ⟨k1, k2⟩
      have : usedCols lc raw ≤ t := by
        unfold usedCols
        rw [if_pos k1]; omega
      omega
    rw [hfr] at h
    unfold mkFull at h
    simp only [validDelim_NUL, if_true, Except.ok.injEq] at h
    subst h
    have hap := trimMain_append ((raw.drop ri).take (t - ri)) NUL
    have hmain : (raw.drop ri).take (t - ri) =
        ((raw.take (usedCols lc raw)).drop ri).take (t - ri) := by
      rw [List.drop_take, List.take_take]
      congr 1; omega
    refine ⟨rfl, rfl, rfl, rfl, rfl, ?_, trimMain_right _ _, fun _ => trimMain_last _, by simp, ?_⟩
    · dsimp only; rw [hap]; exact hne
    · left
      refine ⟨t - ri, ?_, by omega, h4, h5, rfl, ?_⟩
      · dsimp only; rw [hap, hmain]
      · dsimp only; congr 1; omega
  · rw [h1] at h
    simp only [Res.ok_bind] at h
    by_cases hlt : usedCols lc raw < raw.length
    · simp only [hlt, if_true] at h
      obtain ⟨k1, k2⟩ := usedCols_lt hlt
      have hril : ri ≤ raw.length := by omega
      have hri' : ri ≤ usedCols lc raw := by omega
      simp only [substr, substrFrom, hril, hul, hri', if_true, Res.ok_bind] at h
      split at h
      · simp at h
      rename_i hne
      rw [fixRight_overflow _ _ _ k1 k2] at h
      unfold mkFull at h
      simp only [h2, if_true, Except.ok.injEq] at h
      subst h
      have hap := trimMain_append ((raw.drop ri).take (usedCols lc raw - ri)) d
      have hmain : (raw.drop ri).take (usedCols lc raw - ri) =
          (raw.take (usedCols lc raw)).drop ri := by
        rw [List.drop_take]
      refine ⟨rfl, rfl, rfl, rfl, h2, ?_, trimMain_right _ _, ?_, ?_, ?_⟩
      · dsimp only; rw [hap]; exact hne
      · intro hod; simp only at hod; subst hod; exact trimMain_last _
      · intro hod; simp only at hod; simp [trimMain, hod]
      · right
        refine ⟨?_, h4, h3, rfl⟩
        dsimp only; rw [hap, hmain]
    · have hul' : usedCols lc raw = raw.length := by omega
      simp only [hlt, if_false] at h
      have hril : ri ≤ raw.length := by omega
      simp only [substrFrom, hril, if_true, Res.ok_bind] at h
      split at h
      · simp at h
      rename_i hne
      unfold mkFull at h
      simp only [h2, if_true, Except.ok.injEq] at h
      subst h
      have hap := trimMain_append (raw.drop ri) d
      refine ⟨rfl, rfl, rfl, rfl, h2, ?_, trimMain_right _ _, ?_, ?_, ?_⟩
      · dsimp only; rw [hap]; exact hne
      · intro hod; simp only at hod; subst hod; exact trimMain_last _
      · intro hod; simp only at hod; simp [trimMain, hod]
      · right
        rw [hul'] at h4 h3 ⊢
        refine ⟨?_, h4, h3, ?_⟩
        · dsimp only; rw [hap]; simp
        · simp [overflowText, body]

theorem takeWhile_length_le (p : Char → Bool) (s : Str) (j : Nat) (c : Char)
    (h : s[j]? = some c) (hp : p c = false) : (s.takeWhile p).length ≤ j := by
  induction s generalizing j with
  | nil => simp at h
  | cons a as ih =>
    cases j with
    | zero => simp at h; subst h; simp [hp]
    | succ j =>
      simp at h
      have := ih j h
      by_cases ha : p a = true
      · simp [ha]; omega
      · simp [ha]

theorem indent_le {e : Str} {j : Nat} {c : Char} (h : e[j]? = some c) (hp : isSpace c = false) :
    indent e ≤ j := by
  refine takeWhile_length_le _ _ _ c h ?_
  by_contra hcon
  have := blank_isSpace c (by simpa using hcon)
  simp_all

/-- What `fixedLeft` returns. -/
theorem fixedLeft_ok {e : Str} {pd : Char} {c0 : Char} {rest lt : Str} {b : Bits} {r : Nat}
    {bl : Bool} (hb : body e = c0 :: rest)
    (h : fixedLeft e pd (indent e) (upChar c0) = .ok (lt, b, r, bl)) :
    r = fixedStart (decide (pd ≠ NUL)) e ∧
    (bl = true ↔ pd = NUL ∧ (indent e = 5 ∨ HasFixedLabel e) ∧ r = e.length) ∧
    (b.label = true ↔ HasFixedLabel e) ∧
    (b.continuation = true ↔ indent e = 5 ∧ c0 ≠ '0') ∧
    b.fixed_format = true ∧ b.blank = false ∧ b.comment = false ∧ b.preprocessor = false ∧
    b.incl = false ∧ b.flpr_pp = false ∧ b.flpr_lit = false ∧ b.continued = false ∧
    (indent e = 5 → lt = e.take 6) ∧
    (HasFixedLabel e → lt = e.take (indent e + fixedLabelLen e)) ∧
    (indent e ≠ 5 → ¬ HasFixedLabel e → lt = []) := by
  have hri : e.drop (indent e) = c0 :: rest := by rw [drop_indent, hb]
  have hri_lt : indent e < e.length := by
    by_contra hcon
    rw [List.drop_eq_nil_of_le (by omega)] at hri
    simp at hri
  have hget : ∀ k, indent e = k → e.getD k NUL = c0 := by
    intro k hk
    have : e[k]? = some c0 := by
      rw [← List.head?_drop, ← hk, hri]; rfl
    simp [List.getD_eq_getElem?_getD, this]
  have hlabel : HasFixedLabel e ↔ indent e < 5 ∧ isDigit c0 = true := by
    unfold HasFixedLabel; rw [hb]; simp
  unfold fixedLeft at h
  dsimp only at h
  by_cases h6 : indent e < 6
  · rw [if_pos h6] at h
    rbind h with ⟨lt', b', r1⟩ h1
    dsimp only at h
    by_cases h5 : indent e = 5
    · -- column 6
      have hnl : ¬ HasFixedLabel e := by rw [hlabel]; omega
      rw [if_pos h5] at h1
      simp only [Except.ok.injEq, Prod.mk.injEq] at h1
      obtain ⟨rfl, rfl, rfl⟩ := h1
      have hne : e.take 6 ≠ [] := by
        intro hx; simp at hx; rw [hx] at hri_lt; simp at hri_lt
      have hg := hget 5 h5
      have hst : ∀ o, fixedStart o e = (if o = true then 6 else 6 + ((e.drop 6).takeWhile isSpace).length) := by
        intro o; unfold fixedStart; simp [h5]
      rw [hg] at h
      by_cases hp : pd = NUL
      · rw [if_pos ⟨hne, hp⟩] at h
        rbind h with r2 hr2
        have hr2' := scanSpaces_ok _ _ _ hr2
        simp only [Except.ok.injEq, Prod.mk.injEq] at h
        obtain ⟨rfl, rfl, rfl, rfl⟩ := h
        refine ⟨?_, ?_, ?_, ?_, ?_, ?_, ?_, ?_, ?_, ?_, ?_, ?_, fun _ => rfl,
          fun hx => absurd hx hnl, fun hx => absurd h5 hx⟩
        · rw [hst, hr2']; simp [hp]
        · simp [hp, h5]
        · simp only [hnl, iff_false]; split <;> simp
        · by_cases hc : c0 = '0' <;> simp [hc, h5]
        all_goals (split <;> rfl)
      · rw [if_neg (by simp [hp])] at h
        simp only [Except.ok.injEq, Prod.mk.injEq] at h
        obtain ⟨rfl, rfl, rfl, rfl⟩ := h
        refine ⟨?_, ?_, ?_, ?_, ?_, ?_, ?_, ?_, ?_, ?_, ?_, ?_, fun _ => rfl,
          fun hx => absurd hx hnl, fun hx => absurd h5 hx⟩
        · rw [hst]; simp [hp]
        · simp [hp]
        · simp only [hnl, iff_false]; split <;> simp
        · by_cases hc : c0 = '0' <;> simp [hc, h5]
        all_goals (split <;> rfl)
    · rw [if_neg h5] at h1
      rbind h1 with d hd
      have hd' := cIsDigit_ok hd
      rw [isDigit_upChar] at hd'
      rw [hd'] at h1
      by_cases hdig : isDigit c0 = true
      · -- a label
        have hl : HasFixedLabel e := by rw [hlabel]; exact ⟨by omega, hdig⟩
        rw [if_pos hdig] at h1
        rbind h1 with r0 hr0
        have hr0' := scanDigits_ok _ _ _ _ hr0
        rw [hri, ← hb] at hr0'
        have hr0'' : r0 = indent e + fixedLabelLen e := hr0'
        simp only [Except.ok.injEq, Prod.mk.injEq] at h1
        obtain ⟨rfl, rfl, rfl⟩ := h1
        have hpos : 0 < fixedLabelLen e := by
          unfold fixedLabelLen
          rw [hb]
          have : 6 - indent e = (5 - indent e) + 1 := by omega
          rw [this]
          simp [hdig]
        have hne : e.take r0 ≠ [] := by
          intro hx; simp at hx
          rcases hx with hx | hx
          · omega
          · rw [hx] at hri_lt; simp at hri_lt
        have hst : ∀ o, fixedStart o e = (if o = true then r0 else r0 + ((e.drop r0).takeWhile isSpace).length) := by
          intro o; unfold fixedStart; simp [h5, hl, ← hr0'']
        by_cases hp : pd = NUL
        · rw [if_pos ⟨hne, hp⟩] at h
          rbind h with r2 hr2
          have hr2' := scanSpaces_ok _ _ _ hr2
          simp only [Except.ok.injEq, Prod.mk.injEq] at h
          obtain ⟨rfl, rfl, rfl, rfl⟩ := h
          refine ⟨?_, ?_, ?_, ?_, rfl, rfl, rfl, rfl, rfl, rfl, rfl, rfl, fun hx => absurd hx h5,
            fun _ => by rw [hr0''], fun _ hx => absurd hl hx⟩
          · rw [hst, hr2']; simp [hp]
          · simp [hp, hl]
          · simp [hl]
          · simp [h5]
        · rw [if_neg (by simp [hp])] at h
          simp only [Except.ok.injEq, Prod.mk.injEq] at h
          obtain ⟨rfl, rfl, rfl, rfl⟩ := h
          refine ⟨?_, ?_, ?_, ?_, rfl, rfl, rfl, rfl, rfl, rfl, rfl, rfl, fun hx => absurd hx h5,
            fun _ => by rw [hr0''], fun _ hx => absurd hl hx⟩
          · rw [hst]; simp [hp]
          · simp [hp]
          · simp [hl]
          · simp [h5]
      · -- text in the label columns
        have hl : ¬ HasFixedLabel e := by rw [hlabel]; simp [hdig]
        rw [if_neg hdig] at h1
        simp only [Except.ok.injEq, Prod.mk.injEq] at h1
        obtain ⟨rfl, rfl, rfl⟩ := h1
        rw [if_neg (by simp)] at h
        simp only [Except.ok.injEq, Prod.mk.injEq] at h
        obtain ⟨rfl, rfl, rfl, rfl⟩ := h
        refine ⟨?_, ?_, ?_, ?_, rfl, rfl, rfl, rfl, rfl, rfl, rfl, rfl, fun hx => absurd hx h5,
          fun hx => absurd hx hl, fun _ _ => rfl⟩
        · unfold fixedStart; simp [h5, hl]
        · simp [h5, hl]
        · simp [hl]
        · simp [h5]
  · have hl : ¬ HasFixedLabel e := by rw [hlabel]; omega
    have h5 : indent e ≠ 5 := by omega
    rw [if_neg h6] at h
    simp only [Except.ok.injEq, Prod.mk.injEq] at h
    obtain ⟨rfl, rfl, rfl, rfl⟩ := h
    refine ⟨?_, ?_, ?_, ?_, rfl, rfl, rfl, rfl, rfl, rfl, rfl, rfl, fun hx => absurd hx h5,
      fun hx => absurd hx hl, fun _ _ => rfl⟩
    · unfold fixedStart; simp [h5, hl]
    · simp [h5, hl]
    · simp [hl]
    · simp [h5]

/-- The part of `analyzeFixed` after the classification tests. -/
def fixedRest (ln : Int) (e : Str) (pd : Char) (lc : Int) (ri : Nat) (c : Char) : Res FileLine := do
  let (lt, b, r, isBlank) ← fixedLeft e pd ri c
  if isBlank then .ok (mkLeft ln { b with blank := true } e)
  else analyzeFixedBody ln e pd lc lt b r

theorem upChar_star (c : Char) : upChar c = '*' ↔ c = '*' :=
  upChar_of_not_letter _ (by decide) (by decide) c

theorem upChar_C (c : Char) : upChar c = 'C' ↔ c = 'C' ∨ c = 'c' := by
  unfold upChar
  split
  · rename_i h
    have h1 : c.toNat ≤ 122 := h.2
    have h2 : 97 ≤ c.toNat := h.1
    have hv : (Char.ofNat (c.toNat - 32)).toNat = c.toNat - 32 :=
      toNat_ofNat_small _ (by omega)
    constructor
    · intro he
      right
      rw [he] at hv
      have h3 : ('C' : Char).toNat = 67 := rfl
      have : c.toNat = 99 := by omega
      exact Char.toNat_inj.mp this
    · rintro (rfl | rfl)
      · revert h; decide
      · rfl
  · rename_i h
    constructor
    · intro hc; left; exact hc
    · rintro (rfl | rfl)
      · rfl
      · exfalso; apply h; decide

/-- Which category `analyze_fixed` gives a line, and what else it returns. -/
theorem analyzeFixed_cases {ln : Int} {raw : Str} {pd : Char} {lc : Int} {f : FileLine}
    (h : analyzeFixed ln raw pd lc = .ok f) :
    ∃ e, e = detab raw ∧
    ((body e = [] ∧ f = mkLeft ln { fixed_format := true, blank := true } e) ∨
     ∃ c0 rest, body e = c0 :: rest ∧
      ((indent e ≠ 5 ∧ e.head? = some '#' ∧
          f = mkLeft ln { fixed_format := true, preprocessor := true } e) ∨
       (¬ (indent e ≠ 5 ∧ e.head? = some '#') ∧ (indent e ≠ 5 ∧ startsInclude (body e)) ∧
          f = mkLeft ln { fixed_format := true, incl := true } e) ∨
       (¬ (indent e ≠ 5 ∧ e.head? = some '#') ∧ ¬ (indent e ≠ 5 ∧ startsInclude (body e)) ∧
         (((indent e ≠ 5 ∧ ((body e).head? = some '!' ∨
            (indent e = 0 ∧ (e.head? = some '*' ∨ e.head? = some 'C' ∨ e.head? = some 'c')))) ∧
            ¬ isLiteralMarker (body e) ∧
            ((isMarker (body e) ∧ f = mkLeft ln { fixed_format := true, flpr_pp := true } e) ∨
             (¬ isMarker (body e) ∧ f = mkLeft ln { fixed_format := true, comment := true } e))) ∨
          (¬ (indent e ≠ 5 ∧ ((body e).head? = some '!' ∨
            (indent e = 0 ∧ (e.head? = some '*' ∨ e.head? = some 'C' ∨ e.head? = some 'c')))) ∧
            fixedRest ln e pd lc (indent e) (upChar c0) = .ok f))))) := by
  refine ⟨detab raw, rfl, ?_⟩
  unfold analyzeFixed at h
  dsimp only at h
  rw [detab_eq] at h
  by_cases hraw : raw = []
  · left
    subst hraw
    simp at h
    exact ⟨rfl, h.symm⟩
  · rw [if_neg hraw] at h
    generalize detab raw = e at h ⊢
    cases hf : findFirstNotOf [' ', '\t', '\r'] e with
    | none =>
      rw [hf] at h
      left
      simp at h
      exact ⟨findFirstNotOf_none _ hf, h.symm⟩
    | some ri =>
      rw [hf] at h
      right
      dsimp only at h
      obtain ⟨e1, e2, e3, e4⟩ := findFirstNotOf_blank _ _ hf
      obtain ⟨c0, rest, hbd⟩ : ∃ c0 rest, body e = c0 :: rest := by
        cases hbd : body e with
        | nil => exact absurd hbd e3
        | cons a b => exact ⟨a, b, rfl⟩
      have hget : e.getD ri NUL = c0 := by
        have : e[ri]? = some c0 := by
          rw [← List.head?_drop, e2, hbd]; rfl
        simp [List.getD_eq_getElem?_getD, this]
      have hhead : ∀ x, isBlankChar x = false → ((ri = 0 ∧ c0 = x) ↔ e.head? = some x) := by
        intro x hx
        constructor
        · rintro ⟨h0, rfl⟩
          rw [h0, List.drop_zero] at e2
          rw [e2, hbd]; rfl
        · intro hh
          cases e with
          | nil => simp at hh
          | cons a as =>
            simp at hh
            subst hh
            have hi : indent (a :: as) = 0 := by unfold indent; simp [hx]
            have hbb : body (a :: as) = a :: as := by unfold body; simp [hx]
            rw [hbb] at hbd
            simp at hbd
            exact ⟨by omega, hbd.1.symm⟩
      rbind h with c hc
      have hc' := cToUpper_ok hc
      rw [hget] at hc'
      rw [hc'] at h
      simp only [upChar_hash, upChar_bang, upChar_star, upChar_C] at h
      refine ⟨c0, rest, hbd, ?_⟩
      by_cases h5 : ri ≠ 5
      · simp only [h5, ne_eq, not_false_eq_true, if_true] at h
        have h5' : indent e ≠ 5 := by omega
        by_cases hhash : ri = 0 ∧ c0 = '#'
        · left
          rw [if_pos hhash] at h
          simp at h
          exact ⟨h5', (hhead _ (by decide)).mp hhash, h.symm⟩
        · rw [if_neg hhash] at h
          have hhash' : ¬ (indent e ≠ 5 ∧ e.head? = some '#') := fun hx =>
            hhash ((hhead _ (by decide)).mpr hx.2)
          right
          rbind h with inc hinc
          have hinc' := isIncludeLine_ok e4 hinc
          rw [e2] at hinc'
          by_cases hi : inc = true
          · left
            rw [if_pos hi] at h
            simp at h
            exact ⟨hhash', ⟨h5', hinc'.mp hi⟩, h.symm⟩
          · rw [if_neg hi] at h
            right
            refine ⟨hhash', fun hx => hi (hinc'.mpr hx.2), ?_⟩
            have hcm : (c0 = '!' ∨ ri = 0 ∧ (c0 = '*' ∨ c0 = 'C' ∨ c0 = 'c')) ↔
                (indent e ≠ 5 ∧ ((body e).head? = some '!' ∨
                (indent e = 0 ∧ (e.head? = some '*' ∨ e.head? = some 'C' ∨ e.head? = some 'c')))) := by
              have q1 := hhead '*' (by decide)
              have q2 := hhead 'C' (by decide)
              have q3 := hhead 'c' (by decide)
              rw [hbd, ← q1, ← q2, ← q3, e1]
              simp only [List.head?_cons, Option.some.injEq]
              constructor
              · rintro (hx | ⟨hx, hy⟩)
                · exact ⟨h5', Or.inl hx⟩
                · refine ⟨h5', Or.inr ⟨hx, ?_⟩⟩
                  rcases hy with hy | hy | hy
                  · exact Or.inl ⟨hx, hy⟩
                  · exact Or.inr (Or.inl ⟨hx, hy⟩)
                  · exact Or.inr (Or.inr ⟨hx, hy⟩)
              · rintro ⟨_, hx | ⟨hx, hy⟩⟩
                · exact Or.inl hx
                · refine Or.inr ⟨hx, ?_⟩
                  rcases hy with hy | hy | hy
                  · exact Or.inl hy.2
                  · exact Or.inr (Or.inl hy.2)
                  · exact Or.inr (Or.inr hy.2)
            by_cases hcom : c0 = '!' ∨ ri = 0 ∧ (c0 = '*' ∨ c0 = 'C' ∨ c0 = 'c')
            · left
              rw [if_pos hcom] at h
              rbind h with lit hlit
              obtain ⟨bb, hbb, hiff⟩ := isFlprLiteral_ok e ri
              rw [hbb] at hlit
              simp at hlit
              subst hlit
              rw [e2] at hiff
              by_cases hl : bb = true
              · rw [if_pos hl] at h; simp at h
              · rw [if_neg hl] at h
                have hmk := isFlprDirective_iff e ri
                rw [e2] at hmk
                refine ⟨hcm.mp hcom, fun hx => hl (hiff.mpr hx), ?_⟩
                by_cases hm : isFlprDirective e ri = true
                · rw [if_pos hm] at h; simp at h
                  exact Or.inl ⟨hmk.mp hm, h.symm⟩
                · rw [if_neg hm] at h; simp at h
                  exact Or.inr ⟨fun hx => hm (hmk.mpr hx), h.symm⟩
            · right
              rw [if_neg hcom] at h
              refine ⟨fun hx => hcom (hcm.mpr hx), ?_⟩
              unfold fixedRest
              rw [← e1]; exact h
      · have h5' : ri = 5 := by omega
        have hi5 : indent e = 5 := by omega
        rw [if_neg h5] at h
        right; right
        refine ⟨by simp [hi5], by simp [hi5], ?_⟩
        right
        refine ⟨by simp [hi5], ?_⟩
        unfold fixedRest
        rw [← e1]; exact h

end FLPR
