import Verif.FileLine.Lemmas
/-!
# Lemmas relating the line-analysis model to the specification
-/

namespace FLPR
open Spec

/-! ### Quote automaton and break positions -/

theorem isBreak_succ (ctx : Option Char) (c : Char) (s : Str) (k : Nat) :
    IsBreak ctx (c :: s) (k + 1) ↔ IsBreak (quoteStep ctx c) s k := by
  unfold IsBreak quoteState
  simp

theorem isBreak_zero (ctx : Option Char) (c : Char) (s : Str) :
    IsBreak ctx (c :: s) 0 ↔
      (ctx = none ∧ (c = '!' ∨ c = '&')) ∨
      (ctx ≠ none ∧ c = '&' ∧ ∀ x ∈ s, isSpace x = true) := by
  unfold IsBreak quoteState
  simp

theorem isBreak_nil (ctx : Option Char) (k : Nat) : ¬ IsBreak ctx [] k := by
  unfold IsBreak
  simp

theorem restIsSpace_ok {s : Str} {b : Bool} (h : restIsSpace s = .ok b) :
    b = true ↔ ∀ c ∈ s, isSpace c = true := by
  induction s with
  | nil => simp [restIsSpace] at h; simp [← h]
  | cons c cs ih =>
    simp only [restIsSpace] at h
    obtain ⟨w, hw, h⟩ := Res.bind_ok h
    have hw' : w = isSpace c := by
      unfold cIsSpace at hw; split at hw
      · simpa using hw.symm
      · simp at hw
    split at h
    · rename_i hwt
      rw [ih h]; simp [← hw', hwt]
    · rename_i hwt
      simp at h hwt
      subst h
      simp [← hw', hwt]

theorem restIsSpace_ascii {s : Str} (h : AsciiStr s) : ∃ b, restIsSpace s = .ok b := by
  induction s with
  | nil => exact ⟨true, rfl⟩
  | cons c cs ih =>
    have hc : isAscii c = true := h c (by simp)
    obtain ⟨b, hb⟩ := ih (fun x hx => h x (by simp [hx]))
    simp only [restIsSpace, cIsSpace, hc, if_true, Res.ok_bind]
    split
    · exact ⟨b, hb⟩
    · exact ⟨false, rfl⟩

theorem validDelim_iff (d : Char) : validDelim d = true ↔ d = NUL ∨ d = '"' ∨ d = '\'' := by
  simp [validDelim, or_assoc]

theorem validDelim_NUL : validDelim NUL = true := rfl
theorem ctxOf_NUL : ctxOf NUL = none := rfl
theorem ctxOf_ne {d : Char} (h : d ≠ NUL) : ctxOf d = some d := by simp [ctxOf, h]

/-- First alternative of `find_trailing_free`: a break was found. -/
theorem findTrailingFreeGo_some {ctx : Char} {i : Nat} {s : Str} {t : Nat} {d : Char}
    (hv : validDelim ctx = true)
    (h : findTrailingFreeGo ctx i s = .ok (some t, d)) :
    i ≤ t ∧ IsBreak (ctxOf ctx) s (t - i) ∧ (∀ j < t - i, ¬ IsBreak (ctxOf ctx) s j) ∧
      ctxOf d = quoteState (ctxOf ctx) (s.take (t - i)) ∧ validDelim d = true := by
  induction s generalizing ctx i with
  | nil => simp only [findTrailingFreeGo] at h; split at h <;> simp at h
  | cons c cs ih =>
    -- the recursive step, used in several branches
    have step : ∀ ctx' : Char, validDelim ctx' = true →
        ctxOf ctx' = quoteStep (ctxOf ctx) c → ¬ IsBreak (ctxOf ctx) (c :: cs) 0 →
        findTrailingFreeGo ctx' (i + 1) cs = .ok (some t, d) →
        i ≤ t ∧ IsBreak (ctxOf ctx) (c :: cs) (t - i) ∧
          (∀ j < t - i, ¬ IsBreak (ctxOf ctx) (c :: cs) j) ∧
          ctxOf d = quoteState (ctxOf ctx) ((c :: cs).take (t - i)) ∧ validDelim d = true := by
      intro ctx' hv' hs hn h'
      obtain ⟨h1, h2, h3, h4, h5⟩ := ih hv' h'
      have e : t - i = (t - (i + 1)) + 1 := by omega
      refine ⟨by omega, ?_, ?_, ?_, h5⟩
      · rw [e, isBreak_succ, ← hs]; exact h2
      · intro j hj
        cases j with
        | zero => exact hn
        | succ j => rw [isBreak_succ, ← hs]; exact h3 j (by omega)
      · rw [e, h4, hs]; simp [quoteState]
    simp only [findTrailingFreeGo] at h
    split at h
    · rename_i hc0
      subst hc0
      split at h
      · rename_i hq
        refine step c ?_ ?_ ?_ h
        · rw [validDelim_iff]; rcases hq with rfl | rfl <;> simp
        · rw [ctxOf_ne (by rcases hq with rfl | rfl <;> decide)]
          simp [ctxOf_NUL, quoteStep, hq]
        · rw [isBreak_zero]; rcases hq with rfl | rfl <;> simp [ctxOf_NUL]
      · rename_i hq
        split at h
        · rename_i hb
          simp at h
          obtain ⟨rfl, rfl⟩ := h
          refine ⟨le_refl _, ?_, ?_, ?_, rfl⟩
          · simp [isBreak_zero, ctxOf_NUL, hb]
          · simp
          · simp [quoteState]
        · rename_i hb
          refine step NUL rfl ?_ ?_ h
          · simp [ctxOf_NUL, quoteStep, hq]
          · simp [isBreak_zero, ctxOf_NUL, hb]
    · rename_i hc0
      have hctx := ctxOf_ne hc0
      split at h
      · rename_i hcc
        subst hcc
        refine step NUL rfl ?_ ?_ h
        · simp [ctxOf_NUL, hctx, quoteStep]
        · rw [isBreak_zero, hctx]
          rw [validDelim_iff] at hv
          rcases hv with rfl | rfl | rfl <;> simp_all
      · rename_i hcc
        have hstep : ctxOf ctx = quoteStep (ctxOf ctx) c := by
          rw [hctx]; simp [quoteStep, hcc]
        split at h
        · rename_i hamp
          subst hamp
          obtain ⟨ws, hws, h⟩ := Res.bind_ok h
          have hw := restIsSpace_ok hws
          split at h
          · rename_i hwt
            simp at h
            obtain ⟨rfl, rfl⟩ := h
            refine ⟨le_refl _, ?_, ?_, ?_, hv⟩
            · simp only [Nat.sub_self, isBreak_zero]; rw [hctx]; simp; exact hw.mp hwt
            · simp
            · simp [quoteState]
          · rename_i hwt
            refine step ctx hv hstep ?_ h
            rw [isBreak_zero, hctx]; simp
            have hnot : ¬ ∀ c ∈ cs, isSpace c = true := fun hh => hwt (hw.mpr hh)
            simpa using hnot
        · rename_i hamp
          refine step ctx hv hstep ?_ h
          rw [isBreak_zero, hctx]; simp [hamp]

/-- Second alternative: no break anywhere, and the text ends outside character contexts. -/
theorem findTrailingFreeGo_none {ctx : Char} {i : Nat} {s : Str} {d : Char}
    (hv : validDelim ctx = true)
    (h : findTrailingFreeGo ctx i s = .ok (none, d)) :
    d = NUL ∧ (∀ j, ¬ IsBreak (ctxOf ctx) s j) ∧ quoteState (ctxOf ctx) s = none := by
  induction s generalizing ctx i with
  | nil =>
    simp only [findTrailingFreeGo] at h
    split at h
    · simp at h
    · rename_i hc; simp at h hc; subst hc
      exact ⟨h.symm, fun j => isBreak_nil _ _, rfl⟩
  | cons c cs ih =>
    have step : ∀ ctx' : Char, validDelim ctx' = true →
        ctxOf ctx' = quoteStep (ctxOf ctx) c → ¬ IsBreak (ctxOf ctx) (c :: cs) 0 →
        findTrailingFreeGo ctx' (i + 1) cs = .ok (none, d) →
        d = NUL ∧ (∀ j, ¬ IsBreak (ctxOf ctx) (c :: cs) j) ∧
          quoteState (ctxOf ctx) (c :: cs) = none := by
      intro ctx' hv' hs hn h'
      obtain ⟨h1, h2, h3⟩ := ih hv' h'
      refine ⟨h1, ?_, ?_⟩
      · intro j
        cases j with
        | zero => exact hn
        | succ j => rw [isBreak_succ, ← hs]; exact h2 j
      · rw [hs] at h3; simpa [quoteState] using h3
    simp only [findTrailingFreeGo] at h
    split at h
    · rename_i hc0
      subst hc0
      split at h
      · rename_i hq
        refine step c ?_ ?_ ?_ h
        · rw [validDelim_iff]; rcases hq with rfl | rfl <;> simp
        · rw [ctxOf_ne (by rcases hq with rfl | rfl <;> decide)]
          simp [ctxOf_NUL, quoteStep, hq]
        · rw [isBreak_zero]; rcases hq with rfl | rfl <;> simp [ctxOf_NUL]
      · rename_i hq
        split at h
        · simp at h
        · rename_i hb
          refine step NUL rfl ?_ ?_ h
          · simp [ctxOf_NUL, quoteStep, hq]
          · simp [isBreak_zero, ctxOf_NUL, hb]
    · rename_i hc0
      have hctx := ctxOf_ne hc0
      split at h
      · rename_i hcc
        subst hcc
        refine step NUL rfl ?_ ?_ h
        · simp [ctxOf_NUL, hctx, quoteStep]
        · rw [isBreak_zero, hctx]
          rw [validDelim_iff] at hv
          rcases hv with rfl | rfl | rfl <;> simp_all
      · rename_i hcc
        have hstep : ctxOf ctx = quoteStep (ctxOf ctx) c := by
          rw [hctx]; simp [quoteStep, hcc]
        split at h
        · rename_i hamp
          subst hamp
          obtain ⟨ws, hws, h⟩ := Res.bind_ok h
          have hw := restIsSpace_ok hws
          split at h
          · simp at h
          · rename_i hwt
            refine step ctx hv hstep ?_ h
            rw [isBreak_zero, hctx]; simp
            have hnot : ¬ ∀ c ∈ cs, isSpace c = true := fun hh => hwt (hw.mpr hh)
            simpa using hnot
        · rename_i hamp
          refine step ctx hv hstep ?_ h
          rw [isBreak_zero, hctx]; simp [hamp]

/-- On ASCII text `find_trailing_free` either returns or throws; it throws exactly when there is
no break and the text ends inside a character context. -/
theorem findTrailingFreeGo_ascii {ctx : Char} {i : Nat} {s : Str} (hv : validDelim ctx = true)
    (ha : AsciiStr s) :
    (∃ r, findTrailingFreeGo ctx i s = .ok r) ∨
    (findTrailingFreeGo ctx i s = .error .exc ∧ (∀ j, ¬ IsBreak (ctxOf ctx) s j) ∧
      quoteState (ctxOf ctx) s ≠ none) := by
  induction s generalizing ctx i with
  | nil =>
    simp only [findTrailingFreeGo]
    split
    · rename_i hc
      right
      exact ⟨rfl, fun j => isBreak_nil _ _, by simp [quoteState, ctxOf, hc]⟩
    · left; exact ⟨_, rfl⟩
  | cons c cs ih =>
    have hacs : AsciiStr cs := fun x hx => ha x (by simp [hx])
    have step : ∀ ctx' : Char, validDelim ctx' = true →
        ctxOf ctx' = quoteStep (ctxOf ctx) c → ¬ IsBreak (ctxOf ctx) (c :: cs) 0 →
        (∃ r, findTrailingFreeGo ctx' (i + 1) cs = .ok r) ∨
        (findTrailingFreeGo ctx' (i + 1) cs = .error .exc ∧
          (∀ j, ¬ IsBreak (ctxOf ctx) (c :: cs) j) ∧ quoteState (ctxOf ctx) (c :: cs) ≠ none) := by
      intro ctx' hv' hs hn
      rcases ih (i := i + 1) hv' hacs with h | ⟨h1, h2, h3⟩
      · left; exact h
      · right
        refine ⟨h1, ?_, ?_⟩
        · intro j
          cases j with
          | zero => exact hn
          | succ j => rw [isBreak_succ, ← hs]; exact h2 j
        · rw [hs] at h3; simpa [quoteState] using h3
    simp only [findTrailingFreeGo]
    split
    · rename_i hc0
      subst hc0
      split
      · rename_i hq
        refine step c ?_ ?_ ?_
        · rw [validDelim_iff]; rcases hq with rfl | rfl <;> simp
        · rw [ctxOf_ne (by rcases hq with rfl | rfl <;> decide)]
          simp [ctxOf_NUL, quoteStep, hq]
        · rw [isBreak_zero]; rcases hq with rfl | rfl <;> simp [ctxOf_NUL]
      · rename_i hq
        split
        · left; exact ⟨_, rfl⟩
        · rename_i hb
          refine step NUL rfl ?_ ?_
          · simp [ctxOf_NUL, quoteStep, hq]
          · simp [isBreak_zero, ctxOf_NUL, hb]
    · rename_i hc0
      have hctx := ctxOf_ne hc0
      split
      · rename_i hcc
        subst hcc
        refine step NUL rfl ?_ ?_
        · simp [ctxOf_NUL, hctx, quoteStep]
        · rw [isBreak_zero, hctx]
          rw [validDelim_iff] at hv
          rcases hv with rfl | rfl | rfl <;> simp_all
      · rename_i hcc
        have hstep : ctxOf ctx = quoteStep (ctxOf ctx) c := by
          rw [hctx]; simp [quoteStep, hcc]
        split
        · rename_i hamp
          subst hamp
          obtain ⟨ws, hws⟩ := restIsSpace_ascii hacs
          have hw := restIsSpace_ok hws
          rw [hws]
          simp only [Res.ok_bind]
          split
          · left; exact ⟨_, rfl⟩
          · rename_i hwt
            refine step ctx hv hstep ?_
            rw [isBreak_zero, hctx]; simp
            have hnot : ¬ ∀ c ∈ cs, isSpace c = true := fun hh => hwt (hw.mpr hh)
            simpa using hnot
        · rename_i hamp
          refine step ctx hv hstep ?_
          rw [isBreak_zero, hctx]; simp [hamp]

/-! ### Markers -/

theorem getD_drop (s : Str) (p k : Nat) : s.getD (p + k) NUL = (s.drop p).getD k NUL := by
  simp [List.getD_eq_getElem?_getD]

theorem marker_aux (s : List Char) :
    (decide (5 < s.length) && s.getD 1 NUL == '#' && s.getD 2 NUL == 'f' && s.getD 3 NUL == 'l' &&
      s.getD 4 NUL == 'p' && s.getD 5 NUL == 'r') = true ↔
    (s.drop 1).take 5 = "#flpr".toList := by
  rcases s with _ | ⟨a0, _ | ⟨a1, _ | ⟨a2, _ | ⟨a3, _ | ⟨a4, _ | ⟨a5, s⟩⟩⟩⟩⟩⟩ <;>
    simp [and_assoc]

theorem isFlprDirective_iff (txt : Str) (p : Nat) :
    isFlprDirective txt p = true ↔ isMarker (txt.drop p) := by
  unfold isFlprDirective isMarker
  rw [← marker_aux]
  simp only [getD_drop, Bool.and_eq_true, decide_eq_true_eq, List.length_drop]
  have e : (txt.length > p + 5) ↔ (5 < txt.length - p) := by omega
  rw [e]

theorem matchAt_ok (txt : Str) (p : Nat) (pat : Str) (hp : p ≤ txt.length) (hn : NUL ∉ pat) :
    matchAt txt p pat = .ok (decide ((txt.drop p).take pat.length = pat)) := by
  induction pat generalizing p with
  | nil => simp [matchAt]
  | cons c cs ih =>
    simp only [matchAt, at']
    by_cases h : p < txt.length
    · simp only [h, if_true, Res.ok_bind]
      have hd : txt.drop p = txt.getD p NUL :: txt.drop (p + 1) := by
        rw [List.drop_eq_getElem_cons h]
        simp [List.getD_eq_getElem?_getD, h]
      rw [hd]
      split
      · rename_i he
        rw [ih (p + 1) h (by simp at hn ⊢; exact hn.2)]
        rw [he]; simp
      · rename_i he
        generalize List.getD txt p NUL = x at *
        simp [he]
    · have hp' : p = txt.length := by omega
      subst hp'
      have hc : NUL ≠ c := by intro h; apply hn; simp [← h]
      simp [hc]

theorem isFlprLiteral_ok (txt : Str) (p : Nat) :
    ∃ b, isFlprLiteral txt p = .ok b ∧ (b = true ↔ isLiteralMarker (txt.drop p)) := by
  unfold isFlprLiteral isLiteralMarker
  split
  · rename_i h
    simp at h
    rw [matchAt_ok _ _ _ (by omega) (by decide)]
    refine ⟨_, rfl, ?_⟩
    have h1 := (isFlprDirective_iff txt p).mp h.1
    simp [h1]
  · rename_i h
    refine ⟨false, rfl, ?_⟩
    simp only [Bool.false_eq_true, false_iff]
    rintro ⟨h1, h2⟩
    apply h
    have h1' := (isFlprDirective_iff txt p).mpr h1
    have hlen : ((txt.drop p).drop 9 |>.take 8).length = 8 := by rw [h2]; rfl
    simp only [List.length_take, List.length_drop] at hlen
    simp [h1']
    omega

theorem strToLower_ok {s t : Str} (h : strToLower s = .ok t) : t = s.map lowChar := by
  induction s generalizing t with
  | nil => simp [strToLower] at h; simp [h]
  | cons c cs ih =>
    simp only [strToLower] at h
    obtain ⟨d, hd, h⟩ := Res.bind_ok h
    obtain ⟨ds, hds, h⟩ := Res.bind_ok h
    have : d = lowChar c := by
      unfold cToLower at hd; split at hd
      · simpa using hd.symm
      · simp at hd
    simp at h
    simp [← h, this, ih hds]

theorem strToLower_ascii {s : Str} (h : AsciiStr s) : strToLower s = .ok (s.map lowChar) := by
  induction s with
  | nil => rfl
  | cons c cs ih =>
    have hc : isAscii c = true := h c (by simp)
    simp [strToLower, cToLower, hc, ih (fun x hx => h x (by simp [hx]))]

theorem toNat_ofNat_small (n : Nat) (h : n < 0xd800) : (Char.ofNat n).toNat = n := by
  have hv : n.isValidChar := Or.inl h
  unfold Char.ofNat
  rw [dif_pos hv]
  simp [Char.toNat, Char.ofNatAux]

theorem lowChar_eq_i (c : Char) : lowChar c = 'i' ↔ c = 'i' ∨ c = 'I' := by
  unfold lowChar
  split
  · rename_i h
    constructor
    · intro he
      right
      have h1 : c.toNat ≤ 90 := h.2
      have h2 : 65 ≤ c.toNat := h.1
      have hv : (Char.ofNat (c.toNat + 32)).toNat = c.toNat + 32 := by
        exact toNat_ofNat_small _ (by omega)
      rw [he] at hv
      have : c.toNat = 73 := by
        have : ('i' : Char).toNat = 105 := rfl
        omega
      exact Char.toNat_inj.mp this
    · rintro (rfl | rfl)
      · revert h; decide
      · rfl
  · rename_i h
    constructor
    · intro hc; left; exact hc
    · rintro (rfl | rfl)
      · rfl
      · exfalso; apply h; decide

theorem isIncludeLine_ok {raw : Str} {ri : Nat} {b : Bool} (hri : ri < raw.length)
    (h : isIncludeLine raw ri = .ok b) : b = true ↔ startsInclude (raw.drop ri) := by
  have hd : raw.drop ri = raw.getD ri NUL :: raw.drop (ri + 1) := by
    rw [List.drop_eq_getElem_cons hri]
    simp [List.getD_eq_getElem?_getD, hri]
  unfold isIncludeLine at h
  split at h
  · omega
  · split at h
    · rename_i hne
      simp at h
      subst h
      simp only [Bool.false_eq_true, false_iff]
      rintro ⟨h1, _⟩
      rw [hd] at h1
      simp at h1
      have := (lowChar_eq_i _).mp h1.1
      simp at hne
      tauto
    · obtain ⟨m, hm, h⟩ := Res.bind_ok h
      have hm' := strToLower_ok hm
      unfold startsInclude
      rw [← hm']
      split at h
      · rename_i hinc
        have e : raw.drop (ri + 7) = (raw.drop ri).drop 7 := by simp
        rw [e] at h
        split at h
        · rename_i hnil
          simp at h
          subst h
          rw [hnil]
          simp
        · rename_i q rest hq
          simp at h
          rw [hq, ← h, hinc]
          simp
      · rename_i hinc
        simp at h
        subst h
        constructor
        · intro h; cases h
        · rintro ⟨h, _⟩; exact absurd h hinc

theorem isIncludeLine_ascii {raw : Str} {ri : Nat} (h : AsciiStr raw) :
    ∃ b, isIncludeLine raw ri = .ok b := by
  unfold isIncludeLine
  split
  · exact ⟨_, rfl⟩
  · split
    · exact ⟨_, rfl⟩
    · rw [strToLower_ascii (fun c hc => h c (List.mem_of_mem_drop (List.mem_of_mem_take hc)))]
      simp only [Res.ok_bind]
      split
      · split <;> exact ⟨_, rfl⟩
      · exact ⟨_, rfl⟩

theorem upChar_hash (c : Char) : upChar c = '#' ↔ c = '#' := by
  unfold upChar
  split
  · rename_i h
    have h1 : c.toNat ≤ 122 := h.2
    have h2 : 97 ≤ c.toNat := h.1
    have hv : (Char.ofNat (c.toNat - 32)).toNat = c.toNat - 32 := by
      exact toNat_ofNat_small _ (by omega)
    constructor
    · intro he; rw [he] at hv
      have : ('#' : Char).toNat = 35 := rfl
      omega
    · rintro rfl; revert h; decide
  · rfl

theorem upChar_of_not_letter (x : Char) (hx : x.toNat < 65 ∨ (90 < x.toNat)) (hx2 : x.toNat < 97)
    (c : Char) : upChar c = x ↔ c = x := by
  unfold upChar
  split
  · rename_i h
    have h1 : c.toNat ≤ 122 := h.2
    have h2 : 97 ≤ c.toNat := h.1
    have hv : (Char.ofNat (c.toNat - 32)).toNat = c.toNat - 32 := by
      exact toNat_ofNat_small _ (by omega)
    constructor
    · intro he; rw [he] at hv; omega
    · rintro rfl; omega
  · rfl

theorem upChar_bang (c : Char) : upChar c = '!' ↔ c = '!' :=
  upChar_of_not_letter _ (by decide) (by decide) c
theorem upChar_amp (c : Char) : upChar c = '&' ↔ c = '&' :=
  upChar_of_not_letter _ (by decide) (by decide) c

theorem isDigit_toNat (c : Char) : isDigit c = true ↔ 48 ≤ c.toNat ∧ c.toNat ≤ 57 := by
  unfold isDigit
  simp only [Bool.and_eq_true, decide_eq_true_eq]
  exact Iff.rfl

theorem isDigit_upChar (c : Char) : isDigit (upChar c) = isDigit c := by
  rw [Bool.eq_iff_iff, isDigit_toNat, isDigit_toNat]
  unfold upChar
  split
  · rename_i h
    have h1 : c.toNat ≤ 122 := h.2
    have h2 : 97 ≤ c.toNat := h.1
    have hv : (Char.ofNat (c.toNat - 32)).toNat = c.toNat - 32 := by
      exact toNat_ofNat_small _ (by omega)
    omega
  · rfl

theorem isAscii_upChar (c : Char) (h : isAscii c = true) : isAscii (upChar c) = true := by
  unfold isAscii at *
  simp at *
  unfold upChar
  split
  · rename_i h
    have hv : (Char.ofNat (c.toNat - 32)).toNat = c.toNat - 32 := by
      exact toNat_ofNat_small _ (by omega)
    omega
  · exact h

/-! ### Exact results of the scans -/

theorem cIsDigit_ok {c : Char} {b : Bool} (h : cIsDigit c = .ok b) : b = isDigit c := by
  unfold cIsDigit at h; split at h
  · simpa using h.symm
  · simp at h

theorem cIsSpace_ok {c : Char} {b : Bool} (h : cIsSpace c = .ok b) : b = isSpace c := by
  unfold cIsSpace at h; split at h
  · simpa using h.symm
  · simp at h

theorem cToUpper_ok {c d : Char} (h : cToUpper c = .ok d) : d = upChar c := by
  unfold cToUpper at h; split at h
  · simpa using h.symm
  · simp at h

theorem scanDigits_ok (k i : Nat) (s : Str) (r : Nat) (h : scanDigits k i s = .ok r) :
    r = i + ((s.take k).takeWhile isDigit).length := by
  induction k generalizing i s with
  | zero => simp [scanDigits] at h; simp [h]
  | succ k ih =>
    cases s with
    | nil => simp [scanDigits] at h; simp [h]
    | cons c cs =>
      simp only [scanDigits] at h
      obtain ⟨d, hd, h⟩ := Res.bind_ok h
      have := cIsDigit_ok hd
      subst this
      split at h
      · rename_i hd
        rw [ih _ _ h]
        simp [hd]; omega
      · rename_i hd
        simp at h
        simp [hd, h]

theorem scanSpaces_ok (i : Nat) (s : Str) (r : Nat) (h : scanSpaces i s = .ok r) :
    r = i + (s.takeWhile isSpace).length := by
  induction s generalizing i with
  | nil => simp [scanSpaces] at h; simp [h]
  | cons c cs ih =>
    simp only [scanSpaces] at h
    obtain ⟨d, hd, h⟩ := Res.bind_ok h
    have := cIsSpace_ok hd
    subst this
    split at h
    · rename_i hd
      rw [ih _ h]
      simp [hd]; omega
    · rename_i hd
      simp at h
      simp [hd, h]

theorem scanDigits_ascii (k i : Nat) (s : Str) (h : AsciiStr s) :
    ∃ r, scanDigits k i s = .ok r := by
  induction k generalizing i s with
  | zero => exact ⟨_, rfl⟩
  | succ k ih =>
    cases s with
    | nil => exact ⟨_, rfl⟩
    | cons c cs =>
      have hc : isAscii c = true := h c (by simp)
      simp only [scanDigits, cIsDigit, hc, if_true, Res.ok_bind]
      split
      · exact ih _ _ (fun x hx => h x (by simp [hx]))
      · exact ⟨_, rfl⟩

theorem scanSpaces_ascii (i : Nat) (s : Str) (h : AsciiStr s) :
    ∃ r, scanSpaces i s = .ok r := by
  induction s generalizing i with
  | nil => exact ⟨_, rfl⟩
  | cons c cs ih =>
    have hc : isAscii c = true := h c (by simp)
    simp only [scanSpaces, cIsSpace, hc, if_true, Res.ok_bind]
    split
    · exact ih _ (fun x hx => h x (by simp [hx]))
    · exact ⟨_, rfl⟩

theorem AsciiStr.drop {s : Str} (h : AsciiStr s) (n : Nat) : AsciiStr (s.drop n) :=
  fun c hc => h c (List.mem_of_mem_drop hc)

theorem AsciiStr.take {s : Str} (h : AsciiStr s) (n : Nat) : AsciiStr (s.take n) :=
  fun c hc => h c (List.mem_of_mem_take hc)

theorem drop_takeWhile_length (p : Char → Bool) (s : Str) :
    s.drop (s.takeWhile p).length = s.dropWhile p := by
  induction s with
  | nil => rfl
  | cons c cs ih => by_cases h : p c <;> simp [h, ih]

theorem take_takeWhile_length (p : Char → Bool) (s : Str) :
    s.take (s.takeWhile p).length = s.takeWhile p := by
  induction s with
  | nil => rfl
  | cons c cs ih => by_cases h : p c <;> simp [h, ih]

theorem take_indent (raw : Str) : raw.take (indent raw) = raw.takeWhile isBlankChar :=
  take_takeWhile_length _ _

theorem drop_indent (raw : Str) : raw.drop (indent raw) = body raw :=
  drop_takeWhile_length _ _

theorem blank_isSpace (c : Char) (h : isBlankChar c = true) : isSpace c = true := by
  unfold isBlankChar at h; unfold isSpace
  simp at h ⊢; tauto

end FLPR
