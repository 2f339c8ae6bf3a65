import Verif.Lexer.Run
/-!
# Blanks and the ends of tokens
-/

namespace FLPR
open Flex RE

namespace Spec

/-- The characters the scanner may drop. -/
def Blank (c : Char) : Prop := c = ' ' ∨ c = '\t' ∨ c = '\r' ∨ c = '\n'

end Spec
open Spec

theorem blank_der : ∀ x ∈ initialRules.take (keywords.length + symbols.length + 9),
    ∀ c ∈ [' ', '\t', '\r', '\n'], (RE.der c x.1).isEmpty = true := by decide +kernel

theorem blank_skip : initialRules.drop (keywords.length + symbols.length + 9) =
    [(oneOf [' ', '\t', '\r'], .skip), (dot, .ret Tag.UNKNOWN)] := by
  unfold initialRules
  rw [← List.drop_drop, List.drop_left' (by simp)]
  rfl

/-- A blank is never taken as a token. -/
theorem pick_blank_ne (c : Char) (cs : Str) (hc : Blank c) (n : Nat) (t : Int) :
    pick (rules .initial) (c :: cs) ≠ some (n, .ret t) := by
  intro hp
  have hsp := pick_spec (rules .initial) (c :: cs)
  rw [hp] at hsp
  obtain ⟨i, ⟨r, hr⟩, ⟨h0, hle, r', a', hr', hm⟩, hlong, hfirst⟩ := hsp
  rw [hr] at hr'
  simp at hr'
  obtain ⟨rfl, rfl⟩ := hr'
  have hrl : rules .initial = initialRules := rfl
  obtain ⟨n, rfl⟩ : ∃ k, n = k + 1 := ⟨n - 1, by omega⟩
  by_cases hi : i < keywords.length + symbols.length + 9
  · have hmem : (r, Act.ret t) ∈ initialRules.take (keywords.length + symbols.length + 9) := by
      apply List.mem_of_getElem? (i := i)
      rw [List.getElem?_take, if_pos hi, ← hrl, hr]
    have hd := blank_der _ hmem c (by
      rcases hc with rfl | rfl | rfl | rfl <;> simp)
    rw [List.take_succ_cons, ← Matches.der_iff] at hm
    exact Matches.isEmpty_false _ _ hd hm
  · obtain ⟨d, hid⟩ : ∃ d, i = (keywords.length + symbols.length + 9) + d :=
      ⟨i - (keywords.length + symbols.length + 9), by omega⟩
    have hget : ∀ d, (rules .initial)[(keywords.length + symbols.length + 9) + d]? =
        [(oneOf [' ', '\t', '\r'], Act.skip), (dot, .ret Tag.UNKNOWN)][d]? := by
      intro d
      rw [← blank_skip, List.getElem?_drop, hrl]
    rw [hid, hget] at hr
    generalize keywords.length + symbols.length + 9 = K at hid hget hi
    match d with
    | 0 => simp at hr
    | 1 =>
      simp at hr
      obtain ⟨rfl, rfl⟩ := hr
      unfold dot at hm
      rw [Matches.cls_iff] at hm
      obtain ⟨d, e, hd⟩ := hm
      rw [List.take_succ_cons] at e
      simp at e
      obtain ⟨rfl, e⟩ := e
      have h0 : n = 0 := by
        rcases e with rfl | rfl
        · rfl
        · simpa using hle
      subst h0
      have : c = '\n' ∨ (c = ' ' ∨ c = '\t' ∨ c = '\r') := by
        rcases hc with h | h | h | h <;> simp [h]
      rcases this with rfl | h
      · exact absurd hd (by decide)
      · have := hfirst (K + 0)
          ⟨h0, hle, _, _, by rw [hget]; rfl, by
            rw [m_oneOf]; exact ⟨c, by simp, by rcases h with rfl | rfl | rfl <;> decide⟩⟩
        omega
    | d + 2 => simp at hr

/-- No text matched by the expression ends with a blank. -/
def Flex.RE.lastOk : RE → Bool
  | .empty => true
  | .eps => true
  | .cls p => !p ' ' && !p '\t' && !p '\r' && !p '\n'
  | .seq a b => b.lastOk && (!b.nullable || a.lastOk)
  | .alt a b => a.lastOk && b.lastOk
  | .star a => a.lastOk

/-- No text matched by the expression starts with a blank. -/
def Flex.RE.firstOk : RE → Bool
  | .empty => true
  | .eps => true
  | .cls p => !p ' ' && !p '\t' && !p '\r' && !p '\n'
  | .seq a b => a.firstOk && (!a.nullable || b.firstOk)
  | .alt a b => a.firstOk && b.firstOk
  | .star a => a.firstOk

def NoBlankEnds (s : Str) : Prop := (∀ c ∈ s.head?, ¬ Blank c) ∧ (∀ c ∈ s.getLast?, ¬ Blank c)

theorem cls_noBlank (p : Char → Bool) (c : Char)
    (h : (!p ' ' && !p '\t' && !p '\r' && !p '\n') = true) (hc : p c = true) : ¬ Blank c := by
  rintro (rfl | rfl | rfl | rfl) <;> simp [hc] at h

theorem lastOk_spec (r : RE) (s : Str) (h : Matches r s) (hr : RE.lastOk r = true) :
    ∀ c ∈ s.getLast?, ¬ Blank c := by
  induction h with
  | eps => simp
  | cls hc =>
    intro c hcm
    simp at hcm
    subst hcm
    exact cls_noBlank _ _ hr hc
  | @seq a b s t h1 h2 ih1 ih2 =>
    simp only [RE.lastOk, Bool.and_eq_true] at hr
    intro c hc
    rw [List.getLast?_append] at hc
    cases ht : t.getLast? with
    | none =>
      rw [ht] at hc
      have htn : t = [] := by simpa using ht
      subst htn
      have : RE.nullable b = true := (Matches.nullable_iff b).mpr h2
      rw [this] at hr
      exact ih1 (by simpa using hr.2) c (by simpa using hc)
    | some d =>
      rw [ht] at hc
      simp at hc
      subst hc
      exact ih2 hr.1 d ht
  | altL _ ih => simp only [RE.lastOk, Bool.and_eq_true] at hr; exact ih hr.1
  | altR _ ih => simp only [RE.lastOk, Bool.and_eq_true] at hr; exact ih hr.2
  | starNil => simp
  | @starCons a s t h1 h2 ih1 ih2 =>
    intro c hc
    rw [List.getLast?_append] at hc
    cases ht : t.getLast? with
    | none => rw [ht] at hc; exact ih1 hr c (by simpa using hc)
    | some d =>
      rw [ht] at hc
      simp at hc
      subst hc
      exact ih2 hr d ht

theorem firstOk_spec (r : RE) (s : Str) (h : Matches r s) (hr : RE.firstOk r = true) :
    ∀ c ∈ s.head?, ¬ Blank c := by
  induction h with
  | eps => simp
  | cls hc =>
    intro c hcm
    simp at hcm
    subst hcm
    exact cls_noBlank _ _ hr hc
  | @seq a b s t h1 h2 ih1 ih2 =>
    simp only [RE.firstOk, Bool.and_eq_true] at hr
    intro c hc
    cases s with
    | nil =>
      have : RE.nullable a = true := (Matches.nullable_iff a).mpr h1
      rw [this] at hr
      exact ih2 (by simpa using hr.2) c (by simpa using hc)
    | cons d s =>
      simp at hc
      subst hc
      exact ih1 hr.1 d (by simp)
  | altL _ ih => simp only [RE.firstOk, Bool.and_eq_true] at hr; exact ih hr.1
  | altR _ ih => simp only [RE.firstOk, Bool.and_eq_true] at hr; exact ih hr.2
  | starNil => simp
  | @starCons a s t h1 h2 ih1 ih2 =>
    intro c hc
    cases s with
    | nil => exact ih2 hr c (by simpa using hc)
    | cons d s =>
      simp at hc
      subst hc
      exact ih1 hr d (by simp)

theorem ends_spec (r : RE) (s : Str) (h : Matches r s) (h1 : RE.firstOk r = true)
    (h2 : RE.lastOk r = true) : NoBlankEnds s := ⟨firstOk_spec r s h h1, lastOk_spec r s h h2⟩

theorem rules_lastOk : ∀ x ∈ initialRules.take (keywords.length + symbols.length + 9),
    RE.lastOk x.1 = true := by decide +kernel

/-- No token returned in the initial condition starts or ends with a blank. -/
theorem pick_ends (s : Str) (n : Nat) (t : Int) (hp : pick (rules .initial) s = some (n, .ret t)) :
    NoBlankEnds (s.take n) := by
  have hsp := pick_spec (rules .initial) s
  have hpp := hp
  rw [hp] at hsp
  obtain ⟨i, ⟨r, hr⟩, ⟨h0, hle, r', a', hr', hm⟩, _, _⟩ := hsp
  rw [hr] at hr'
  simp at hr'
  obtain ⟨rfl, rfl⟩ := hr'
  have hrl : rules .initial = initialRules := rfl
  obtain ⟨n, rfl⟩ : ∃ k, n = k + 1 := ⟨n - 1, by omega⟩
  have hfirst : ∀ c ∈ (s.take (n + 1)).head?, ¬ Blank c := by
    intro c hc hb
    cases s with
    | nil => simp at hc
    | cons d s =>
      simp at hc
      subst hc
      exact pick_blank_ne d s hb _ _ hpp
  refine ⟨hfirst, ?_⟩
  by_cases hi : i < keywords.length + symbols.length + 9
  · have hmem : (r, Act.ret t) ∈ initialRules.take (keywords.length + symbols.length + 9) := by
      apply List.mem_of_getElem? (i := i)
      rw [List.getElem?_take, if_pos hi, ← hrl, hr]
    exact lastOk_spec r _ hm (rules_lastOk _ hmem)
  · obtain ⟨d, hid⟩ : ∃ d, i = (keywords.length + symbols.length + 9) + d :=
      ⟨i - (keywords.length + symbols.length + 9), by omega⟩
    have hget : ∀ d, (rules .initial)[(keywords.length + symbols.length + 9) + d]? =
        [(oneOf [' ', '\t', '\r'], Act.skip), (dot, .ret Tag.UNKNOWN)][d]? := by
      intro d
      rw [← blank_skip, List.getElem?_drop, hrl]
    rw [hid, hget] at hr
    generalize keywords.length + symbols.length + 9 = K at hid hget hi
    match d with
    | 0 => simp at hr
    | 1 =>
      simp at hr
      obtain ⟨rfl, rfl⟩ := hr
      unfold dot at hm
      rw [Matches.cls_iff] at hm
      obtain ⟨c, e, hd⟩ := hm
      rw [e] at hfirst ⊢
      simpa using hfirst
    | d + 2 => simp at hr

theorem signif_ends {s : Str} (h : Matches SIGNIFICAND s) : NoBlankEnds s :=
  ends_spec _ s h (by decide +kernel) (by decide +kernel)

theorem digits_ends {s : Str} (h : Matches (plus DIGIT) s) : NoBlankEnds s :=
  ends_spec _ s h (by decide +kernel) (by decide +kernel)

theorem kind_ends {s : Str} (h : Matches KIND s) : NoBlankEnds s :=
  ends_spec _ s h (by decide +kernel) (by decide +kernel)

theorem signed_ends {s : Str} (h : IsSigned s) : NoBlankEnds s := by
  rw [← m_signed] at h
  exact ends_spec _ s h (by decide +kernel) (by decide +kernel)

theorem expLetter_ends (c : Char) (h : isExpLetter c = true) : NoBlankEnds [c] := by
  have : ¬ Blank c := by
    rintro (rfl | rfl | rfl | rfl) <;> revert h <;> decide
  exact ⟨by simpa using this, by simpa using this⟩

end FLPR
