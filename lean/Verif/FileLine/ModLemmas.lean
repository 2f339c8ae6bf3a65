import Verif.FileLine.FreeProps
/-! # Helper lemmas for the line modifiers -/

namespace FLPR
open Spec

theorem findFirst_blank_some {s : Str} {pos : Nat} (h : findFirstNotOf [' '] s = some pos) :
    pos < s.length ∧ s.take pos = blanks pos ∧
      ∃ c t, s.drop pos = c :: t ∧ c ≠ ' ' := by
  unfold findFirstNotOf at h
  induction s generalizing pos with
  | nil => simp at h
  | cons c cs ih =>
    rw [List.findIdx?_cons] at h
    by_cases hc : c = ' '
    · subst hc
      simp at h
      obtain ⟨a, ha, rfl⟩ := h
      obtain ⟨h1, h2, h3⟩ := ih (by simpa using ha)
      refine ⟨by simp; omega, ?_, by simpa using h3⟩
      simp [h2, blanks, List.replicate_succ]
    · simp [hc] at h
      subst h
      exact ⟨by simp, rfl, c, cs, rfl, hc⟩

theorem findFirst_blank_none {s : Str} (h : findFirstNotOf [' '] s = none) :
    s = blanks s.length := by
  unfold findFirstNotOf at h
  rw [List.findIdx?_eq_none_iff] at h
  unfold blanks
  refine List.eq_replicate_iff.mpr ⟨rfl, fun c hc => ?_⟩
  simpa using h c hc

theorem findFirst_blank_cons {c : Char} {t : Str} (h : c ≠ ' ') :
    findFirstNotOf [' '] (c :: t) = some 0 := by
  unfold findFirstNotOf; simp [List.findIdx?_cons, h]

theorem findChar_some {c : Char} {s : Str} {k : Nat} (h : findChar c s = some k) :
    k < s.length ∧ c ∉ s.take k ∧ ∃ t, s.drop k = c :: t := by
  unfold findChar at h
  induction s generalizing k with
  | nil => simp at h
  | cons d cs ih =>
    rw [List.findIdx?_cons] at h
    by_cases hc : d = c
    · subst hc
      simp at h
      subst h
      exact ⟨by simp, by simp, cs, rfl⟩
    · simp [hc] at h
      obtain ⟨a, ha, rfl⟩ := h
      obtain ⟨h1, h2, h3⟩ := ih ha
      exact ⟨by simp; omega, by simp [h2]; exact fun hx => hc hx.symm, by simpa using h3⟩

theorem findChar_none {c : Char} {s : Str} (h : findChar c s = none) : c ∉ s := by
  unfold findChar at h
  rw [List.findIdx?_eq_none_iff] at h
  intro hc
  simpa using h c hc

theorem findChar_append_of_notMem {c : Char} {a t : Str} (h : c ∉ a) :
    findChar c (a ++ c :: t) = some a.length := by
  unfold findChar
  induction a with
  | nil => simp [List.findIdx?_cons]
  | cons d ds ih =>
    rw [List.cons_append, List.findIdx?_cons]
    have hd : ¬ d = c := fun hx => h (by simp [hx])
    simp [hd, ih (fun hx => h (by simp [hx]))]

theorem natToStr_length {n : Nat} (h : n ≤ 99999) :
    0 < (natToStr n).length ∧ (natToStr n).length ≤ 5 := by
  refine ⟨Nat.length_toDigits_pos, ?_⟩
  unfold natToStr
  rw [Nat.length_toDigits_le_iff (by decide) (by decide)]
  omega

theorem natToStr_digit {n : Nat} {c : Char} (h : c ∈ natToStr n) : isDigit c = true := by
  have := Nat.isDigit_of_mem_toDigits (by decide) (by decide) h
  simp only [Char.isDigit] at this
  unfold isDigit
  simp only [Bool.and_eq_true, decide_eq_true_eq, ge_iff_le] at this ⊢
  exact this

end FLPR
