import Verif.Utils.Model
import Verif.LogicalFile.ScanLemmas2
/-!
# Properties of the string utilities (C37) and of the file type (C35)
-/

namespace FLPR
open Spec

namespace Spec

/-- `ws` are the maximal delimiter-free pieces of `s`, in order. -/
inductive Words (d : Char) : Str → List Str → Prop
  | nil : Words d [] []
  | delim {s : Str} {ws : List Str} : Words d s ws → Words d (d :: s) ws
  | word {w s : Str} {ws : List Str} : w ≠ [] → d ∉ w → (s = [] ∨ s.head? = some d) →
      Words d s ws → Words d (w ++ s) (w :: ws)

/-- ASCII letters in the two cases. -/
def upperCase (c : Char) : Prop := 'A' ≤ c ∧ c ≤ 'Z'
/-- ASCII letters in the two cases. -/
def lowerCase (c : Char) : Prop := 'a' ≤ c ∧ c ≤ 'z'

end Spec

theorem dropSpaces_ok {s t : Str} (h : dropSpaces s = .ok t) : t = s.dropWhile isSpace := by
  induction s with
  | nil => simp [dropSpaces] at h; simp [h]
  | cons c cs ih =>
    unfold dropSpaces at h
    rbind h with b hb
    have := cIsSpace_ok hb
    subst this
    rw [List.dropWhile_cons]
    split at h
    · rename_i hc; rw [if_pos hc]; exact ih h
    · rename_i hc; rw [if_neg hc]; simpa using h.symm

theorem dropSpaces_ascii {s : Str} (h : AsciiStr s) :
    dropSpaces s = .ok (s.dropWhile isSpace) := by
  induction s with
  | nil => rfl
  | cons c cs ih =>
    unfold dropSpaces
    have hc : cIsSpace c = .ok (isSpace c) := by simp [cIsSpace, h c (by simp)]
    rw [hc, List.dropWhile_cons]
    simp only [Res.ok_bind]
    split
    · exact ih (fun x hx => h x (by simp [hx]))
    · rfl

theorem dropWhile_head (p : Char → Bool) (s : Str) (c : Char)
    (h : (s.dropWhile p).head? = some c) : p c = false := head?_dropWhile p s c h

/-- **C37** `trim` removes white space at both ends and nothing else: the result starts and ends
with a character that is not white space, or is empty. -/
theorem C37_trim (s t : Str) (h : trim s = .ok t) :
    (∃ a b, s = a ++ t ++ b ∧ (∀ c ∈ a, isSpace c = true) ∧ (∀ c ∈ b, isSpace c = true)) ∧
    (∀ c, t.head? = some c → isSpace c = false) ∧
    (∀ c, t.getLast? = some c → isSpace c = false) := by
  unfold trim at h
  rbind h with f hf
  rbind h with b hb
  have e1 := dropSpaces_ok hf
  have e2 := dropSpaces_ok hb
  simp at h
  have ht : t = (f.reverse.dropWhile isSpace).reverse := by rw [← h, e2]
  have hff : f = t ++ (f.reverse.takeWhile isSpace).reverse := by
    have := List.takeWhile_append_dropWhile (p := isSpace) (l := f.reverse)
    have h2 := congrArg List.reverse this
    rw [List.reverse_append, List.reverse_reverse] at h2
    rw [ht]; exact h2.symm
  have hss : s = s.takeWhile isSpace ++ f := by
    rw [e1]; exact (List.takeWhile_append_dropWhile ..).symm
  refine ⟨⟨s.takeWhile isSpace, (f.reverse.takeWhile isSpace).reverse, ?_, ?_, ?_⟩, ?_, ?_⟩
  · rw [List.append_assoc, ← hff]; exact hss
  · intro c hc; exact List.mem_takeWhile_imp hc
  · intro c hc; exact List.mem_takeWhile_imp (List.mem_reverse.mp hc)
  · intro c hc
    cases ht' : t with
    | nil => rw [ht'] at hc; simp at hc
    | cons x xs =>
      rw [ht'] at hc; simp at hc; subst hc
      have : f.head? = some x := by rw [hff, ht']; rfl
      rw [e1] at this
      exact dropWhile_head isSpace s x this
  · intro c hc
    rw [ht, List.getLast?_reverse] at hc
    exact dropWhile_head isSpace _ c hc

/-- **C37** (outcome of `trim`) -/
theorem C37_trim_outcome (s : Str) (h : AsciiStr s) : ∃ t, trim s = .ok t := by
  unfold trim
  rw [dropSpaces_ascii h]
  simp only [Res.ok_bind]
  rw [dropSpaces_ascii (fun c hc => h c ?_)]
  · exact ⟨_, rfl⟩
  · exact (List.dropWhile_suffix isSpace).mem (List.mem_reverse.mp hc)

example : trim " \t a b\n ".toList = .ok "a b".toList := by decide
example : trim " \t ".toList = .ok [] := by decide

/-- **C37** `trim_back` and `trim_back_copy` remove trailing blanks and tabs and nothing else. -/
theorem C37_trim_back (s : Str) :
    (∃ b, s = trimBack s ++ b ∧ ∀ c ∈ b, c = ' ' ∨ c = '\t') ∧
    (∀ c, (trimBack s).getLast? = some c → c ≠ ' ' ∧ c ≠ '\t') := by
  have key : trimBack s = s.take (lastNotOfSucc [' ', '\t'] s) := by
    unfold trimBack
    split <;> rename_i h <;> simp [h]
  rw [key]
  refine ⟨⟨s.drop (lastNotOfSucc [' ', '\t'] s), (List.take_append_drop _ _).symm, ?_⟩, ?_⟩
  · intro c hc
    simpa using lastNotOfSucc_drop [' ', '\t'] s c hc
  · intro c hc
    have := lastNotOfSucc_last [' ', '\t'] s c hc
    simpa using this

example : trimBack " a b\t ".toList = " a b".toList := by decide

/-- **C37** `last_non_blank_char` is NUL for an all-blank text, otherwise the last character that is
neither blank nor tab. -/
theorem C37_last_non_blank (s : Str) :
    ((∀ c ∈ s, c = ' ' ∨ c = '\t') ∧ lastNonBlankChar s = NUL) ∨
    (∃ a b, s = a ++ lastNonBlankChar s :: b ∧ lastNonBlankChar s ≠ ' ' ∧
      lastNonBlankChar s ≠ '\t' ∧ ∀ c ∈ b, c = ' ' ∨ c = '\t') := by
  unfold lastNonBlankChar
  split
  · rename_i h
    left
    refine ⟨?_, rfl⟩
    intro c hc
    have := lastNotOfSucc_drop [' ', '\t'] s c (by rw [h]; exact hc)
    simpa using this
  · rename_i k hk
    right
    have hle := lastNotOfSucc_le [' ', '\t'] s
    have hlt : k < s.length := by omega
    have hg : s.getD k NUL = s[k] := by simp [List.getD_eq_getElem?_getD, hlt]
    have hlast := lastNotOfSucc_last [' ', '\t'] s s[k] (by
      rw [hk, List.getLast?_take]; simp [hlt])
    simp at hlast
    refine ⟨s.take k, s.drop (k + 1), ?_, ?_, ?_, ?_⟩
    · rw [hg, List.getElem_cons_drop, List.take_append_drop]
    · rw [hg]; exact hlast.1
    · rw [hg]; exact hlast.2
    · intro c hc
      have := lastNotOfSucc_drop [' ', '\t'] s c (by rw [hk]; exact hc)
      simpa using this

/-! ### `simple_tokenize` -/

theorem words_delim_head {d : Char} {w s : Str} {ts : List Str} (hd : d ∉ w)
    (h : Words d s ts) (hs : s = [] ∨ s.head? = some d) :
    Words d (w ++ s) (if w = [] then ts else w :: ts) := by
  split
  · rename_i hw; subst hw; simpa using h
  · rename_i hw; exact Words.word hw hd hs h

theorem tokenizeGo_words {d : Char} {w s : Str} {ts : List Str} (hd : d ∉ w)
    (h : tokenizeGo false d w s = .ok ts) : Words d (w ++ s) ts := by
  induction s generalizing w ts with
  | nil =>
    simp [tokenizeGo] at h
    have := words_delim_head (s := []) hd Words.nil (Or.inl rfl)
    rw [← h]; exact this
  | cons c cs ih =>
    unfold tokenizeGo at h
    split at h
    · rename_i hc
      subst hc
      rbind h with ts' hts
      simp at h
      have := ih (w := []) (by simp) hts
      have := words_delim_head (w := w) hd (Words.delim this) (Or.inr rfl)
      rw [← h]; exact this
    · rename_i hc
      have := ih (w := w ++ [c]) (by simp [hd]; exact fun e => hc e.symm) h
      simpa using this

/-- **C37** (`simple_tokenize`) The words between the delimiters are appended, in order.  Missing
from the full claim: the code increments a past-the-end iterator, so under a strict reading of the
standard every call has undefined behaviour (`C37_simple_tokenize_violation`); this theorem takes
that increment to be harmless. -/
theorem C37_simple_tokenize_partial (s : Str) (t : List Str) (d : Char) :
    ∃ ws, simpleTokenize false s t d = .ok (t ++ ws) ∧ Words d s ws := by
  have tot : ∀ (s w : Str), ∃ ts, tokenizeGo false d w s = .ok ts := by
    intro s
    induction s with
    | nil => intro w; exact ⟨_, rfl⟩
    | cons c cs ih =>
      intro w
      unfold tokenizeGo
      split
      · obtain ⟨ts, h⟩ := ih []
        rw [h]; exact ⟨_, rfl⟩
      · exact ih _
  obtain ⟨ts, h⟩ := tot s []
  exact ⟨ts, by simp [simpleTokenize, h], by simpa using tokenizeGo_words (w := []) (by simp) h⟩

/-- The specification determines the words. -/
theorem words_unique {d : Char} {s : Str} {a b : List Str} (h1 : Words d s a) (h2 : Words d s b) :
    a = b := by
  induction h1 generalizing b with
  | nil =>
    generalize hs : ([] : Str) = s at h2
    cases h2 with
    | nil => rfl
    | delim h => simp at hs
    | word hw _ _ _ => simp at hs; exact absurd hs.1 hw
  | @delim s ws h ih =>
    generalize hs : d :: s = s' at h2
    cases h2 with
    | nil => simp at hs
    | delim h' => simp at hs; subst hs; exact ih h'
    | @word w _ _ hw hd _ _ =>
      cases w with
      | nil => exact absurd rfl hw
      | cons c cs => simp at hs; exact absurd (by simp [hs.1]) hd
  | @word w s ws hw hd hs h ih =>
    generalize he : w ++ s = s' at h2
    cases h2 with
    | nil => simp at he; exact absurd he.1 hw
    | delim h' =>
      cases w with
      | nil => exact absurd rfl hw
      | cons c cs => simp at he; exact absurd (by simp [he.1]) hd
    | @word w' s'' ws' hw' hd' hs' h' =>
      have hww : w = w' ∧ s = s'' := by
        have key : ∀ (x y : Str), d ∉ x → (y = [] ∨ y.head? = some d) →
            (x ++ y).takeWhile (· != d) = x ∧ (x ++ y).dropWhile (· != d) = y := by
          intro x y hx hy
          induction x with
          | nil =>
            rcases hy with rfl | hy
            · simp
            · cases y with
              | nil => simp
              | cons c cs => simp at hy; subst hy; simp
          | cons c cs ih =>
            have hc : (c != d) = true := by
              simp; intro e; exact hx (by simp [e])
            have := ih (fun e => hx (by simp [e]))
            simp [hc, this.1, this.2]
        have k1 := key w s hd hs
        have k2 := key w' s'' hd' hs'
        rw [he] at k1
        exact ⟨k1.1.symm.trans k2.1, k1.2.symm.trans k2.2⟩
      obtain ⟨rfl, rfl⟩ := hww
      rw [ih h']

/-- Under the strict reading every call is undefined. -/
theorem C37_simple_tokenize_violation (s : Str) (t : List Str) (d : Char) :
    simpleTokenize true s t d = .error .ub := by
  have : ∀ (s w : Str), tokenizeGo true d w s = .error .ub := by
    intro s
    induction s with
    | nil => intro w; rfl
    | cons c cs ih =>
      intro w
      unfold tokenizeGo
      split
      · rw [ih]; rfl
      · exact ih _
  simp [simpleTokenize, this]

example : simpleTokenize false " a  bc d".toList ["x".toList] ' ' =
    .ok ["x".toList, "a".toList, "bc".toList, "d".toList] := by decide

/-! ### Case conversion -/

/-- **C37** `tolower` on a string changes the upper-case ASCII letters to the corresponding
lower-case ones and nothing else. -/
theorem C37_tolower (s t : Str) (h : strToLower s = .ok t) :
    t.length = s.length ∧ ∀ i (hi : i < s.length) (hj : i < t.length),
      (upperCase s[i] → t[i].toNat = s[i].toNat + 32 ∧ lowerCase t[i]) ∧
      (¬ upperCase s[i] → t[i] = s[i]) := by
  have := strToLower_ok h
  subst this
  refine ⟨by simp, ?_⟩
  intro i hi hj
  simp only [List.getElem_map]
  generalize s[i] = c
  unfold lowChar upperCase lowerCase
  constructor
  · intro hc
    rw [if_pos hc]
    have h1 : 65 ≤ c.toNat := hc.1
    have h2 : c.toNat ≤ 90 := hc.2
    have h3 : (Char.ofNat (c.toNat + 32)).toNat = c.toNat + 32 := toNat_ofNat_small _ (by omega)
    refine ⟨h3, ?_, ?_⟩
    · show 97 ≤ (Char.ofNat (c.toNat + 32)).toNat; omega
    · show (Char.ofNat (c.toNat + 32)).toNat ≤ 122; omega
  · intro hc; rw [if_neg hc]

/-- **C37** `toupper` on a string changes the lower-case ASCII letters to the corresponding
upper-case ones and nothing else. -/
theorem C37_toupper (s t : Str) (h : strToUpper s = .ok t) :
    t.length = s.length ∧ ∀ i (hi : i < s.length) (hj : i < t.length),
      (lowerCase s[i] → t[i].toNat + 32 = s[i].toNat ∧ upperCase t[i]) ∧
      (¬ lowerCase s[i] → t[i] = s[i]) := by
  have : t = s.map upChar := by

    induction s generalizing t with
    | nil => simp [strToUpper] at h; simp [h]
    | cons c cs ih =>
      unfold strToUpper at h
      rbind h with d hd
      rbind h with ds hds
      simp at h
      rw [← h, ih _ hds, cToUpper_ok hd]
      rfl
  subst this
  refine ⟨by simp, ?_⟩
  intro i hi hj
  simp only [List.getElem_map]
  generalize s[i] = c
  unfold upChar upperCase lowerCase
  constructor
  · intro hc
    rw [if_pos hc]
    have h1 : 97 ≤ c.toNat := hc.1
    have h2 : c.toNat ≤ 122 := hc.2
    have h3 : (Char.ofNat (c.toNat - 32)).toNat = c.toNat - 32 := toNat_ofNat_small _ (by omega)
    refine ⟨by omega, ?_, ?_⟩
    · show 65 ≤ (Char.ofNat (c.toNat - 32)).toNat; omega
    · show (Char.ofNat (c.toNat - 32)).toNat ≤ 90; omega
  · intro hc; rw [if_neg hc]

/-- **C37** (outcome of the case conversions) They return on ASCII text; on a text with a byte
outside ASCII the argument of `std::tolower` is out of its domain. -/
theorem C37_case_outcome (s : Str) :
    (AsciiStr s ↔ ∃ t, strToLower s = .ok t) ∧ (AsciiStr s ↔ ∃ t, strToUpper s = .ok t) := by
  constructor
  · constructor
    · intro h; exact ⟨_, strToLower_ascii h⟩
    · rintro ⟨t, h⟩
      induction s generalizing t with
      | nil => simp [AsciiStr]
      | cons c cs ih =>
        unfold strToLower at h
        rbind h with d hd
        rbind h with ds hds
        intro x hx
        rcases List.mem_cons.mp hx with rfl | hx
        · unfold cToLower at hd
          split at hd
          · assumption
          · simp at hd
        · exact ih _ hds x hx
  · constructor
    · intro h
      induction s with
      | nil => exact ⟨_, rfl⟩
      | cons c cs ih =>
        obtain ⟨t, ht⟩ := ih (fun x hx => h x (by simp [hx]))
        unfold strToUpper
        simp [cToUpper, h c (by simp), ht]
    · rintro ⟨t, h⟩
      induction s generalizing t with
      | nil => simp [AsciiStr]
      | cons c cs ih =>
        unfold strToUpper at h
        rbind h with d hd
        rbind h with ds hds
        intro x hx
        rcases List.mem_cons.mp hx with rfl | hx
        · unfold cToUpper at hd
          split at hd
          · assumption
          · simp at hd
        · exact ih _ hds x hx

example : strToLower "Do_10 [".toList = .ok "do_10 [".toList ∧
    strToUpper "do_10 {".toList = .ok "DO_10 {".toList := by decide

/-! ## C35 -/

/-- What the extension says. -/
def Spec.extType (ext : Str) : FileType :=
  if ext ∈ ["f".toList, "F".toList, "F90".toList] then .fixedfmt
  else if ext = "f90".toList then .freefmt else .unknown

/-- **C35** (names with a dot) The type is decided by the text after the last dot. -/
theorem C35_extension (base ext : Str) (h : '.' ∉ ext) :
    fileTypeFromExtension (base ++ '.' :: ext) = .ok (extType ext) := by
  have hf : findLast '.' (base ++ '.' :: ext) = some base.length := by
    unfold findLast
    have h1 : (base ++ '.' :: ext).reverse.findIdx? (· == '.') = some ext.length := by
      rw [List.findIdx?_eq_some_iff_getElem]
      refine ⟨by simp, ?_, ?_⟩
      · simp
      · intro j hj
        have : ((base ++ '.' :: ext).reverse)[j]'(by simp; omega) = ext.reverse[j]'(by simpa) := by
          simp only [List.reverse_append, List.reverse_cons, List.append_assoc]
          rw [List.getElem_append_left (by simpa)]
        rw [this]
        simp only [beq_iff_eq]
        intro e
        exact h (List.mem_reverse.mp (e ▸ List.getElem_mem _))
    rw [h1]
    simp
  unfold fileTypeFromExtension
  rw [hf]
  simp [substrFrom, extType]

/-- **C35** (names without a dot) The type is unknown. -/
theorem C35_no_extension (name : Str) (h : '.' ∉ name) :
    fileTypeFromExtension name = .ok .unknown := by
  unfold fileTypeFromExtension findLast
  have : name.reverse.findIdx? (· == '.') = none := by
    rw [List.findIdx?_eq_none_iff]
    intro x hx
    simp
    intro e
    exact h (by rw [← e]; exact List.mem_reverse.mp hx)
  rw [this]

/-- **C35** (explicit type) A type given by the caller wins; otherwise the extension decides. -/
theorem C35_given (name : Str) (t : FileType) :
    (t ≠ .unknown → fileInfoType name t = .ok t) ∧
    fileInfoType name .unknown = fileTypeFromExtension name := by
  constructor
  · intro h; simp [fileInfoType, h]
  · rfl

example : fileTypeFromExtension "a.b/x.f90".toList = .ok .freefmt ∧
    fileTypeFromExtension "x.F90".toList = .ok .fixedfmt ∧
    fileTypeFromExtension "x.f90.bak".toList = .ok .unknown := by decide

end FLPR
