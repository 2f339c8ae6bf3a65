import Verif.Case.Spec
import Verif.StmtParser.AlikeLemmas
import Verif.Program.AlikeLemmas
/-!
# Case of letters: characters and texts
-/

namespace FLPR
open Spec

/-- The same character but for case. -/
def CharEq (c d : Char) : Prop := lowChar d = lowChar c

theorem sl_refl (a : Str) : SameLetters a a := rfl
theorem sl_symm {a b : Str} (h : SameLetters a b) : SameLetters b a := Eq.symm h
theorem sl_length {a b : Str} (h : SameLetters a b) : b.length = a.length := by simpa using congrArg List.length h
theorem sl_nil {b : Str} : SameLetters [] b ↔ b = [] := by
  unfold SameLetters
  simp
theorem sl_cons {c : Char} {a b : Str} : SameLetters (c :: a) b ↔ ∃ d b', b = d :: b' ∧ CharEq c d ∧ SameLetters a b' := by
  unfold SameLetters CharEq
  cases b with
  | nil => simp
  | cons d b => simp
theorem sl_cons' {c d : Char} {a b : Str} (h : CharEq c d) (hs : SameLetters a b) : SameLetters (c :: a) (d :: b) :=
  sl_cons.mpr ⟨d, b, rfl, h, hs⟩
theorem sl_take {a b : Str} (h : SameLetters a b) (n : Nat) : SameLetters (a.take n) (b.take n) := by
  unfold SameLetters at h ⊢
  rw [List.map_take, List.map_take, h]
theorem sl_drop {a b : Str} (h : SameLetters a b) (n : Nat) : SameLetters (a.drop n) (b.drop n) := by
  unfold SameLetters at h ⊢
  rw [List.map_drop, List.map_drop, h]
theorem sl_append {a b c d : Str} (h : SameLetters a b) (h' : SameLetters c d) : SameLetters (a ++ c) (b ++ d) := by
  unfold SameLetters at h h' ⊢
  rw [List.map_append, List.map_append, h, h']
theorem sl_isEmpty {a b : Str} (h : SameLetters a b) : b = [] ↔ a = [] := by
  rw [← List.length_eq_zero_iff, ← List.length_eq_zero_iff, sl_length h]

theorem sl_getD {a b : Str} (h : SameLetters a b) (i : Nat) : CharEq (a.getD i NUL) (b.getD i NUL) := by
  unfold SameLetters at h
  unfold CharEq
  have e : ∀ s : Str, lowChar (s.getD i NUL) = (s.map lowChar).getD i NUL := by
    intro s
    rw [List.getD_eq_getElem?_getD, List.getD_eq_getElem?_getD, List.getElem?_map]
    cases s[i]? with
    | none => simp; decide
    | some c => simp
  rw [e, e, h]

/-- A character that is no letter. -/
def NoLetter (d : Char) : Prop := d.toNat < 65 ∨ (90 < d.toNat ∧ d.toNat < 97) ∨ 122 < d.toNat

theorem noLetter_low {c d : Char} (hd : NoLetter d) : lowChar c = d ↔ c = d := by
  by_cases h : 'A' ≤ c ∧ c ≤ 'Z'
  · have := lowChar_upper h
    constructor
    · intro e; rw [e] at this; rcases hd with hd | hd | hd <;> omega
    · intro e; rw [e] at this; rcases hd with hd | hd | hd <;> omega
  · rw [lowChar_id h]

theorem charEq_iff {c c' d : Char} (h : CharEq c c') (hd : NoLetter d) : c' = d ↔ c = d := by
  rw [← noLetter_low hd, ← noLetter_low (c := c) hd, h]

theorem charEq_beq {c c' d : Char} (h : CharEq c c') (hd : NoLetter d) : (c' == d) = (c == d) := by
  rw [Bool.eq_iff_iff, beq_iff_eq, beq_iff_eq, charEq_iff h hd]

theorem isAscii_low (c : Char) : isAscii (lowChar c) = isAscii c := by
  by_cases h : 'A' ≤ c ∧ c ≤ 'Z'
  · have := lowChar_upper h
    unfold isAscii
    rw [Bool.eq_iff_iff, decide_eq_true_eq, decide_eq_true_eq]
    omega
  · rw [lowChar_id h]

theorem charEq_ascii {c c' : Char} (h : CharEq c c') : isAscii c' = isAscii c := by
  rw [← isAscii_low, h, isAscii_low]

theorem charEq_space {c c' : Char} (h : CharEq c c') : isSpace c' = isSpace c := by
  rw [← isSpace_low, h, isSpace_low]

theorem charEq_digit {c c' : Char} (h : CharEq c c') : isDigit c' = isDigit c := by
  rw [← isDigit_low, h, isDigit_low]

theorem upChar_low (c : Char) : upChar (lowChar c) = upChar c := by
  by_cases h : 'A' ≤ c ∧ c ≤ 'Z'
  · have h0 := lowChar_upper h
    have h1 : ('a' ≤ lowChar c ∧ lowChar c ≤ 'z') := ⟨h0.1, h0.2.1⟩
    have h2 : ¬ ('a' ≤ c ∧ c ≤ 'z') := by
      rintro ⟨h2, _⟩
      have : 97 ≤ c.toNat := h2
      omega
    unfold upChar
    rw [if_pos h1, if_neg h2]
    have : (lowChar c).toNat = c.toNat + 32 := by
      have hv : (c.toNat + 32).isValidChar := .inl (by omega)
      unfold lowChar
      rw [if_pos h]
      unfold Char.ofNat
      rw [dif_pos hv]
      rfl
    rw [this, Nat.add_sub_cancel, Char.ofNat_toNat]
  · rw [lowChar_id h]

theorem charEq_up {c c' : Char} (h : CharEq c c') : upChar c' = upChar c := by
  rw [← upChar_low, h, upChar_low]

theorem cIsSpace_case {c c' : Char} (h : CharEq c c') : cIsSpace c' = cIsSpace c := by
  unfold cIsSpace
  rw [charEq_ascii h, charEq_space h]

theorem cIsDigit_case {c c' : Char} (h : CharEq c c') : cIsDigit c' = cIsDigit c := by
  unfold cIsDigit
  rw [charEq_ascii h, charEq_digit h]

theorem cToUpper_case {c c' : Char} (h : CharEq c c') : cToUpper c' = cToUpper c := by
  unfold cToUpper
  rw [charEq_ascii h, charEq_up h]

theorem cToLower_case {c c' : Char} (h : CharEq c c') : cToLower c' = cToLower c := by
  unfold cToLower
  rw [charEq_ascii h, h]

/-! ### Searches -/

theorem findIdx_case {p : Char → Bool} (hp : ∀ c c', CharEq c c' → p c' = p c) : ∀ {a b : Str}, SameLetters a b → b.findIdx? p = a.findIdx? p
  | [], b, h => by rw [sl_nil.mp h]
  | c :: a, b, h => by
    obtain ⟨d, b', rfl, h1, h2⟩ := sl_cons.mp h
    rw [List.findIdx?_cons, List.findIdx?_cons, hp c d h1, findIdx_case hp h2]

theorem contains_case {set : Str} (hs : ∀ d ∈ set, NoLetter d) {c c' : Char} (h : CharEq c c') : set.contains c' = set.contains c := by
  rw [Bool.eq_iff_iff, List.contains_iff_mem, List.contains_iff_mem]
  constructor
  · intro hc; rwa [← (charEq_iff h (hs _ hc)).mp rfl] at hc
  · intro hc
    have := (charEq_iff h (hs _ hc)).mpr rfl
    rwa [this]

theorem findFirstNotOf_case {set : Str} (hs : ∀ d ∈ set, NoLetter d) {a b : Str} (h : SameLetters a b) :
    findFirstNotOf set b = findFirstNotOf set a := by
  unfold findFirstNotOf
  exact findIdx_case (fun c c' hc => by rw [contains_case hs hc]) h

theorem findChar_case {d : Char} (hd : NoLetter d) {a b : Str} (h : SameLetters a b) : findChar d b = findChar d a := by
  unfold findChar
  exact findIdx_case (fun c c' hc => charEq_beq hc hd) h

theorem dropWhile_case {p : Char → Bool} (hp : ∀ c c', CharEq c c' → p c' = p c) : ∀ {a b : Str}, SameLetters a b →
    SameLetters (a.dropWhile p) (b.dropWhile p)
  | [], b, h => by rw [sl_nil.mp h]; exact sl_refl _
  | c :: a, b, h => by
    obtain ⟨d, b', rfl, h1, h2⟩ := sl_cons.mp h
    rw [List.dropWhile_cons, List.dropWhile_cons, hp c d h1]
    split
    · exact dropWhile_case hp h2
    · exact h

theorem takeWhile_case {p : Char → Bool} (hp : ∀ c c', CharEq c c' → p c' = p c) : ∀ {a b : Str}, SameLetters a b →
    SameLetters (a.takeWhile p) (b.takeWhile p)
  | [], b, h => by rw [sl_nil.mp h]; exact sl_refl _
  | c :: a, b, h => by
    obtain ⟨d, b', rfl, h1, h2⟩ := sl_cons.mp h
    rw [List.takeWhile_cons, List.takeWhile_cons, hp c d h1]
    split
    · exact sl_cons' h1 (takeWhile_case hp h2)
    · exact sl_refl _

theorem sl_reverse {a b : Str} (h : SameLetters a b) : SameLetters a.reverse b.reverse := by
  unfold SameLetters at h ⊢
  rw [List.map_reverse, List.map_reverse, h]

theorem lastNotOf_case {set : Str} (hs : ∀ d ∈ set, NoLetter d) {a b : Str} (h : SameLetters a b) :
    lastNotOfSucc set b = lastNotOfSucc set a := by
  unfold lastNotOfSucc
  exact sl_length (dropWhile_case (fun c c' hc => contains_case hs hc) (sl_reverse h))

theorem blanks_noLetter : ∀ d ∈ [' ', '\t'], NoLetter d := by
  intro d hd
  simp only [List.mem_cons, List.not_mem_nil, or_false] at hd
  rcases hd with rfl | rfl <;> exact .inl (by decide)

theorem blanksR_noLetter : ∀ d ∈ [' ', '\t', '\r'], NoLetter d := by
  intro d hd
  simp only [List.mem_cons, List.not_mem_nil, or_false] at hd
  rcases hd with rfl | rfl | rfl <;> exact .inl (by decide)

theorem substr_case {a b : Str} (h : SameLetters a b) (p n : Nat) : BothWays SameLetters (substr a p n) (substr b p n) := by
  unfold substr
  rw [sl_length h]
  exact SP.BW.ite (fun _ => SP.BW.ok (sl_take (sl_drop h p) n)) (fun _ => SP.BW.err _)

theorem substrFrom_case {a b : Str} (h : SameLetters a b) (p : Nat) : BothWays SameLetters (substrFrom a p) (substrFrom b p) := by
  unfold substrFrom
  rw [sl_length h]
  exact SP.BW.ite (fun _ => SP.BW.ok (sl_drop h p)) (fun _ => SP.BW.err _)

end FLPR
