import Verif.LogicalFile.Scan
import Verif.FileLine.ModProps2
/-!
# Helper lemmas for the file scans
-/

namespace FLPR
open Spec

/-! ## Facts about one analysed line -/

theorem mkFull_ok {ln : Int} {b : Bits} {lt ls mt rs rt : Str} {od : Char} {f : FileLine}
    (h : mkFull ln b lt ls mt rs rt od = .ok f) :
    f.linenum = ln ∧ f.bits = b ∧ validDelim f.open_delim = true := by
  unfold mkFull at h
  split at h
  · rename_i hd; simp at h; subst h; exact ⟨rfl, rfl, hd⟩
  · simp at h

theorem freeLeft_bits {raw : Str} {pc : Bool} {ri : Nat} {c : Char} {r : Str × Bits × Nat × Nat}
    (h : freeLeft raw pc ri c = .ok r) : r.2.1.fixed_format = false := by
  unfold freeLeft at h
  rbind h with d hd
  split at h
  · rbind h with x hx; simp at h; subst h; rfl
  · split at h <;> (simp at h; subst h; rfl)

theorem analyzeFreeBody_misc {ln : Int} {raw : Str} {pd : Char} {pc : Bool} {ri : Nat} {c : Char}
    {f : FileLine} (h : analyzeFreeBody ln raw pd pc ri c = .ok f) :
    f.linenum = ln ∧ f.bits.fixed_format = false ∧ validDelim f.open_delim = true := by
  unfold analyzeFreeBody at h
  rbind h with ⟨lt, b, r1, ib⟩ h1
  rbind h with r2 h2
  rbind h with ⟨tb, od⟩ h3
  have hb := freeLeft_bits h1
  cases tb with
  | none =>
    rbind h with m hm
    obtain ⟨a1, a2, a3⟩ := mkFull_ok h
    exact ⟨a1, by rw [a2]; exact hb, a3⟩
  | some t =>
    rbind h with m hm
    rbind h with r hr
    obtain ⟨a1, a2, a3⟩ := mkFull_ok h
    refine ⟨a1, ?_, a3⟩
    rw [a2]
    split
    · exact hb
    · exact hb

theorem analyzeFree_misc {ln : Int} {raw : Str} {pd : Char} {pc lit lit' : Bool} {f : FileLine}
    (h : analyzeFree ln raw pd pc lit = .ok (f, lit')) :
    f.linenum = ln ∧ f.bits.fixed_format = false ∧ validDelim f.open_delim = true := by
  rcases analyzeFree_cases h with ⟨_, rfl, _⟩ | ⟨_, _, rfl, _⟩ | ⟨c0, rest, _, hb, h⟩
  · exact ⟨rfl, rfl, rfl⟩
  · exact ⟨rfl, rfl, rfl⟩
  · rcases h with ⟨_, rfl, _⟩ | ⟨_, _, rfl, _⟩ | ⟨_, _, h⟩
    · exact ⟨rfl, rfl, rfl⟩
    · exact ⟨rfl, rfl, rfl⟩
    · rcases h with ⟨_, _, rfl, _⟩ | ⟨_, _, _, rfl, _⟩ | ⟨_, _, _, rfl, _⟩ | ⟨_, _, h⟩
      · exact ⟨rfl, rfl, rfl⟩
      · exact ⟨rfl, rfl, rfl⟩
      · exact ⟨rfl, rfl, rfl⟩
      · exact analyzeFreeBody_misc h

theorem analyzeFixedBody_misc {ln : Int} {raw : Str} {pd : Char} {lc : Int} {lt : Str} {b : Bits}
    {ri : Nat} {f : FileLine} (h : analyzeFixedBody ln raw pd lc lt b ri = .ok f) :
    f.linenum = ln ∧ f.bits = b ∧ validDelim f.open_delim = true := by
  unfold analyzeFixedBody at h
  rbind h with ⟨tb, od⟩ h1
  rbind h with ⟨m0, rt⟩ h2
  dsimp only at h
  split at h
  · simp at h
  · exact mkFull_ok h

theorem analyzeFixed_misc {ln : Int} {raw : Str} {pd : Char} {lc : Int} {f : FileLine}
    (h : analyzeFixed ln raw pd lc = .ok f) :
    f.linenum = ln ∧ validDelim f.open_delim = true := by
  obtain ⟨e, he, h⟩ := analyzeFixed_cases h
  rcases h with ⟨h1, rfl⟩ | ⟨c0, rest, hb, h⟩
  · exact ⟨rfl, rfl⟩
  rcases h with ⟨h1, h2, rfl⟩ | ⟨h1, h2, rfl⟩ | ⟨h1, h2, h⟩
  · exact ⟨rfl, rfl⟩
  · exact ⟨rfl, rfl⟩
  rcases h with ⟨h3, h4, ⟨h5, rfl⟩ | ⟨h5, rfl⟩⟩ | ⟨h3, h⟩
  · exact ⟨rfl, rfl⟩
  · exact ⟨rfl, rfl⟩
  unfold fixedRest at h
  rbind h with ⟨lt, b, r, bl⟩ hl
  dsimp only at h
  split at h
  · simp at h; subst h; exact ⟨rfl, rfl⟩
  · have := analyzeFixedBody_misc h
    exact ⟨this.1, this.2.2⟩

theorem fixedCat_ne_literal (b : Bool) (e : Str) : fixedCat b e ≠ .literal := by
  unfold fixedCat
  split
  · simp
  split
  · simp
  split
  · simp
  split
  · split <;> simp
  split <;> simp

theorem analyzeFixed_no_lit {ln : Int} {raw : Str} {pd : Char} {lc : Int} {f : FileLine}
    (h : analyzeFixed ln raw pd lc = .ok f) : f.bits.flpr_lit = false := by
  have := (C44_fixed_category ln raw pd lc f h .literal).not.mpr (fixedCat_ne_literal _ _)
  simpa [catFlag] using this

/-- A line that has all its text in `left_txt`, as analysed non-Fortran lines have. -/
def LeftOnly (f : FileLine) : Prop :=
  f.left_space = [] ∧ f.main_txt = [] ∧ f.right_space = [] ∧ f.right_txt = []

theorem analyzeFree_left {ln : Int} {raw : Str} {pd : Char} {pc lit lit' : Bool} {f : FileLine}
    (hd : validDelim pd = true) (h : analyzeFree ln raw pd pc lit = .ok (f, lit'))
    (hf : f.isFortran = false) : LeftOnly f := by
  by_cases hk : lineCat lit raw = .fortran
  · have := (C02_free_category ln raw pd pc lit f lit' hd h .fortran).mpr hk
    simp [catFlag, hf] at this
  · obtain ⟨h1, h2, h3, h4, h5, _⟩ := C02_free_nonfortran_fields ln raw pd pc lit f lit' hd h hk
    exact ⟨h2, h3, h4, h5⟩

theorem analyzeFixed_left {ln : Int} {raw : Str} {pd : Char} {lc : Int} {f : FileLine}
    (h : analyzeFixed ln raw pd lc = .ok f) (hf : f.isFortran = false) :
    LeftOnly f := by
  by_cases hk : fixedCat (decide (pd ≠ NUL)) (detab raw) = .fortran
  · have := (C44_fixed_category ln raw pd lc f h .fortran).mpr hk
    simp [catFlag, hf] at this
  · obtain ⟨h1, h2, h3, h4, h5, _⟩ := C44_fixed_nonfortran_fields ln raw pd lc f h hk
    exact ⟨h2, h3, h4, h5⟩

theorem analyzeFixed_continuation {ln : Int} {raw : Str} {pd : Char} {lc : Int} {f : FileLine}
    (h : analyzeFixed ln raw pd lc = .ok f) (hc : f.bits.continuation = true) :
    f.isFortran = true ∨ f.isTrivial = true := by
  obtain ⟨e, he, h⟩ := analyzeFixed_cases h
  rcases h with ⟨h1, rfl⟩ | ⟨c0, rest, hb, h⟩
  · exact Or.inr rfl
  rcases h with ⟨h1, h2, rfl⟩ | ⟨h1, h2, rfl⟩ | ⟨h1, h2, h⟩
  · simp [mkLeft] at hc
  · simp [mkLeft] at hc
  rcases h with ⟨h3, h4, ⟨h5, rfl⟩ | ⟨h5, rfl⟩⟩ | ⟨h3, h⟩
  · simp [mkLeft] at hc
  · exact Or.inr rfl
  unfold fixedRest at h
  rbind h with ⟨lt, b, r, bl⟩ hl
  dsimp only at h
  split at h
  · simp at h; subst h; right; simp [FileLine.isTrivial, mkLeft]
  · left
    have hb := (analyzeFixedBody_misc h).2.1
    have : b.blank = false ∧ b.comment = false ∧ b.preprocessor = false ∧ b.flpr_pp = false ∧
        b.flpr_lit = false ∧ b.incl = false := by
      unfold fixedLeft at hl
      dsimp only at hl
      split at hl
      · rbind hl with ⟨lt', b', r1⟩ h5
        have hb' : b'.blank = false ∧ b'.comment = false ∧ b'.preprocessor = false ∧
            b'.flpr_pp = false ∧ b'.flpr_lit = false ∧ b'.incl = false := by
          split at h5
          · simp at h5
            rw [← h5.2.1]
            split <;> simp
          · rbind h5 with d hd
            split at h5
            · rbind h5 with q hq
              simp at h5; rw [← h5.2.1]; simp
            · simp at h5; rw [← h5.2.1]; simp
        dsimp only at hl
        split at hl
        · rbind hl with q hq
          simp at hl; rw [← hl.2.1]; exact hb'
        · simp at hl; rw [← hl.2.1]; exact hb'
      · simp at hl; rw [← hl.2.1]; simp
    obtain ⟨a1, a2, a3, a4, a5, a6⟩ := this
    simp [FileLine.isFortran, FileLine.isTrivial, hb, a1, a2, a3, a4, a5, a6]

/-! ## The analysis of all lines -/

/-- The lines of a file, each analysed with the state left by the one before. -/
theorem analyzeAllFree_ok {ln : Nat} {pd : Char} {pc lit : Bool} {raws : List Str}
    {fl : List FileLine} (hd : validDelim pd = true)
    (h : analyzeAllFree ln pd pc lit raws = .ok (some fl)) :
    fl.map FileLine.print = raws ∧
    (∀ i (hi : i < fl.length), fl[i].linenum = ((ln + i : Nat) : Int)) ∧
    (∀ f ∈ fl, f.bits.fixed_format = false ∧ (f.isFortran = false → LeftOnly f)) := by
  induction raws generalizing ln pd pc lit fl with
  | nil => simp [analyzeAllFree] at h; subst h; simp
  | cons r rs ih =>
    unfold analyzeAllFree at h
    split at h
    · simp at h
    · simp at h
    · rename_i f lit' hf
      rbind h with o ho
      cases o with
      | none => simp at h
      | some fs =>
        simp at h
        subst h
        obtain ⟨m1, m2, m3⟩ := analyzeFree_misc hf
        obtain ⟨i1, i2, i3⟩ := ih m3 ho
        refine ⟨?_, ?_, ?_⟩
        · simp [i1, C01_free_roundtrip _ _ _ _ _ _ _ hf]
        · intro i hi
          cases i with
          | zero => simp [m1]
          | succ j =>
            have := i2 j (by simpa using hi)
            simp only [List.getElem_cons_succ]
            rw [this]; congr 1; omega
        · intro g hg
          rcases List.mem_cons.mp hg with rfl | hg
          · exact ⟨m2, analyzeFree_left hd hf⟩
          · exact i3 g hg

theorem analyzeAllFixed_ok {lc : Int} {ln : Nat} {pd : Char} {raws : List Str}
    {fl : List FileLine} (h : analyzeAllFixed lc ln pd raws = .ok (some fl)) :
    fl.length = raws.length ∧
    (∀ i (hi : i < fl.length), fl[i].linenum = ((ln + i : Nat) : Int)) ∧
    (∀ f ∈ fl, f.bits.flpr_lit = false ∧ (f.isFortran = false → LeftOnly f)) ∧
    (∀ f ∈ fl, f.bits.continuation = true → f.isFortran = true ∨ f.isTrivial = true) := by
  induction raws generalizing ln pd fl with
  | nil => simp [analyzeAllFixed] at h; subst h; simp
  | cons r rs ih =>
    unfold analyzeAllFixed at h
    split at h
    · simp at h
    · simp at h
    · rename_i f hf
      rbind h with o ho
      cases o with
      | none => simp at h
      | some fs =>
        simp at h
        subst h
        obtain ⟨i1, i2, i3, i4⟩ := ih ho
        obtain ⟨m1, m2⟩ := analyzeFixed_misc hf
        refine ⟨by simp [i1], ?_, ?_, ?_⟩
        · intro i hi
          cases i with
          | zero => simp [m1]
          | succ j =>
            have := i2 j (by simpa using hi)
            simp only [List.getElem_cons_succ]
            rw [this]; congr 1; omega
        · intro g hg
          rcases List.mem_cons.mp hg with rfl | hg
          · exact ⟨analyzeFixed_no_lit hf, analyzeFixed_left hf⟩
          · exact i3 g hg
        · intro g hg
          rcases List.mem_cons.mp hg with rfl | hg
          · exact analyzeFixed_continuation hf
          · exact i4 g hg

theorem analyzeAllFree_ascii {ln : Nat} {pd : Char} {pc lit : Bool} {raws : List Str}
    (hd : validDelim pd = true) (ha : ∀ r ∈ raws, AsciiStr r) :
    ∃ o, analyzeAllFree ln pd pc lit raws = .ok o := by
  induction raws generalizing ln pd pc lit with
  | nil => exact ⟨_, rfl⟩
  | cons r rs ih =>
    unfold analyzeAllFree
    rcases C03_free_outcome ln r pd pc lit hd (ha r (by simp)) with ⟨⟨f, lit'⟩, hf⟩ | ⟨he, _⟩
    · rw [hf]
      obtain ⟨o, ho⟩ := ih (ln := ln + 1) (pc := f.bits.continued) (lit := lit')
        (analyzeFree_misc hf).2.2 (fun x hx => ha x (by simp [hx]))
      simp only [ho, Res.ok_bind]
      exact ⟨_, rfl⟩
    · rw [he]; exact ⟨_, rfl⟩

theorem analyzeAllFixed_ascii {lc : Int} {ln : Nat} {pd : Char} {raws : List Str}
    (hd : validDelim pd = true) (ha : ∀ r ∈ raws, AsciiStr r) :
    ∃ o, analyzeAllFixed lc ln pd raws = .ok o := by
  induction raws generalizing ln pd with
  | nil => exact ⟨_, rfl⟩
  | cons r rs ih =>
    unfold analyzeAllFixed
    rcases C44_fixed_outcome ln r pd lc hd (ha r (by simp)) with ⟨f, hf⟩ | he
    · rw [hf]
      obtain ⟨o, ho⟩ := ih (ln := ln + 1)
        (analyzeFixed_misc hf).2 (fun x hx => ha x (by simp [hx]))
      simp only [ho, Res.ok_bind]
      exact ⟨_, rfl⟩
    · rw [he]; exact ⟨_, rfl⟩

end FLPR
