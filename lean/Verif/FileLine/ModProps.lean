import Verif.FileLine.ModLemmas
import Verif.FileLine.FixedProps
/-!
# Properties of the line modifiers (C08-C13)

The specification side uses only the fields of a line, its printed text, and the functions
`Spec.nonblank` and `Spec.decimal` below.
-/

namespace FLPR
namespace Spec
/-- The text without blanks and tabs. -/
def nonblank (s : Str) : Str := s.filter (fun c => c != ' ' && c != '\t')

/-- The number written in decimal at the start of the text. -/
def decimal (s : Str) : Nat :=
  (s.takeWhile isDigit).foldl (fun n c => 10 * n + (c.toNat - '0'.toNat)) 0

/-- Two lines agree on everything but the right-hand fields and the trailing-continuation flag. -/
def SameButRight (f g : FileLine) : Prop :=
  g.linenum = f.linenum ∧ g.left_txt = f.left_txt ∧ g.left_space = f.left_space ∧
  g.main_txt = f.main_txt ∧ g.open_delim = f.open_delim ∧
  { g.bits with continued := f.bits.continued } = f.bits
end Spec
open Spec

theorem nonblank_blanks (n : Nat) : nonblank (blanks n) = [] := by
  simp [nonblank, blanks]

theorem nonblank_append (a b : Str) : nonblank (a ++ b) = nonblank a ++ nonblank b := by
  simp [nonblank]

theorem drop2_blanks {n : Nat} (h : 2 < n) : (blanks n).drop 2 ++ blanks 2 = blanks n := by
  unfold blanks
  rw [List.drop_replicate, List.replicate_append_replicate]
  congr 1; omega

/-! ## C08 -/

/-- **C08** `make_continued` sets the flag, puts an ampersand at the start of `right_txt` after at
least one blank, and changes nothing else. -/
theorem C08_make_continued (f : FileLine) :
    f.makeContinued.bits.continued = true ∧ SameButRight f f.makeContinued ∧
    (∃ t, f.makeContinued.right_txt = '&' :: t ∧
      (f.right_txt = '&' :: t ∨ nonblank t = nonblank f.right_txt)) ∧
    f.makeContinued.right_space ≠ [] := by
  unfold FileLine.makeContinued
  dsimp only
  split
  · rename_i hr
    refine ⟨rfl, ⟨rfl, rfl, rfl, rfl, rfl, rfl⟩, ⟨[], rfl, Or.inr (by rw [hr])⟩, ?_⟩
    dsimp only
    split <;> simp_all
  · rename_i h t hr
    split
    · refine ⟨rfl, ⟨rfl, rfl, rfl, rfl, rfl, rfl⟩, ⟨_, rfl, Or.inr ?_⟩, ?_⟩
      · rw [hr]; simp [nonblank]
      · dsimp only
        intro hx
        by_cases h0 : f.right_space = []
        · simp [h0] at hx
        · rw [if_neg h0] at hx
          split at hx
          · rw [List.drop_eq_nil_iff] at hx
            omega
          · exact h0 hx
    · rename_i hh
      simp only [ne_eq, not_not] at hh
      refine ⟨rfl, ⟨rfl, rfl, rfl, rfl, rfl, rfl⟩, ⟨t, ?_, Or.inl ?_⟩, ?_⟩
      · dsimp only; rw [hr, hh]
      · rw [hr, hh]
      · dsimp only
        split <;> simp_all

/-- **C08** `make_uncontinued` clears the flag and changes only the right-hand fields; the
non-blank text after the ampersand is kept. -/
theorem C08_make_uncontinued (f : FileLine) :
    f.makeUncontinued.bits.continued = false ∧ SameButRight f f.makeUncontinued ∧
    (∀ t, f.right_txt = '&' :: t → nonblank f.makeUncontinued.right_txt = nonblank t) ∧
    (f.right_txt.head? ≠ some '&' →
      nonblank f.makeUncontinued.right_txt = nonblank f.right_txt) := by
  unfold FileLine.makeUncontinued
  dsimp only
  split
  · rename_i hr
    exact ⟨rfl, ⟨rfl, rfl, rfl, rfl, rfl, rfl⟩, by simp [hr], by simp⟩
  · rename_i h t hr
    have hn : ∀ k, findFirstNotOf [' '] ((if h = '&' then ' ' else h) :: t) = some k →
        nonblank (((if h = '&' then ' ' else h) :: t).drop k) =
        nonblank ((if h = '&' then ' ' else h) :: t) := by
      intro k hk
      obtain ⟨h1, h2, _⟩ := findFirst_blank_some hk
      conv_rhs => rw [← List.take_append_drop k ((if h = '&' then ' ' else h) :: t), nonblank_append,
        h2, nonblank_blanks]
      rfl
    split
    · rename_i hk
      have := findFirst_blank_none hk
      have h0 : nonblank ((if h = '&' then ' ' else h) :: t) = [] := by
        rw [this, nonblank_blanks]
      refine ⟨rfl, ⟨rfl, rfl, rfl, rfl, rfl, rfl⟩, ?_, ?_⟩
      · intro t' ht
        rw [hr] at ht
        simp only [List.cons.injEq] at ht
        rw [if_pos ht.1] at h0
        rw [← ht.2]
        simpa [nonblank] using h0.symm
      · intro hh
        rw [hr] at hh ⊢
        simp only [List.head?_cons, ne_eq, Option.some.injEq] at hh
        rw [if_neg hh] at h0
        rw [h0]; rfl
    · rename_i k hk
      have h0 := hn k hk
      refine ⟨rfl, ⟨rfl, rfl, rfl, rfl, rfl, rfl⟩, ?_, ?_⟩
      · intro t' ht
        rw [hr] at ht
        simp only [List.cons.injEq] at ht
        dsimp only
        rw [h0, if_pos ht.1, ← ht.2]
        simp [nonblank]
      · intro hh
        rw [hr] at hh
        simp only [List.head?_cons, ne_eq, Option.some.injEq] at hh
        dsimp only
        rw [h0, if_neg hh, hr]

/-- **C08** `make_continued` is idempotent. -/
theorem C08_make_continued_idem (f : FileLine) :
    f.makeContinued.makeContinued = f.makeContinued := by
  obtain ⟨h1, h2, ⟨t, h3, _⟩, h4⟩ := C08_make_continued f
  generalize f.makeContinued = g at *
  unfold FileLine.makeContinued
  dsimp only
  rw [if_neg h4]
  have hb : ({ g.bits with continued := true } : Bits) = g.bits := by
    cases hg : g.bits; simp_all
  cases g
  simp_all

/-- **C08** `make_uncontinued` is idempotent when the text after the ampersand does not begin with
another ampersand.  The excluded case is reachable, see the violation. -/
theorem C08_make_uncontinued_idem_partial (f : FileLine)
    (h : ∀ t, f.right_txt = '&' :: t → (t.dropWhile (· == ' ')).head? ≠ some '&')
    (h' : ∀ t, f.right_txt = ' ' :: t → (t.dropWhile (· == ' ')).head? ≠ some '&') :
    f.makeUncontinued.makeUncontinued = f.makeUncontinued := by
  have hdw : ∀ k (s : Str) (c : Char) (t : Str), s.take k = blanks k → s.drop k = c :: t → c ≠ ' ' →
      (s.dropWhile (· == ' ')).head? = some c := by
    intro k s c t h1 h2 h3
    rw [← List.take_append_drop k s, h1, h2]
    unfold blanks
    rw [List.dropWhile_append_of_pos (by intro x hx; simp at hx; simp [hx.2])]
    simp [h3]
  have hstep : ∀ (g : FileLine), g.bits.continued = false →
      ((g.right_txt = [] ∧ g.right_space = []) ∨ ∃ c t, g.right_txt = c :: t ∧ c ≠ ' ' ∧ c ≠ '&') →
      g.makeUncontinued = g := by
    intro g hc hg
    have hb : ({ g.bits with continued := false } : Bits) = g.bits := by
      cases hgb : g.bits; simp_all
    unfold FileLine.makeUncontinued
    dsimp only
    rw [hb]
    rcases hg with ⟨hg1, hg2⟩ | ⟨c, t, hg, hcs, hca⟩
    · rw [hg1]; cases g; simp_all
    · rw [hg]
      dsimp only
      rw [if_neg hca, findFirst_blank_cons hcs]
      cases g; simp_all [blanks]
  apply hstep
  · exact (C08_make_uncontinued f).1
  · unfold FileLine.makeUncontinued
    dsimp only
    split
    · rename_i hr
      exact Or.inl ⟨by dsimp only; exact hr, rfl⟩
    · rename_i hd t hr
      split
      · exact Or.inl ⟨rfl, rfl⟩
      · rename_i k hk
        obtain ⟨h1, h2, c, t', h3, h4⟩ := findFirst_blank_some hk
        refine Or.inr ⟨c, t', h3, h4, ?_⟩
        intro hca
        subst hca
        have := hdw k _ _ _ h2 h3 h4
        by_cases ha : hd = '&'
        · subst ha
          simp only [if_true] at this
          rw [List.dropWhile_cons_of_pos (by rfl)] at this
          exact h t hr this
        · rw [if_neg ha] at this
          by_cases hb : hd = ' '
          · subst hb
            rw [List.dropWhile_cons_of_pos (by rfl)] at this
            exact h' t hr this
          · rw [List.dropWhile_cons_of_neg (by simpa using hb)] at this
            simp at this
            exact ha this

/-- A line `x &&` is accepted by the analysis and needs two calls. -/
theorem C08_make_uncontinued_idem_violation :
    ∃ f, analyzeFree 1 "x &&".toList NUL false false = .ok (f, false) ∧
      f.makeUncontinued.makeUncontinued ≠ f.makeUncontinued := ⟨_, rfl, by decide⟩

/-- **C08** Inverse: on a line that is not continued, `make_continued` followed by
`make_uncontinued` restores every text field, and the right space up to added blanks. -/
theorem C08_inverse (f : FileLine) (hc : f.bits.continued = false)
    (hr : f.right_txt = [] ∨ ∃ t, f.right_txt = '!' :: t)
    (hs : ∀ c ∈ f.right_space, c = ' ') :
    let g := f.makeContinued.makeUncontinued
    SameButRight f g ∧ g.bits = f.bits ∧ g.right_txt = f.right_txt ∧
    (f.right_txt ≠ [] → ∃ k, k ≤ 3 ∧ g.right_space = f.right_space ++ blanks k) ∧
    (f.right_txt = [] → g.right_space = []) ∧
    (2 < f.right_space.length ∧ f.right_txt ≠ [] ∨ f.right_space = [] ∧ f.right_txt = [] →
      g = f) := by
  have hb : ({ f.bits with continued := false } : Bits) = f.bits := by
    cases hfb : f.bits; simp_all
  obtain ⟨n, hsb⟩ : ∃ n, f.right_space = blanks n :=
    ⟨_, List.eq_replicate_iff.mpr ⟨rfl, hs⟩⟩
  rcases hr with hr | ⟨t, hr⟩
  · have e1 : f.makeContinued.makeUncontinued = { f with right_txt := [], right_space := [] } := by
      unfold FileLine.makeContinued FileLine.makeUncontinued
      simp only [hr, hb]
      simp [findFirstNotOf]
    dsimp only
    rw [e1]
    refine ⟨⟨rfl, rfl, rfl, rfl, rfl, rfl⟩, rfl, by simp [hr], by simp [hr], by simp, ?_⟩
    rintro (⟨h1, h2⟩ | ⟨h1, h2⟩)
    · exact absurd hr h2
    · cases f; simp_all
  · have e1 : f.makeContinued.makeUncontinued =
        { f with right_space := (if f.right_space = [] then [' ']
            else if f.right_space.length > 2 then f.right_space.drop 2 else f.right_space) ++ blanks 2 } := by
      have hff : findFirstNotOf [' '] (' ' :: ' ' :: '!' :: t) = some 2 := by
        simp [findFirstNotOf, List.findIdx?_cons]
      unfold FileLine.makeContinued FileLine.makeUncontinued
      dsimp only
      rw [hr]
      dsimp only
      simp only [show ('!' : Char) ≠ '&' from by decide, ne_eq, not_false_eq_true, if_true, hff, hb]
      by_cases h0 : f.right_space = []
      · simp only [h0, if_true]
        cases f; simp_all
      · simp only [h0, if_false]
        cases f; simp_all
    dsimp only
    rw [e1]
    refine ⟨⟨rfl, rfl, rfl, rfl, rfl, rfl⟩, rfl, rfl, ?_, by simp [hr], ?_⟩
    · intro _
      dsimp only
      by_cases h0 : f.right_space = []
      · exact ⟨3, le_refl _, by simp [h0, blanks]⟩
      · rw [if_neg h0]
        split
        · refine ⟨0, by omega, ?_⟩
          rename_i hlen
          rw [hsb] at hlen ⊢
          rw [drop2_blanks (by simpa [blanks] using hlen)]
          simp [blanks]
        · exact ⟨2, by omega, rfl⟩
    · rintro (⟨h1, h2⟩ | ⟨h1, h2⟩)
      · have h0 : f.right_space ≠ [] := by intro hx; simp [hx] at h1
        have : f.right_space.drop 2 ++ blanks 2 = f.right_space := by
          rw [hsb] at h1 ⊢
          exact drop2_blanks (by simpa [blanks] using h1)
        rw [if_neg h0, if_pos h1, this]
      · rw [hr] at h2; simp at h2

/-- The analysis of a free-format statement line that is not continued gives a line as in
`C08_inverse`, up to tabs in the right space. -/
theorem C08_inverse_applies (ln : Int) (raw : Str) (prevDelim : Char)
    (prevCont inLit : Bool) (f : FileLine) (inLit' : Bool) (hd : validDelim prevDelim = true)
    (h : analyzeFree ln raw prevDelim prevCont inLit = .ok (f, inLit'))
    (hk : lineCat inLit raw = .fortran) (hc : f.bits.continued = false) :
    f.right_txt = [] ∨ ∃ t, f.right_txt = '!' :: t := by
  obtain ⟨c0, rest, hb, hbang, h⟩ := fortran_body h hk
  obtain ⟨h1, h2, h3, h4, h5, h6, h7, h8, h9, h10, h11, h12, h13, h14, h15, h16, h17, h18, h19⟩ :=
    analyzeFreeBody_spec hb hd h
  cases hr : f.right_txt with
  | nil => exact Or.inl rfl
  | cons c t =>
    right
    obtain ⟨hbr, _⟩ := h13 (by simp [hr])
    rw [← h1] at hbr
    unfold IsBreak at hbr
    have hnc : c ≠ '&' := by
      intro hx
      rw [h16.mpr (by simp [hr, hx])] at hc
      simp at hc
    simp only [hr] at hbr
    simp [hnc] at hbr
    exact ⟨t, by rw [hbr.2]⟩

/-- The gap before a trailing comment grows when it is two blanks or less. -/
theorem C08_inverse_violation :
    ∃ f, analyzeFree 1 "x ! c".toList NUL false false = .ok (f, false) ∧
      f.bits.continued = false ∧
      f.makeContinued.makeUncontinued.print = "x   ! c".toList := ⟨_, rfl, by decide, by decide⟩

example : ∃ f, analyzeFree 1 "  x = 1   ! c".toList NUL false false = .ok (f, false) ∧
    f.makeContinued.print = "  x = 1 & ! c".toList ∧
    f.makeContinued.makeUncontinued = f := ⟨_, rfl, by decide, by decide⟩

end FLPR
