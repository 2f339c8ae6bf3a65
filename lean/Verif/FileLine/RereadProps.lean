import Verif.FileLine.Reread
import Verif.FileLine.ModProps
/-!
# Continuing lines and reading them again (C08)
-/

namespace FLPR
open Spec

theorem rightText_of_free {ln : Int} {raw : Str} {pd : Char} {pc inLit : Bool} {f : FileLine} {lit : Bool}
    (hd : validDelim pd = true) (h : analyzeFree ln raw pd pc inLit = .ok (f, lit)) (hf : f.isFortran = true) :
    RightText f.right_txt ∧ (∀ c ∈ f.right_space, c = ' ' ∨ c = '\t') ∧
      f.bits.continued = decide (f.right_txt.head? = some '&') ∧ ∀ c ∈ f.right_txt, c ∈ raw := by
  have hk : lineCat inLit raw = .fortran := (C02_free_category _ _ _ _ _ _ _ hd h .fortran).mp hf
  have hprint := C01_free_roundtrip _ _ _ _ _ _ _ h
  obtain ⟨c0, rest, hb, hbang, hbody⟩ := fortran_body h hk
  obtain ⟨h1, h2, h3, h4, h5, h6, h7, h8, h9, h10, h11, h12, h13, h14, h15, h16, h17, h18, h19⟩ :=
    analyzeFreeBody_spec hb hd hbody
  refine ⟨?_, h8, by rw [Bool.eq_iff_iff, h16]; simp, ?_⟩
  · cases hr : f.right_txt with
    | nil => exact Or.inl rfl
    | cons x xs =>
      right
      refine ⟨x, xs, rfl, ?_⟩
      obtain ⟨hbr, _⟩ := h13 (by rw [hr]; simp)
      have hx : (stmtText pc raw)[(f.main_txt ++ f.right_space).length]? = some x := by
        rw [← h1, hr, List.getElem?_append_right (by simp)]
        simp
      rcases hbr with ⟨_, e | e⟩ | ⟨_, e, _⟩
      · rw [hx] at e; exact Or.inl (Option.some.inj e)
      · rw [hx] at e; exact Or.inr (Option.some.inj e)
      · rw [hx] at e; exact Or.inr (Option.some.inj e)
  · intro c hc
    rw [← hprint]
    unfold FileLine.print
    split <;> exact List.mem_append_right _ hc

/-- **C08** A free-format line outside a character context that is made continued is read as continued: the printed
line is read as exactly the changed line. -/
theorem C08_continued_reread (ln : Int) (raw : Str) (pd : Char) (pc inLit : Bool) (f : FileLine) (lit : Bool)
    (hd : validDelim pd = true) (h : analyzeFree ln raw pd pc inLit = .ok (f, lit)) (hf : f.isFortran = true)
    (hod : f.open_delim = NUL) (hm : f.main_txt ≠ []) (ha : AsciiStr raw) :
    analyzeFree ln f.makeContinued.print pd pc inLit = .ok (f.makeContinued, lit) := by
  obtain ⟨hrt, hrs, hc, hin⟩ := rightText_of_free hd h hf
  obtain ⟨_, _, ⟨t, ht, htt⟩, _⟩ := C08_make_continued f
  refine reread_free ln raw pd pc inLit f lit hd h hf hod f.makeContinued.right_space f.makeContinued.right_txt
    ?_ (Or.inr ⟨'&', t, ht, Or.inr rfl⟩) (Or.inl hm) ha ?_ _ ?_
  · have hrs' : ∀ c ∈ (if f.right_space = [] then [' '] else f.right_space), c = ' ' ∨ c = '\t' := by
      intro c hc
      split at hc
      · simp at hc; exact Or.inl hc
      · exact hrs c hc
    unfold FileLine.makeContinued
    dsimp only
    split
    · exact hrs'
    · split
      · dsimp only
        generalize (if f.right_space = [] then [' '] else f.right_space) = r at hrs' ⊢
        split
        · exact fun c hc => hrs' c (List.mem_of_mem_drop hc)
        · exact hrs'
      · exact hrs'
  · unfold FileLine.makeContinued
    dsimp only
    split
    · intro c hc; simp at hc; subst hc; decide
    · rename_i x xs hx
      have hxx : AsciiStr (x :: xs) := fun c hc => ha c (hin c (by rw [hx]; exact hc))
      split
      · intro c hc
        rcases List.mem_cons.mp hc with rfl | hc
        · decide
        · rcases List.mem_cons.mp hc with rfl | hc
          · decide
          · exact hxx c hc
      · dsimp only
        rw [hx]; exact hxx
  · rw [ht]
    unfold FileLine.makeContinued at ht ⊢
    dsimp only at ht ⊢
    split at ht
    · rw [← ht]; rfl
    · rename_i x xs hx
      split at ht
      · rename_i hne
        rw [if_pos hne]
        rw [← ht]; rfl
      · rename_i hne
        rw [if_neg hne]
        dsimp only at ht
        rw [← ht]
        have : x = '&' := by simpa using hne
        subst this
        dsimp only
        rw [ht]
        rfl

/-- The right end of a free-format line as it should be: nothing, a comment, a continuation mark, or a mark and a
comment. -/
def Spec.ProperRight (rt : Str) : Prop :=
  rt = [] ∨ (∃ t, rt = '!' :: t) ∨ ∃ k t, rt = '&' :: blanks k ++ t ∧ (t = [] ∨ ∃ u, t = '!' :: u)

theorem findFirstNotOf_bang (k : Nat) (u : Str) : findFirstNotOf [' '] (blanks k ++ '!' :: u) = some k := by
  induction k with
  | zero => rfl
  | succ k ih =>
    unfold findFirstNotOf at *
    rw [show blanks (k + 1) ++ '!' :: u = ' ' :: (blanks k ++ '!' :: u) from rfl, List.findIdx?_cons, ih]
    simp

theorem findFirstNotOf_allBlank (k : Nat) : findFirstNotOf [' '] (blanks k) = none := by
  induction k with
  | zero => rfl
  | succ k ih =>
    unfold findFirstNotOf at *
    rw [show blanks (k + 1) = ' ' :: blanks k from rfl, List.findIdx?_cons, ih]
    simp

/-- **C08** A line that is made uncontinued is read as not continued, with its comment: the printed line is read as
exactly the changed line. -/
theorem C08_uncontinued_reread_partial (ln : Int) (raw : Str) (pd : Char) (pc inLit : Bool) (f : FileLine) (lit : Bool)
    (hd : validDelim pd = true) (h : analyzeFree ln raw pd pc inLit = .ok (f, lit)) (hf : f.isFortran = true)
    (hod : f.open_delim = NUL) (hm : f.main_txt ≠ []) (hp : ProperRight f.right_txt) (ha : AsciiStr raw) :
    analyzeFree ln f.makeUncontinued.print pd pc inLit = .ok (f.makeUncontinued, lit) := by
  obtain ⟨hrt, hrs, hc, hin⟩ := rightText_of_free hd h hf
  obtain ⟨rs, rt, e, h1, h2, h3, h4⟩ : ∃ rs rt, f.makeUncontinued =
      { f with right_space := rs, right_txt := rt, bits := { f.bits with continued := false } } ∧
      (∀ c ∈ rs, c = ' ' ∨ c = '\t') ∧ RightText rt ∧ rt.head? ≠ some '&' ∧ ∀ c ∈ rt, c ∈ f.right_txt := by
    unfold FileLine.makeUncontinued
    dsimp only
    rcases hp with hr | ⟨t, hr⟩ | ⟨k, t, hr, ht⟩
    · rw [hr]
      exact ⟨_, _, rfl, by simp, Or.inl rfl, by simp, by simp⟩
    · rw [hr]
      dsimp only
      have : findFirstNotOf [' '] ((if '!' = '&' then ' ' else '!') :: t) = some 0 := rfl
      rw [this]
      exact ⟨_, _, rfl, by intro c hc; simp [blanks] at hc; exact hrs c hc, Or.inr ⟨'!', t, rfl, Or.inl rfl⟩, by simp,
        by simp⟩
    · rw [hr, List.cons_append]
      dsimp only
      rw [if_pos rfl]
      have hcons : ' ' :: (blanks k ++ t) = blanks (k + 1) ++ t := rfl
      rw [hcons]
      rcases ht with rfl | ⟨u, rfl⟩
      · rw [List.append_nil, findFirstNotOf_allBlank]
        exact ⟨_, _, rfl, by simp, Or.inl rfl, by simp, by simp⟩
      · rw [findFirstNotOf_bang]
        refine ⟨_, _, rfl, ?_, Or.inr ⟨'!', u, ?_, Or.inl rfl⟩, ?_, ?_⟩
        · intro c hc
          rcases List.mem_append.mp hc with hc | hc
          · exact hrs c hc
          · exact Or.inl (List.eq_of_mem_replicate hc)
        · rw [List.drop_left' (by simp [blanks])]
        · rw [List.drop_left' (by simp [blanks])]; simp
        · rw [List.drop_left' (by simp [blanks])]
          intro c hc
          simp only [List.mem_cons, List.mem_append]
          right; right; simpa using hc
  refine reread_free ln raw pd pc inLit f lit hd h hf hod rs rt h1 h2 (Or.inl hm) ha
    (fun c hc => ha c (hin c (h4 c hc))) _ ?_
  rw [e]
  congr 2
  simpa using h3

/-- The hypotheses are met by a continued line with a label and a comment. -/
example : ∃ f, analyzeFree 1 "10 x = 'a&' + &  ! note".toList NUL false false = .ok (f, false) ∧ f.isFortran = true ∧
    f.open_delim = NUL ∧ f.main_txt ≠ [] ∧ ProperRight f.right_txt :=
  ⟨_, rfl, by decide, by decide, by decide, Or.inr (Or.inr ⟨2, "! note".toList, rfl, Or.inr ⟨_, rfl⟩⟩)⟩

/-- **C08** A second mark is left: the line is read as continued although it was made uncontinued. -/
theorem C08_violation_second_mark : ∃ f r, analyzeFree 1 "x &&".toList NUL false false = .ok (f, false) ∧
    analyzeFree 1 f.makeUncontinued.print NUL false false = .ok (r, false) ∧
    f.makeUncontinued.bits.continued = false ∧ r.bits.continued = true :=
  ⟨_, _, rfl, rfl, by decide, by decide⟩

/-- **C08** What stands behind the mark without being a comment becomes part of the statement. -/
theorem C08_violation_junk : ∃ f r, analyzeFree 1 "x = 1 & 2".toList NUL false false = .ok (f, false) ∧
    analyzeFree 1 f.makeUncontinued.print NUL false false = .ok (r, false) ∧
    f.main_txt = "x = 1".toList ∧ r.main_txt = "x = 1   2".toList :=
  ⟨_, _, rfl, rfl, by decide, by decide⟩

/-- **C08** In a character context the line is cut: the string has no end any more. -/
theorem C08_violation_open : ∃ f, analyzeFree 1 "x = 'ab&".toList NUL false false = .ok (f, false) ∧
    f.makeUncontinued.print = "x = 'ab".toList ∧
    analyzeFree 1 f.makeUncontinued.print NUL false false = .error .exc :=
  ⟨_, rfl, by decide, rfl⟩

end FLPR
