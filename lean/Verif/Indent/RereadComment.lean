import Verif.Indent.RereadOf
/-!
# Reading a moved comment line again (C74)
-/

namespace FLPR
open Spec

namespace Spec
/-- The text of a comment (behind the `!`) that is an FLPR directive but for blanks in front. -/
def HiddenMark (t : Str) : Prop := ∃ w r, t = w ++ ("#flpr".toList ++ r) ∧ ∀ c ∈ w, c = ' ' ∨ c = '\t'
end Spec

/-- A comment line that is read as it is written. -/
structure CommentOk (pc : Bool) (f : FileLine) : Prop where
  form : ∃ P t, f.left_txt = P ++ '!' :: t ∧ (∀ x ∈ P, isBlankChar x = true) ∧ ¬ HiddenMark t
  empty : f.left_space = [] ∧ f.main_txt = [] ∧ f.right_space = [] ∧ f.right_txt = [] ∧ f.open_delim = NUL
  bits : f.bits = { comment := true, continued := pc }

theorem directive_mark {P t : Str} (h : isFlprDirective (P ++ '!' :: t) P.length = true) : HiddenMark t := by
  unfold isFlprDirective at h
  simp only [Bool.and_eq_true, decide_eq_true_eq, beq_iff_eq] at h
  obtain ⟨⟨⟨⟨⟨h0, h1⟩, h2⟩, h3⟩, h4⟩, h5⟩ := h
  have hg : ∀ k, (P ++ '!' :: t).getD (P.length + (k + 1)) NUL = t.getD k NUL := by
    intro k
    simp only [List.getD_eq_getElem?_getD]
    rw [List.getElem?_append_right (by omega)]
    simp
  have e1 := hg 0
  have e2 := hg 1
  have e3 := hg 2
  have e4 := hg 3
  have e5 := hg 4
  simp only [Nat.zero_add, Nat.reduceAdd] at e1 e2 e3 e4 e5
  rw [e1] at h1; rw [e2] at h2; rw [e3] at h3; rw [e4] at h4; rw [e5] at h5
  simp at h0
  match t, h0, h1, h2, h3, h4, h5 with
  | a :: b :: c :: d :: e :: r, _, h1, h2, h3, h4, h5 =>
    simp at h1 h2 h3 h4 h5
    subst h1 h2 h3 h4 h5
    exact ⟨[], r, rfl, by simp⟩
  | [], h0, _, _, _, _, _ => simp at h0
  | [_], h0, _, _, _, _, _ => simp at h0
  | [_, _], h0, _, _, _, _, _ => simp at h0
  | [_, _, _], h0, _, _, _, _, _ => simp at h0
  | [_, _, _, _], h0, _, _, _, _, _ => simp at h0

theorem CommentOk.printed {pc : Bool} {f : FileLine} (h : CommentOk pc f) : f.print = f.left_txt := by
  obtain ⟨e1, e2, e3, e4, _⟩ := h.empty
  unfold FileLine.print
  rw [e1, e2, e3, e4, h.bits]
  simp

/-- Such a comment is read as it is. -/
theorem CommentOk.reads {pc : Bool} {f : FileLine} (h : CommentOk pc f) (ln : Int) (pd : Char) :
    analyzeFree ln f.print pd pc false = .ok ({ f with linenum := ln }, false) := by
  rw [h.printed]
  obtain ⟨⟨P, t, hl, hP, hm⟩, ⟨e1, e2, e3, e4, e5⟩, hb⟩ := h
  rw [hl]
  obtain ⟨hbd, hi⟩ := body_blanks hP (M := '!' :: t) rfl (by decide)
  have hget : (P ++ '!' :: t).getD P.length NUL = '!' := by simp [List.getD_eq_getElem?_getD]
  have hdir : isFlprDirective (P ++ '!' :: t) P.length = false := by
    by_contra hx
    exact hm (directive_mark (by simpa using hx))
  unfold analyzeFree
  dsimp only
  rw [if_neg (by decide)]
  cases hf : findFirstNotOf [' ', '\t', '\r'] (P ++ '!' :: t) with
  | none => rw [findFirstNotOf_none _ hf] at hbd; simp at hbd
  | some ri =>
    obtain ⟨r1, _, _, _⟩ := findFirstNotOf_blank _ _ hf
    rw [hi] at r1
    subst r1
    dsimp only
    rw [hget]
    have hup : cToUpper '!' = .ok '!' := rfl
    rw [hup]
    simp only [Res.ok_bind]
    have hinc : isIncludeLine (P ++ '!' :: t) P.length = .ok false := by
      unfold isIncludeLine
      rw [if_neg (by simp), if_pos (by rw [hget]; decide)]
    have hlit : isFlprLiteral (P ++ '!' :: t) P.length = .ok false := by
      unfold isFlprLiteral
      rw [hdir]; rfl
    rw [if_neg (by simp), hinc]
    simp only [Res.ok_bind, Bool.false_eq_true, if_false, if_true]
    rw [hlit]
    simp only [Res.ok_bind, hdir, Bool.false_eq_true, if_false]
    obtain ⟨n0, lt, ls, m, rs, u, od, B⟩ := f
    dsimp only at *
    subst hl e1 e2 e3 e4 e5 hb
    rfl

/-- A comment line that was read is read as it is written, unless it is a directive but for blanks. -/
theorem commentOk_of {ln : Int} {raw : Str} {pd : Char} {pc lit lit' : Bool} {f : FileLine}
    (h : analyzeFree ln raw pd pc lit = .ok (f, lit')) (hc : f.bits.comment = true)
    (hm : ∀ P t, f.left_txt = P ++ '!' :: t → (∀ x ∈ P, isBlankChar x = true) → ¬ HiddenMark t) :
    CommentOk pc f ∧ lit = false ∧ lit' = false := by
  rcases analyzeFree_cases h with ⟨h1, rfl, _⟩ | ⟨h1, h2, rfl, _⟩ | ⟨c0, rest, h1, hb, h⟩
  · cases hc
  · cases hc
  · rcases h with ⟨_, rfl, e⟩ | ⟨_, _, rfl, e⟩ | ⟨_, _, h⟩
    · cases hc
    · cases hc
    · rcases h with ⟨_, _, rfl, _⟩ | ⟨_, _, _, rfl, e⟩ | ⟨rfl, _, _, rfl, e⟩ | ⟨_, e, h⟩
      · cases hc
      · cases hc
      · have hsplit : raw = raw.take (indent raw) ++ ('!' :: rest) := by
          rw [← hb, ← drop_indent, List.take_append_drop]
        have hind : ∀ x ∈ raw.take (indent raw), isBlankChar x = true := by
          rw [take_indent]
          exact fun x hx => List.mem_takeWhile_imp hx
        exact ⟨⟨⟨_, rest, hsplit, hind, hm _ _ hsplit hind⟩, ⟨rfl, rfl, rfl, rfl, rfl⟩, rfl⟩, h1, e⟩
      · -- a Fortran line is no comment
        exfalso
        have hF : f.isFortran = true := by
          unfold analyzeFreeBody at h
          obtain ⟨⟨lt, b, r1, ib⟩, hl, h⟩ := Res.bind_ok h
          have hfl := freeLeft_ok hl
          dsimp only at h
          obtain ⟨r2, hr2, h⟩ := Res.bind_ok h
          obtain ⟨⟨tb, od⟩, htb, h⟩ := Res.bind_ok h
          dsimp only at h
          obtain ⟨_, _, _, _, b1, b2, b3, b4, b5, b6, b7, b8⟩ := hfl
          cases tb with
          | none =>
            dsimp only at h
            obtain ⟨m0, _, h⟩ := Res.bind_ok h
            unfold mkFull at h
            split at h
            · cases h; simp_all
            · cases h
          | some tt =>
            dsimp only at h
            obtain ⟨m0, _, h⟩ := Res.bind_ok h
            obtain ⟨r0, _, h⟩ := Res.bind_ok h
            unfold mkFull at h
            split at h
            · cases h
              dsimp only at hc
              split at hc <;> simp_all
            · cases h
        revert hF
        simp [FileLine.isFortran, FileLine.isTrivial, hc]

theorem blank_drop {t : Str} {j k : Nat} (h : findFirstNotOf [' ', '\t'] t = some j) (hk : k ≤ j) :
    ∀ c ∈ t.take k, c = ' ' ∨ c = '\t' := by
  unfold findFirstNotOf at h
  obtain ⟨hlt, hp, hq⟩ := List.findIdx?_eq_some_iff_getElem.mp h
  intro c hc
  obtain ⟨i, hi, rfl⟩ := List.getElem_of_mem hc
  simp at hi
  have := hq i (by omega)
  simp at this
  simp only [List.getElem_take]
  exact Decidable.or_iff_not_imp_left.mpr this

theorem hiddenMark_drop {t : Str} {k : Nat} (hk : ∀ c ∈ t.take k, c = ' ' ∨ c = '\t') (h : HiddenMark (t.drop k)) : HiddenMark t := by
  obtain ⟨w, r, h1, h2⟩ := h
  refine ⟨t.take k ++ w, r, ?_, ?_⟩
  · rw [List.append_assoc, ← h1, List.take_append_drop]
  · intro c hc
    rcases List.mem_append.mp hc with hc | hc
    · exact hk c hc
    · exact h2 c hc

/-- Moving keeps a comment readable. -/
theorem CommentOk.moved {pc b : Bool} {f f' : FileLine} {n : Nat} (h : CommentOk pc f)
    (hs : f.setLeadingSpaces n = .ok (f', b)) : CommentOk pc f' ∧ f'.bits = f.bits ∧ f'.linenum = f.linenum := by
  unfold FileLine.setLeadingSpaces at hs
  rw [h.bits] at hs
  simp only [if_true, Except.ok.injEq] at hs
  obtain ⟨P, t, hl, hP, hm⟩ := h.form
  have hno : '!' ∉ P := by
    intro hx
    have := hP _ hx
    revert this; decide
  have hpos : findChar '!' f.left_txt = some P.length := by
    rw [hl]
    unfold findChar
    rw [List.findIdx?_eq_some_iff_getElem]
    refine ⟨by simp, by simp, ?_⟩
    intro j hj
    rw [List.getElem_append_left hj]
    simp
    rintro he
    exact hno (he ▸ List.getElem_mem hj)
  have hblank : ∀ k, ∀ x ∈ blanks k, isBlankChar x = true := by
    intro k x hx
    rw [List.eq_of_mem_replicate hx]; rfl
  unfold FileLine.setLeadingComment at hs
  rw [hpos] at hs
  dsimp only at hs
  split at hs
  · cases hs
    exact ⟨⟨⟨P, t, hl, hP, hm⟩, ⟨rfl, rfl, rfl, rfl, h.empty.2.2.2.2⟩, h.bits⟩, rfl, rfl⟩
  · have hmk : ∀ t', ¬ HiddenMark t' → CommentOk pc { f with left_space := [], main_txt := [], right_space := [], right_txt := [], left_txt := blanks n ++ ('!' :: t') } :=
      fun t' ht' => ⟨⟨_, t', rfl, hblank n, ht'⟩, ⟨rfl, rfl, rfl, rfl, h.empty.2.2.2.2⟩, h.bits⟩
    split at hs
    · rename_i h0
      have hP0 : P = [] := List.length_eq_zero_iff.mp h0
      subst hP0
      rw [List.nil_append] at hl
      rw [hl] at hs
      simp only [List.drop_succ_cons, List.drop_zero, List.take_succ_cons, List.take_zero, Nat.add_comm 1] at hs
      have hd : ∀ k, ['!'] ++ t.drop k = '!' :: t.drop k := fun k => rfl
      split at hs
      · rename_i j hj
        split at hs
        · split at hs
          · cases hs
            exact ⟨hmk _ (fun hx => hm (hiddenMark_drop (blank_drop hj (by omega)) hx)), rfl, rfl⟩
          · cases hs
            exact ⟨hmk _ (fun hx => hm (hiddenMark_drop (blank_drop hj (by omega)) hx)), rfl, rfl⟩
        · cases hs
          exact ⟨hmk _ hm, rfl, rfl⟩
      · cases hs
        exact ⟨hmk _ hm, rfl, rfl⟩
    · rw [hl, List.drop_left] at hs
      cases hs
      exact ⟨hmk _ hm, rfl, rfl⟩

end FLPR
