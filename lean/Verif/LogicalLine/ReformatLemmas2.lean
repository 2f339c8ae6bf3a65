import Verif.LogicalLine.ReformatLemmas
/-! # The token loop of `text_from_frags` -/

namespace FLPR
open Spec

theorem appendIf_cases (main : Str) (maxLen : Nat) (t : Tok) (first : Bool) (hm : 0 < maxLen) :
    (∃ n : Int, (n = 0 ∧ first = true ∨ first = false ∧ t.pre = some n) ∧
      appendIf main maxLen t first = .ok (some (main ++ blanks n.toNat ++ t.text)) ∧
      (main ++ blanks n.toNat ++ t.text).length ≤ maxLen) ∨
    (appendIf main maxLen t first = .ok none ∧
      ∃ n : Int, (n = 0 ∧ first = true ∨ first = false ∧ t.pre = some n) ∧
        maxLen ≤ main.length + (t.text.length + n.toNat)) ∨
    (first = false ∧ t.pre = none ∧ appendIf main maxLen t first = .error .ub) := by
  have hpre : (∃ n : Int, (n = 0 ∧ first = true ∨ first = false ∧ t.pre = some n) ∧
      (if first = true then (.ok 0 : Res Int) else getInt t.pre) = .ok n) ∨
      (first = false ∧ t.pre = none ∧
        (if first = true then (.ok 0 : Res Int) else getInt t.pre) = .error .ub) := by
    cases first with
    | true => left; exact ⟨0, Or.inl ⟨rfl, rfl⟩, rfl⟩
    | false =>
      cases ht : t.pre with
      | none => right; exact ⟨rfl, rfl, rfl⟩
      | some n => left; exact ⟨n, Or.inr ⟨rfl, rfl⟩, rfl⟩
  rcases hpre with ⟨n, hn, he⟩ | ⟨h1, h2, he⟩
  · unfold appendIf
    rw [he]
    simp only [Res.ok_bind]
    rw [if_neg (by omega)]
    by_cases hgt : main.length + (t.text.length + n.toNat) >
        (if t.token = Tag.TK_COMMA then maxLen else maxLen - 1)
    · rw [if_pos hgt]
      refine Or.inr (Or.inl ⟨rfl, n, hn, ?_⟩)
      split at hgt <;> omega
    · rw [if_neg hgt]
      refine Or.inl ⟨n, hn, rfl, ?_⟩
      simp only [List.length_append, blanks, List.length_replicate]
      split at hgt <;> omega
  · right; right
    refine ⟨h1, h2, ?_⟩
    unfold appendIf
    rw [he]
    rfl

theorem maxMainTxtLen_cases (f : FileLine) (hc : f.bits.comment = false) :
    (∃ m, maxMainTxtLen f = .ok m ∧ 0 < m ∧ leftWidth f + m ≤ 76 ∧ (leftWidth f ≤ 38 → 38 ≤ m)) ∨
    (maxMainTxtLen f = .error .assertion ∧ 76 ≤ leftWidth f) := by
  unfold maxMainTxtLen leftWidth
  rw [hc]
  simp only [Bool.false_eq_true, if_false]
  by_cases h1 : f.left_txt.length + f.left_space.length + (f.right_space.length + f.right_txt.length) < 38
  · rw [if_pos h1, if_pos (by omega)]
    left
    exact ⟨_, rfl, by omega, by omega, by omega⟩
  · rw [if_neg h1]
    by_cases h2 : f.left_txt.length + f.left_space.length < 76
    · rw [if_pos h2]
      left
      exact ⟨_, rfl, by omega, by omega, by omega⟩
    · rw [if_neg h2]
      right
      exact ⟨rfl, by omega⟩

theorem blanks_text_head (n : Nat) {t : Str} (h : t.head? ≠ some '&') :
    (blanks n ++ t).head? ≠ some '&' := by
  cases n with
  | zero => simpa [blanks] using h
  | succ n => simp [blanks, List.replicate_succ]

/-- What holds between two tokens. -/
structure LoopInv (L : Nat) (cm : List FileLine) (tr : List Str) (ts : List Str) (s : Fmt) : Prop where
  inv : FmtInv L cm tr s
  ends : s.cur.bits.continued = false
  start : s.start = true → s.cur.main_txt = []
  pos : 0 < s.maxLen
  text : Spaced ts (joinLines s.lines)

theorem LoopInv.write {L cm tr ts} {s : Fmt} (h : LoopInv L cm tr ts s) (n : Nat) (t : Str)
    (ht : t.head? ≠ some '&') :
    LoopInv L cm tr (ts ++ [t])
      { s with cur := { s.cur with main_txt := s.cur.main_txt ++ blanks n ++ t }, start := false } := by
  have hi := h.inv.setMain (s.cur.main_txt ++ blanks n ++ t)
  refine ⟨⟨hi.curFortran, hi.done, hi.rest, hi.left, hi.comments, hi.trail⟩, h.ends, by simp, h.pos, ?_⟩
  have : joinLines (Fmt.lines { s with
      cur := { s.cur with main_txt := s.cur.main_txt ++ blanks n ++ t }, start := false }) =
      joinLines s.lines ++ (blanks n ++ t) := by
    simp only [Fmt.lines]
    rw [List.append_assoc, joinLines_extend (blanks_text_head n ht)]
  rw [this, ← List.append_assoc]
  exact h.text.concat n t

/-- One token. -/
theorem token_step {L cm tr ts} {s : Fmt} (h : LoopInv L cm tr ts s) (t : Tok)
    (ht : t.text.head? ≠ some '&') :
    (∃ s', s.token t = .ok s' ∧ LoopInv L cm tr (ts ++ [t.text]) s' ∧ s'.start = false) ∨
    (s.token t = .error .assertion ∧ 76 ≤ L + 2) ∨
    (s.token t = .error .ub ∧ t.pre = none ∧ s.start = false) := by
  unfold Fmt.token
  rcases appendIf_cases s.cur.main_txt s.maxLen t s.start h.pos with ⟨n, hn, he, _⟩ | ⟨he, _⟩ |
    ⟨h1, h2, he⟩
  · rw [he]
    simp only [Res.ok_bind]
    exact Or.inl ⟨_, rfl, h.write n.toNat t.text ht, rfl⟩
  · rw [he]
    simp only [Res.ok_bind]
    by_cases hs : s.start = true
    · rw [if_pos hs]
      obtain ⟨s', r1, r2, r3, r4, r5, r6⟩ := splitTok_ok t h.inv h.ends (h.start hs) ht h.pos
      refine Or.inl ⟨s', r1, ⟨r2, r3, by simp [r6], by rw [r5]; exact h.pos, ?_⟩, r6⟩
      rw [r4]
      have := h.text.concat 0 t.text
      simpa [blanks] using this
    · rw [if_neg hs]
      obtain ⟨i1, i2, i3, i4, i5, i6, i7, i8⟩ := continueFl_inv h.inv
      have hcm := fortran_not_comment i1.curFortran
      have htext : joinLines s.continueFl.lines = joinLines s.lines := by
        rw [Fmt.lines, i2, joinLines_concat, i5, if_neg (by simp [Fmt.lines])]
        simp [dropAmp]
      rcases maxMainTxtLen_cases _ hcm with ⟨m, hm, hmp, _⟩ | ⟨hm, hw⟩
      · rw [hm]
        simp only [Res.ok_bind]
        have hl : LoopInv L cm tr ts { s.continueFl with start := true, maxLen := m } :=
          ⟨⟨i1.curFortran, i1.done, i1.rest, i1.left, i1.comments, i1.trail⟩, i3, fun _ => i2, hmp,
            by
              have : Fmt.lines { s.continueFl with start := true, maxLen := m } =
                s.continueFl.lines := rfl
              rw [this, htext]; exact h.text⟩
        rcases appendIf_cases s.continueFl.cur.main_txt m t true hmp with ⟨n, hn, he, _⟩ | ⟨he, _⟩ |
          ⟨h1, _⟩
        · rw [he]
          simp only [Res.ok_bind]
          exact Or.inl ⟨_, rfl, hl.write n.toNat t.text ht, rfl⟩
        · rw [he]
          simp only [Res.ok_bind]
          obtain ⟨s', r1, r2, r3, r4, r5, r6⟩ := splitTok_ok t hl.inv hl.ends (hl.start rfl) ht hl.pos
          refine Or.inl ⟨s', r1, ⟨r2, r3, by simp [r6], by rw [r5]; exact hl.pos, ?_⟩, r6⟩
          rw [r4]
          have := hl.text.concat 0 t.text
          simpa [blanks] using this
        · simp at h1
      · rw [hm]
        right; left
        refine ⟨rfl, ?_⟩
        have := i1.left
        omega
  · rw [he]
    exact Or.inr (Or.inr ⟨rfl, h2, h1⟩)

/-- The loop over the tokens: it either writes all of them or fails in one of two ways. -/
theorem tokens_loop {L cm tr} : ∀ (toks : List Tok) (ts : List Str) (s : Fmt),
    LoopInv L cm tr ts s → (∀ t ∈ toks, t.text.head? ≠ some '&') →
    (∃ s', s.tokens toks = .ok s' ∧ LoopInv L cm tr (ts ++ toks.map Tok.text) s') ∨
    (s.tokens toks = .error .assertion ∧ 76 ≤ L + 2) ∨
    (s.tokens toks = .error .ub ∧
      ∃ t ∈ (if s.start then toks.tail else toks), t.pre = none) := by
  intro toks
  induction toks with
  | nil =>
    intro ts s h _
    exact Or.inl ⟨s, rfl, by simpa using h⟩
  | cons t toks ih =>
    intro ts s h ht
    rw [Fmt.tokens]
    rcases token_step h t (ht t (by simp)) with ⟨s1, h1, h2, h3⟩ | ⟨h1, h2⟩ | ⟨h1, h2, h3⟩
    · rw [h1]
      simp only [Res.ok_bind]
      rcases ih (ts ++ [t.text]) s1 h2 (fun u hu => ht u (by simp [hu])) with ⟨s', r1, r2⟩ |
        ⟨r1, r2⟩ | ⟨r1, u, hu, r2⟩
      · exact Or.inl ⟨s', r1, by simpa using r2⟩
      · exact Or.inr (Or.inl ⟨r1, r2⟩)
      · refine Or.inr (Or.inr ⟨r1, u, ?_, r2⟩)
        rw [h3] at hu
        split
        · simpa using hu
        · exact List.mem_cons_of_mem _ (by simpa using hu)
    · rw [h1]
      exact Or.inr (Or.inl ⟨rfl, h2⟩)
    · rw [h1]
      refine Or.inr (Or.inr ⟨rfl, t, ?_, h2⟩)
      rw [h3]; simp

theorem leftover_not_fortran (f : FileLine) : (leftover f).isFortran = false := by
  unfold leftover
  split
  · rename_i h; exact comment_not_fortran h
  · dsimp only
    split
    · simp [FileLine.isFortran, FileLine.isTrivial]
    · simp [FileLine.isFortran, FileLine.isTrivial]

theorem leftover_comment {f : FileLine} (h : f.bits.comment = true) : leftover f = f := by
  unfold leftover; rw [if_pos h]

theorem leftover_trailing (f : FileLine) : trailing (leftover f) = trailing f := by
  unfold leftover
  split
  · rfl
  · dsimp only
    split
    · exact makeUncontinued_trailing f
    · exact makeUncontinued_trailing f

/-- A line that is taken out has nothing behind its statement text. -/
theorem leftover_blank {f : FileLine} (h : f.bits.blank = false) :
    (leftover f).bits.blank = true → blanked f = true ∧ trailing f = [] := by
  unfold leftover blanked
  split
  · rw [h]; simp
  · rename_i hc
    dsimp only
    split
    · rename_i hr
      intro _
      refine ⟨by simp [hc, hr], ?_⟩
      rw [← makeUncontinued_trailing f]
      simp [trailing, hr]
    · intro hb
      simp [makeUncontinued_bits, h] at hb

theorem trailings_leftover (fs : List FileLine) (h : ∀ f ∈ fs, f.bits.blank = false) :
    trailings ((fs.map leftover).filter (fun f => !f.bits.blank)) = trailings fs ∧
    trailings (fs.map leftover) = trailings fs := by
  induction fs with
  | nil => exact ⟨rfl, rfl⟩
  | cons f fs ih =>
    obtain ⟨h1, h2⟩ := ih (fun g hg => h g (by simp [hg]))
    have e : trailings (f :: fs) = trailings [f] ++ trailings fs := trailings_append [f] fs
    have e2 : trailings (leftover f :: fs.map leftover) =
        trailings [leftover f] ++ trailings (fs.map leftover) := trailings_append [leftover f] _
    refine ⟨?_, by rw [List.map_cons, e2, e, h2, trailings_single (leftover_trailing f)]⟩
    rw [List.map_cons, List.filter_cons]
    by_cases hb : (leftover f).bits.blank = true
    · rw [if_neg (by simp [hb]), h1, e]
      have := (leftover_blank (h f (by simp)) hb).2
      simp [trailings, this]
    · rw [if_pos (by simpa using hb)]
      have e3 : ∀ r : List FileLine, trailings (leftover f :: r) =
        trailings [leftover f] ++ trailings r := trailings_append [leftover f]
      rw [e3, h1, e, trailings_single (leftover_trailing f)]

end FLPR
