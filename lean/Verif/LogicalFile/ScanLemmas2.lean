import Verif.LogicalFile.ScanLemmas
import Verif.LogicalFile.ScanSpec
/-!
# Helper lemmas for the grouping loops
-/

namespace FLPR
open Spec

theorem lastNonBlankChar_iff (s : Str) : lastNonBlankChar s = '\\' ↔ EndsBackslash s := by
  unfold lastNonBlankChar
  constructor
  · intro h
    split at h
    · exact absurd h (by decide)
    · rename_i k hk
      have hle := lastNotOfSucc_le [' ', '\t'] s
      have hlt : k < s.length := by omega
      refine ⟨s.take k, s.drop (k + 1), ?_, ?_⟩
      · have : s[k] = '\\' := by simpa [List.getD_eq_getElem?_getD, hlt] using h
        rw [← this, List.getElem_cons_drop, List.take_append_drop]
      · intro c hc
        have := lastNotOfSucc_drop [' ', '\t'] s c (by rw [hk]; exact hc)
        simpa using this
  · rintro ⟨a, w, rfl, hw⟩
    have : lastNotOfSucc [' ', '\t'] (a ++ '\\' :: w) = a.length + 1 := by
      unfold lastNotOfSucc
      simp only [List.reverse_append, List.reverse_cons, List.append_assoc, List.cons_append,
        List.nil_append]
      rw [List.dropWhile_append]
      have h1 : (List.dropWhile (fun c => [' ', '\t'].contains c) w.reverse) = [] := by
        simp only [List.dropWhile_eq_nil_iff, List.mem_reverse]
        intro c hc
        rcases hw c hc with rfl | rfl <;> decide
      rw [h1]
      simp
    rw [this]
    simp

theorem endsBackslash_append (a b : Str) : EndsBackslash (a ++ b) ↔
    EndsBackslash b ∨ (EndsBackslash a ∧ ∀ c ∈ b, c = ' ' ∨ c = '\t') := by
  constructor
  · rintro ⟨x, w, h, hw⟩
    rcases List.append_eq_append_iff.mp h with ⟨t, rfl, h2⟩ | ⟨t, rfl, h2⟩
    · exact Or.inl ⟨t, w, h2, hw⟩
    · cases t with
      | nil => simp at h2; exact Or.inl ⟨[], w, by simp [h2], hw⟩
      | cons c t =>
        simp at h2
        obtain ⟨rfl, rfl⟩ := h2
        exact Or.inr ⟨⟨x, t, rfl, fun c hc => hw c (by simp [hc])⟩, fun c hc => hw c (by simp [hc])⟩
  · rintro (⟨x, w, rfl, hw⟩ | ⟨⟨x, w, rfl, hw⟩, hb⟩)
    · exact ⟨a ++ x, w, by simp, hw⟩
    · refine ⟨x, w ++ b, by simp, ?_⟩
      intro c hc
      rcases List.mem_append.mp hc with hc | hc
      · exact hw c hc
      · exact hb c hc

theorem endsBackslash_blanks (n : Nat) : ¬ EndsBackslash (blanks n) := by
  rintro ⟨x, w, h, _⟩
  have : '\\' ∈ blanks n := by rw [h]; simp
  simp [blanks] at this

theorem makePre_left (f : FileLine) : lastNonBlankChar f.makePreprocessor.left_txt = '\\' ↔
    EndsBackslash f.print := by
  rw [lastNonBlankChar_iff]
  unfold FileLine.print
  have hl : f.makePreprocessor.left_txt =
      f.left_txt ++ (f.left_space ++ f.main_txt ++ f.right_space ++ f.right_txt) := rfl
  rw [hl]
  split
  · generalize hw : f.left_space ++ f.main_txt ++ f.right_space ++ f.right_txt = w
    have hp : FileLine.padRight6 f.left_txt ++ f.left_space ++ f.main_txt ++ f.right_space ++
        f.right_txt = f.left_txt ++ blanks (6 - f.left_txt.length) ++ w := by
      rw [← hw]; simp [FileLine.padRight6]
    have hbl : ∀ c ∈ blanks (6 - f.left_txt.length), c = ' ' ∨ c = '\t' := by
      intro c hc; left; simpa [blanks] using (List.mem_replicate.mp hc).2
    rw [hp]
    simp only [endsBackslash_append, endsBackslash_blanks]
    tauto
  · simp

/-- `absorb` takes a prefix of the lines. -/
theorem absorb_spec (prev : FileLine) (fl : List FileLine) :
    ∃ cs, fl = cs ++ (absorb prev fl).2 ∧ (absorb prev fl).1 = cs.map (·.makePreprocessor) ∧
      (cs ≠ [] → lastNonBlankChar prev.left_txt = '\\') ∧
      (∀ x ∈ cs.dropLast, EndsBackslash x.print) ∧
      ((absorb prev fl).2 ≠ [] → (cs = [] ∧ lastNonBlankChar prev.left_txt ≠ '\\') ∨
        (∃ x, cs.getLast? = some x ∧ ¬ EndsBackslash x.print)) := by
  induction fl generalizing prev with
  | nil => exact ⟨[], by simp [absorb]⟩
  | cons f fs ih =>
    unfold absorb
    split
    · rename_i hp
      obtain ⟨cs, h1, h2, h3, h4, h5⟩ := ih f.makePreprocessor
      refine ⟨f :: cs, ?_, ?_, fun _ => hp, ?_, ?_⟩
      · dsimp only; rw [List.cons_append, ← h1]
      · dsimp only; rw [h2]; rfl
      · intro x hx
        cases cs with
        | nil => simp at hx
        | cons c cs =>
          simp only [List.dropLast_cons_cons, List.mem_cons] at hx
          rcases hx with rfl | hx
          · exact (makePre_left _).mp (h3 (by simp))
          · exact h4 x hx
      · intro hr
        right
        rcases h5 hr with ⟨rfl, h⟩ | ⟨x, hx, h⟩
        · exact ⟨f, rfl, fun he => h ((makePre_left f).mpr he)⟩
        · refine ⟨x, ?_, h⟩
          cases cs with
          | nil => simp at hx
          | cons c cs => rw [List.getLast?_cons_cons]; exact hx
    · rename_i hp
      exact ⟨[], by simp, by simp, by simp, by simp, fun _ => Or.inl ⟨rfl, hp⟩⟩

theorem left_print {f : FileLine} (h : LeftOnly f) (hf : f.isFortran = false) :
    lastNonBlankChar f.left_txt = '\\' ↔ EndsBackslash f.print := by
  obtain ⟨h1, h2, h3, h4⟩ := h
  rw [lastNonBlankChar_iff]
  unfold FileLine.print
  simp [hf, h1, h2, h3, h4]

theorem directive_spec {f : FileLine} {fs : List FileLine} (hl : LeftOnly f)
    (hf : f.isFortran = false) (ht : f.isTrivial = false) (hlit : f.bits.flpr_lit = false)
    (hp : (f.bits.preprocessor || f.bits.flpr_pp || f.bits.incl) = true) :
    ∃ chunk, f :: fs = chunk ++ (absorb f fs).2 ∧ chunk ≠ [] ∧
      DirectiveBlock chunk { layout := f :: (absorb f fs).1, cat := ppCat f } (absorb f fs).2 := by
  obtain ⟨cs, h1, h2, h3, h4, h5⟩ := absorb_spec f fs
  refine ⟨f :: cs, by rw [List.cons_append, ← h1], by simp, f, cs, rfl, ht, hlit, ?_, ?_, ?_, ?_,
    rfl, ?_, ?_, ?_⟩
  · simp at hp; tauto
  · intro x hx
    cases cs with
    | nil => simp at hx
    | cons c cs =>
      simp only [List.dropLast_cons_cons, List.mem_cons] at hx
      rcases hx with rfl | hx
      · exact (left_print hl hf).mp (h3 (by simp))
      · exact h4 x hx
  · intro hr x hx
    rcases h5 hr with ⟨rfl, h⟩ | ⟨y, hy, h⟩
    · simp at hx; subst hx
      exact fun he => h ((left_print hl hf).mpr he)
    · cases cs with
      | nil => simp at hy
      | cons c cs =>
        rw [List.getLast?_cons_cons, hy] at hx
        simp at hx; subst hx; exact h
  · dsimp only; rw [h2]
  · intro h; simp [ppCat, h]
  · intro h h'; simp [ppCat, h, h']
  · intro h h'; simp [ppCat, h, h']

theorem head?_dropWhile {α : Type} (p : α → Bool) (l : List α) (x : α)
    (h : (l.dropWhile p).head? = some x) : p x = false := by
  induction l with
  | nil => simp at h
  | cons a l ih =>
    rw [List.dropWhile_cons] at h
    split at h
    · exact ih h
    · rename_i hp; simp at h; subst h; simpa using hp

theorem trivial_spec {f : FileLine} {fs : List FileLine} (ht : f.isTrivial = true) :
    ∃ chunk, f :: fs = chunk ++ (f :: fs).dropWhile (·.isTrivial) ∧ chunk ≠ [] ∧
      TrivialBlock chunk { layout := (f :: fs).takeWhile (·.isTrivial) }
        ((f :: fs).dropWhile (·.isTrivial)) := by
  refine ⟨(f :: fs).takeWhile (·.isTrivial), (List.takeWhile_append_dropWhile ..).symm,
    by simp [ht], ?_, ?_, rfl⟩
  · intro x hx
    exact List.mem_takeWhile_imp (p := fun y : FileLine => y.isTrivial) hx
  · intro x hx
    exact head?_dropWhile (fun y : FileLine => y.isTrivial) _ x hx

theorem literal_spec {f : FileLine} {fs : List FileLine} (ht : f.isTrivial = false)
    (hlit : f.bits.flpr_lit = true) :
    ∃ chunk, f :: fs = chunk ++ (f :: fs).dropWhile (·.bits.flpr_lit) ∧ chunk ≠ [] ∧
      LiteralBlock chunk { layout := (f :: fs).takeWhile (·.bits.flpr_lit), cat := .literal }
        ((f :: fs).dropWhile (·.bits.flpr_lit)) := by
  refine ⟨(f :: fs).takeWhile (·.bits.flpr_lit), (List.takeWhile_append_dropWhile ..).symm,
    by simp [hlit], ?_, ?_, rfl⟩
  · intro x hx
    refine ⟨List.mem_takeWhile_imp (p := fun y : FileLine => y.bits.flpr_lit) hx, ?_⟩
    intro hh
    simp [hlit] at hh
    subst hh; exact ht
  · intro x hx
    exact head?_dropWhile (fun y : FileLine => y.bits.flpr_lit) _ x hx

theorem freeStmt_spec {f : FileLine} {fs : List FileLine} (hf : f.isFortran = true) :
    ∃ chunk, f :: fs = chunk ++ (f :: fs).drop (freeStmtLen (f :: fs)) ∧ chunk ≠ [] ∧
      FreeStatement chunk { layout := (f :: fs).take (freeStmtLen (f :: fs)) }
        ((f :: fs).drop (freeStmtLen (f :: fs))) := by
  have hpos := freeStmtLen_pos (f :: fs)
  refine ⟨(f :: fs).take (freeStmtLen (f :: fs)), (List.take_append_drop _ _).symm,
    by simp; omega, f, fs.take (freeStmtLen (f :: fs) - 1), ?_, hf, rfl, ?_⟩
  · obtain ⟨k, hk⟩ : ∃ k, freeStmtLen (f :: fs) = k + 1 := ⟨_, (Nat.succ_pred_eq_of_pos hpos).symm⟩
    rw [hk]; rfl
  · have hlen : freeStmtLen (f :: fs) = freeStmtLen (f :: fs) := rfl
    conv at hlen => rhs; unfold freeStmtLen
    split at hlen
    · rename_i k hk
      left
      rw [hlen]
      rw [List.findIdx?_eq_some_iff_getElem] at hk
      obtain ⟨hlt, hk1, hk2⟩ := hk
      constructor
      · intro x hx
        obtain ⟨i, hi, rfl⟩ := List.getElem_of_mem hx
        have hi' : i < k := by
          simp only [List.length_dropLast, List.length_take] at hi
          omega
        have := hk2 i hi'
        simp only [List.getElem_dropLast, List.getElem_take]
        cases h1 : (f :: fs)[i].isTrivial <;> cases h2 : (f :: fs)[i].bits.continued <;>
          simp_all
      · intro x hx
        have : ((f :: fs).take (k + 1)).getLast? = some (f :: fs)[k] := by
          rw [List.getLast?_take]
          simp
        rw [this] at hx
        simp only [Option.some.injEq] at hx
        subst hx
        simpa using hk1
    · rename_i hk
      right
      rw [hlen]
      refine ⟨by simp, ?_⟩
      rw [List.findIdx?_eq_none_iff] at hk
      intro x hx
      have := hk x (by simpa using hx)
      cases h1 : x.isTrivial <;> cases h2 : x.bits.continued <;> simp_all

theorem lastCode_spec (i last : Nat) (fs : List FileLine) (h : last < i) :
    (lastCode i last fs = last ∧
      (∀ x, (fs.dropWhile (fun y => y.isTrivial && !y.bits.continuation)).head? = some x →
        x.bits.continuation = false)) ∨
    (∃ cs c rest, fs = cs ++ c :: rest ∧ lastCode i last fs = i + cs.length ∧
      (∀ x ∈ cs, x.bits.continuation = true ∨ x.isTrivial = true) ∧ c.bits.continuation = true ∧
      (∀ x, (rest.dropWhile (fun y => y.isTrivial && !y.bits.continuation)).head? = some x →
        x.bits.continuation = false)) := by
  induction fs generalizing i last with
  | nil => left; simp [lastCode]
  | cons f fs ih =>
    unfold lastCode
    split
    · rename_i hc
      right
      rcases ih (i + 1) i (by omega) with ⟨h1, h2⟩ | ⟨cs, c, rest, h1, h2, h3, h4, h5⟩
      · exact ⟨[], f, fs, rfl, by simpa using h1, by simp, hc, h2⟩
      · refine ⟨f :: cs, c, rest, by simp [h1], by simp [h2]; omega, ?_, h4, h5⟩
        intro x hx
        rcases List.mem_cons.mp hx with rfl | hx
        · exact Or.inl hc
        · exact h3 x hx
    · rename_i hc
      split
      · rename_i ht
        rcases ih (i + 1) last (by omega) with ⟨h1, h2⟩ | ⟨cs, c, rest, h1, h2, h3, h4, h5⟩
        · left
          refine ⟨h1, ?_⟩
          rw [List.dropWhile_cons, if_pos (by simp [ht, hc])]
          exact h2
        · right
          refine ⟨f :: cs, c, rest, by simp [h1], by simp [h2]; omega, ?_, h4, h5⟩
          intro x hx
          rcases List.mem_cons.mp hx with rfl | hx
          · exact Or.inr ht
          · exact h3 x hx
      · rename_i ht
        left
        refine ⟨rfl, ?_⟩
        intro x hx
        rw [List.dropWhile_cons, if_neg (by simp [ht])] at hx
        simp at hx; subst hx; simpa using hc

theorem fixedStmt_spec {f : FileLine} {fs : List FileLine} (hf : f.isFortran = true) :
    ∃ chunk, f :: fs = chunk ++ (f :: fs).drop (lastCode 1 0 fs + 1) ∧ chunk ≠ [] ∧
      FixedStatement chunk
        { layout := (f :: fs).take (lastCode 1 0 fs + 1), needs_reformat := true }
        ((f :: fs).drop (lastCode 1 0 fs + 1)) := by
  refine ⟨(f :: fs).take (lastCode 1 0 fs + 1), (List.take_append_drop _ _).symm, by simp,
    f, fs.take (lastCode 1 0 fs), rfl, hf, rfl, ?_⟩
  rw [List.drop_succ_cons]
  rcases lastCode_spec 1 0 fs (by omega) with ⟨h1, h2⟩ | ⟨cs, c, rest, h1, h2, h3, h4, h5⟩
  · rw [h1]; simpa using h2
  · rw [h2]
    have e : fs = (cs ++ [c]) ++ rest := by simp [h1]
    have ht : fs.take (1 + cs.length) = cs ++ [c] := by
      rw [e, List.take_append_of_le_length (by simp; omega), List.take_of_length_le (by simp; omega)]
    have hd : fs.drop (1 + cs.length) = rest := by
      rw [e, List.drop_append_of_le_length (by simp; omega), List.drop_of_length_le (by simp; omega)]
      rfl
    rw [ht, hd]
    refine ⟨?_, ?_, h5⟩
    · intro x hx
      rcases List.mem_append.mp hx with hx | hx
      · exact h3 x hx
      · simp at hx; subst hx; exact Or.inl h4
    · intro x hx
      simp at hx; subst hx; exact h4

/-- One turn of the loop of `scan_free`. -/
theorem nextFree_spec {f : FileLine} {fs : List FileLine} (hl : f.isFortran = false → LeftOnly f) :
    ∃ g rest, nextFree f fs = .ok (g, rest) ∧
      ∃ chunk, f :: fs = chunk ++ rest ∧ chunk ≠ [] ∧ FreeChunk chunk g rest := by
  unfold nextFree
  split
  · rename_i ht
    obtain ⟨chunk, h1, h2, h3⟩ := trivial_spec (fs := fs) ht
    exact ⟨_, _, rfl, chunk, h1, h2, Or.inl h3⟩
  split
  · rename_i ht hlit
    obtain ⟨chunk, h1, h2, h3⟩ := literal_spec (fs := fs) (by simpa using ht) hlit
    exact ⟨_, _, rfl, chunk, h1, h2, Or.inr (Or.inl h3)⟩
  split
  · rename_i ht hlit hf
    simp only [Bool.not_eq_true] at ht hlit
    have hf' : f.isFortran = false := by simpa using hf
    have hp : (f.bits.preprocessor || f.bits.flpr_pp || f.bits.incl) = true := by
      have := hf'
      unfold FileLine.isFortran at this
      rw [ht, hlit] at this
      revert this
      cases f.bits.preprocessor <;> cases f.bits.flpr_pp <;> cases f.bits.incl <;> simp
    rw [if_pos hp]
    obtain ⟨chunk, h1, h2, h3⟩ := directive_spec (fs := fs) (hl hf') hf' ht hlit hp
    exact ⟨_, _, rfl, chunk, h1, h2, Or.inr (Or.inr (Or.inl h3))⟩
  · rename_i ht hlit hf
    obtain ⟨chunk, h1, h2, h3⟩ := freeStmt_spec (fs := fs) (by simpa using hf)
    exact ⟨_, _, rfl, chunk, h1, h2, Or.inr (Or.inr (Or.inr h3))⟩

/-- One turn of the loop of `scan_fixed`. -/
theorem nextFixed_spec {f : FileLine} {fs : List FileLine} (hl : f.isFortran = false → LeftOnly f)
    (hlit : f.bits.flpr_lit = false) :
    ∃ g rest, nextFixed f fs = .ok (g, rest) ∧
      ∃ chunk, f :: fs = chunk ++ rest ∧ chunk ≠ [] ∧ FixedChunk chunk g rest := by
  unfold nextFixed
  split
  · rename_i ht
    obtain ⟨chunk, h1, h2, h3⟩ := trivial_spec (fs := fs) ht
    exact ⟨_, _, rfl, chunk, h1, h2, Or.inl h3⟩
  split
  · rename_i ht hf
    simp only [Bool.not_eq_true] at ht
    have hf' : f.isFortran = false := by simpa using hf
    have hp : (f.bits.preprocessor || f.bits.flpr_pp || f.bits.incl) = true := by
      have := hf'
      unfold FileLine.isFortran at this
      rw [ht, hlit] at this
      revert this
      cases f.bits.preprocessor <;> cases f.bits.flpr_pp <;> cases f.bits.incl <;> simp
    rw [if_pos hp]
    obtain ⟨chunk, h1, h2, h3⟩ := directive_spec (fs := fs) (hl hf') hf' ht hlit hp
    exact ⟨_, _, rfl, chunk, h1, h2, Or.inr (Or.inl h3)⟩
  · rename_i ht hf
    obtain ⟨chunk, h1, h2, h3⟩ := fixedStmt_spec (fs := fs) (by simpa using hf)
    exact ⟨_, _, rfl, chunk, h1, h2, Or.inr (Or.inr h3)⟩

/-- The loop: it ends, and cuts the lines into chunks. -/
theorem groupLoop_spec {next : FileLine → List FileLine → Res (Group × List FileLine)}
    {P : List FileLine → Group → List FileLine → Prop} {I : FileLine → Prop}
    (hn : ∀ f fs, I f → ∃ g rest, next f fs = .ok (g, rest) ∧
      ∃ chunk, f :: fs = chunk ++ rest ∧ chunk ≠ [] ∧ P chunk g rest)
    (n : Nat) (fl : List FileLine) (hlen : fl.length ≤ n) (hI : ∀ f ∈ fl, I f) :
    ∃ gs, groupLoop next n fl = .ok gs ∧ Cut P fl gs := by
  induction n generalizing fl with
  | zero =>
    cases fl with
    | nil => exact ⟨[], rfl, Cut.nil⟩
    | cons f fs => simp at hlen
  | succ n ih =>
    cases fl with
    | nil => exact ⟨[], rfl, Cut.nil⟩
    | cons f fs =>
      obtain ⟨g, rest, h1, chunk, h2, h3, h4⟩ := hn f fs (hI f (by simp))
      have hcl : 0 < chunk.length := List.length_pos_iff.mpr h3
      have hll : (f :: fs).length = chunk.length + rest.length := by rw [h2]; simp
      obtain ⟨gs, k1, k2⟩ := ih rest (by omega)
        (fun x hx => hI x (by rw [h2]; simp [hx]))
      refine ⟨g :: gs, ?_, ?_⟩
      · simp [groupLoop, h1, k1]
      · rw [h2]; exact Cut.cons h3 h4 k2

end FLPR
