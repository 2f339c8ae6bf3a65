import Verif.Indent.Spec
import Verif.FileLine.ModProps2
/-!
# Moving lines: lemmas
-/

namespace FLPR
namespace Ind
open Spec PP

theorem blanks_length (n : Nat) : (blanks n).length = n := by simp [blanks]

theorem find_bang_blanks (m : Nat) (s : Str) : findChar '!' (blanks m ++ '!' :: s) = some m := by
  have hb : '!' ∉ blanks m := by intro hx; simp [blanks] at hx
  rw [findChar_append_of_notMem hb]; simp [blanks]

theorem findChar_split {c : Char} {s : Str} {pos : Nat} (h : findChar c s = some pos) :
    ∃ t, s.drop pos = c :: t := by
  unfold findChar at h
  rw [List.findIdx?_eq_some_iff_getElem] at h
  obtain ⟨h1, h2, _⟩ := h
  refine ⟨s.drop (pos + 1), ?_⟩
  rw [List.drop_eq_getElem_cons h1]
  simp at h2
  rw [h2]

/-- Moving the text of a line a second time to the same place. -/
theorem moveMain_again {f g : FileLine} {n : Nat} {o : Offset} (h : f.moveMain n = .ok (some (g, o))) (g' : FileLine)
    (hl : g'.left_txt = g.left_txt) (hs : g'.left_space = g.left_space) (hb : g'.bits = g.bits) :
    g'.moveMain n = .ok none ∨ (g'.moveMain n = .ok (some (g', .val 0))) ∨
      (o = .uninit ∧ g'.moveMain n = .ok (some (g', .uninit))) := by
  unfold FileLine.moveMain at h
  dsimp only at h
  have hbits := (moveMain_same (f := f) (g := g) (n := n) (o := o) (by unfold FileLine.moveMain; exact h)).1.2.2.2.2.1
  unfold FileLine.moveMain
  dsimp only
  rw [hl, hs, hb, hbits]
  split at h
  · rename_i h0
    split at h
    · simp at h
    · simp at h
      obtain ⟨rfl, rfl⟩ := h
      rw [if_pos h0]
      simp [blanks]
  · rename_i h0
    split at h
    · rename_i hlab
      split at h
      · rename_i hlt
        split at h
        · simp at h
        · simp at h
          obtain ⟨rfl, rfl⟩ := h
          rw [if_neg h0, if_pos hlab, if_pos hlt]
          simp [blanks]
      · rename_i hlt
        split at h
        · simp at h
        · simp at h
          obtain ⟨rfl, rfl⟩ := h
          rw [if_neg h0, if_pos hlab, if_neg hlt]
          simp
    · rename_i hlab
      split at h
      · rename_i hcn
        split at h
        · simp at h
        · split at h
          · rename_i hlt
            simp at h
            obtain ⟨rfl, rfl⟩ := h
            rw [if_neg (by simp [h0]), if_neg hlab, if_pos hcn, if_pos (by simp [blanks]; omega)]
            exact .inl rfl
          · rename_i hne hlt
            split at h
            · simp at h
            · rename_i pos hpos
              simp only [Except.ok.injEq, Option.some.injEq, Prod.mk.injEq] at h
              obtain ⟨rfl, rfl⟩ := h
              obtain ⟨p1, p2, c, t, p3, p4⟩ := findFirst_blank_some hpos
              dsimp only
              generalize hm : min pos (f.left_txt.length + f.left_space.length - n) = m
              have hlen : m < f.left_txt.length := by omega
              have hne' : f.left_txt.drop m ≠ [] := by
                intro he
                have := congrArg List.length he
                simp at this
                omega
              rw [if_neg hne', if_neg hlab, if_pos hcn]
              by_cases he : (f.left_txt.drop m).length + f.left_space.length = n
              · rw [if_pos he]; exact .inl rfl
              · rw [if_neg he]
                have hl' : (f.left_txt.drop m).length = f.left_txt.length - m := List.length_drop
                rw [if_neg (by omega)]
                -- all the blanks are gone
                have hmp : m = pos := by omega
                have : findFirstNotOf [' '] (f.left_txt.drop m) = some 0 := by
                  rw [hmp, p3]
                  unfold findFirstNotOf
                  simp [List.findIdx?_cons, p4]
                rw [this]
                simp only [Nat.zero_min, List.drop_zero]
                right; left
                have e : ({ g' with left_txt := f.left_txt.drop m, left_space := f.left_space, bits := f.bits } : FileLine) = g' := by
                  cases g'
                  dsimp only at hl hs hb
                  rw [hl, hs, hb, hm]
                rw [e]; rfl
      · rename_i hcn
        simp only [Except.ok.injEq, Option.some.injEq, Prod.mk.injEq] at h
        obtain ⟨rfl, rfl⟩ := h
        rw [if_neg h0, if_neg hlab, if_neg hcn]
        exact .inr (.inr ⟨rfl, rfl⟩)

theorem setLeadingComment_at (f : FileLine) (n : Nat) (lt : Str) (h : ∃ t, lt = '!' :: t) :
    FileLine.setLeadingComment { f with left_txt := blanks n ++ lt, left_space := [], main_txt := [], right_space := [], right_txt := [] } n =
      ({ f with left_txt := blanks n ++ lt, left_space := [], main_txt := [], right_space := [], right_txt := [] }, false) := by
  obtain ⟨t, rfl⟩ := h
  unfold FileLine.setLeadingComment
  dsimp only
  rw [find_bang_blanks]
  simp

/-- Moving a line a second time to the same column changes nothing. -/
theorem setLeadingSpaces_again {f g : FileLine} {n : Nat} {b : Bool} (h : f.setLeadingSpaces n = .ok (g, b)) :
    ∃ b', g.setLeadingSpaces n = .ok (g, b') := by
  unfold FileLine.setLeadingSpaces at h
  split at h
  · rename_i hc
    have hc' : g.bits.comment = true → g.setLeadingSpaces n = .ok (g.setLeadingComment n) := by
      intro hc; unfold FileLine.setLeadingSpaces; rw [if_pos hc]
    suffices hx : g.bits.comment = true ∧ ∃ b', g.setLeadingComment n = (g, b') by
      obtain ⟨h1, b', h2⟩ := hx
      exact ⟨b', by rw [hc' h1, h2]⟩
    simp only [Except.ok.injEq] at h
    unfold FileLine.setLeadingComment at h
    split at h
    · rename_i pos hpos
      dsimp only at h
      split at h
      · rename_i he
        simp only [Prod.mk.injEq] at h
        obtain ⟨rfl, rfl⟩ := h
        refine ⟨hc, false, ?_⟩
        unfold FileLine.setLeadingComment
        simp only [hpos, he, if_true]
      · simp only [Prod.mk.injEq] at h
        obtain ⟨rfl, rfl⟩ := h
        refine ⟨hc, false, ?_⟩
        refine setLeadingComment_at f n _ ?_
        · obtain ⟨t, ht⟩ := findChar_split hpos
          split
          · rename_i h0
            rw [h0] at ht
            simp only [List.drop_zero] at ht
            split
            · split
              · split <;> exact ⟨_, by rw [ht]; rfl⟩
              · exact ⟨_, ht⟩
            · exact ⟨_, ht⟩
          · exact ⟨t, ht⟩
    · rename_i hnone
      split at h
      · rename_i pos hpos
        obtain ⟨t, ht⟩ := findChar_split hpos
        dsimp only at h
        have key : ∀ g : FileLine, g.bits.comment = true → g.left_txt = f.left_txt → g.main_txt = '!' :: t →
            (g.left_txt.length + g.left_space.length = n ∨ ¬ g.left_txt.length < n) →
            g.bits.comment = true ∧ ∃ b', g.setLeadingComment n = (g, b') := by
          intro g h1 h2 h3 h4
          refine ⟨h1, false, ?_⟩
          unfold FileLine.setLeadingComment
          rw [h2, hnone, h3]
          have : findChar '!' ('!' :: t) = some 0 := by simp [findChar, List.findIdx?_cons]
          rw [this]
          simp only [Nat.lt_irrefl, gt_iff_lt, if_false, Nat.add_zero]
          rw [h2] at h4
          rcases h4 with h4 | h4
          · rw [if_pos h4]
          · split
            · rfl
            · rfl
        have hm : ∀ g0 : FileLine,
            g0 = (if pos > 0 then { f with main_txt := f.main_txt.drop pos, left_space := f.left_space ++ blanks pos } else f) →
            g0.bits.comment = true ∧ g0.left_txt = f.left_txt ∧ g0.main_txt = '!' :: t ∧
              g0.left_txt.length + g0.left_space.length = f.left_txt.length + f.left_space.length + pos := by
          intro g0 hg
          by_cases hp : pos > 0
          · rw [if_pos hp] at hg
            subst hg
            exact ⟨hc, rfl, ht, by simp [blanks]; omega⟩
          · rw [if_neg hp] at hg
            subst hg
            have : pos = 0 := by omega
            subst this
            exact ⟨hc, rfl, by simpa using ht, by omega⟩
        obtain ⟨m1, m2, m3, m4⟩ := hm _ rfl
        split at h
        · rename_i he
          simp only [Prod.mk.injEq] at h
          obtain ⟨hg, _⟩ := h
          rw [hg] at m1 m2 m3 m4
          exact key _ m1 m2 m3 (.inl (by omega))
        · split at h
          · rename_i hlt
            simp only [Prod.mk.injEq] at h
            obtain ⟨rfl, _⟩ := h
            exact key _ m1 m2 m3 (.inl (by
              dsimp only
              rw [m2]
              simp [blanks]; omega))
          · rename_i hlt
            simp only [Prod.mk.injEq] at h
            obtain ⟨hg, _⟩ := h
            rw [hg] at m1 m2 m3 m4
            exact key _ m1 m2 m3 (.inr (by rw [m2]; exact hlt))
      · rename_i hnm
        simp only [Prod.mk.injEq] at h
        obtain ⟨rfl, _⟩ := h
        refine ⟨hc, false, ?_⟩
        unfold FileLine.setLeadingComment
        rw [hnone, hnm]
  · rename_i hc
    split at h
    · rename_i hf
      rbind h with x hx
      split at h
      · simp at h
        obtain ⟨rfl, rfl⟩ := h
        refine ⟨false, ?_⟩
        unfold FileLine.setLeadingSpaces
        rw [if_neg hc, if_pos hf, hx]
        rfl
      · rename_i g0 o0
        rbind h with y hy
        simp at h
        obtain ⟨rfl, rfl⟩ := h
        obtain ⟨hs1, hs2⟩ := moveMain_same hx
        obtain ⟨ht1, ht2, ht3⟩ := adjustRight_same hy
        have hb : y.bits = f.bits := by rw [ht1.2.2.2.2.1, hs1.2.2.2.2.1]
        have hf' : y.isFortran = true := by
          unfold FileLine.isFortran FileLine.isTrivial at hf ⊢; rw [hb]; exact hf
        unfold FileLine.setLeadingSpaces
        rw [if_neg (by rw [hb]; exact hc), if_pos hf']
        rcases moveMain_again hx y ht2 ht3 ht1.2.2.2.2.1 with h1 | h1 | ⟨h0, h1⟩
        · rw [h1]; exact ⟨false, rfl⟩
        · rw [h1]
          refine ⟨true, ?_⟩
          have : y.adjustRight (.val 0) = .ok y := by
            unfold FileLine.adjustRight
            split <;> simp
          simp only [Res.ok_bind, this]
        · rw [h1]
          refine ⟨true, ?_⟩
          have : y.adjustRight .uninit = .ok y := by
            subst h0
            unfold FileLine.adjustRight at hy
            split at hy
            · rename_i hr
              simp at hy
              subst hy
              unfold FileLine.adjustRight
              rw [if_pos hr]
            · simp at hy
          simp only [Res.ok_bind, this]
    · rename_i hf
      simp at h
      obtain ⟨rfl, rfl⟩ := h
      refine ⟨false, ?_⟩
      unfold FileLine.setLeadingSpaces
      rw [if_neg hc, if_neg hf]

/-- Moving a line keeps its flags. -/
theorem setLeadingSpaces_bits {f g : FileLine} {n : Nat} {b : Bool} (h : f.setLeadingSpaces n = .ok (g, b)) :
    g.bits = f.bits := by
  by_cases hc : f.bits.comment = true
  · unfold FileLine.setLeadingSpaces at h
    rw [if_pos hc] at h
    simp only [Except.ok.injEq] at h
    unfold FileLine.setLeadingComment at h
    have := congrArg (fun x => x.1.bits) h
    rw [show g.bits = (g, b).1.bits from rfl, ← h]
    clear this h
    split
    · dsimp only
      split <;> rfl
    · split
      · dsimp only
        split
        · split <;> rfl
        · split
          · dsimp only; split <;> rfl
          · split <;> rfl
      · rfl
  · exact (C11_text_kept f g n b (by simpa using hc) h).1.2.2.2.2.1

theorem setLeading_bits {f g : FileLine} {n : Int} {b : Bool} (h : setLeading f n = .ok (g, b)) : g.bits = f.bits := by
  unfold setLeading at h
  split at h
  · exact setLeadingSpaces_bits h
  · split at h
    · split at h
      · simp at h
      · split at h
        · simp only [Except.ok.injEq, Prod.mk.injEq] at h
          rw [← h.1]
          split <;> rfl
        · simp only [Except.ok.injEq, Prod.mk.injEq] at h
          rw [← h.1]
    · split at h
      · simp at h
      · exact setLeadingSpaces_bits h

/-- What is in front of the text of a line that is not a comment goes away only if it is blank. -/
theorem setLeadingSpaces_left {f g : FileLine} {n : Nat} {b : Bool} (hc : f.bits.comment = false)
    (h : f.setLeadingSpaces n = .ok (g, b)) :
    (∃ k, f.left_txt.drop k = g.left_txt ∧ f.left_txt.take k = blanks k) ∨ ∃ k, g.left_txt = blanks k ++ f.left_txt ∧ f.left_txt ≠ [] := by
  unfold FileLine.setLeadingSpaces at h
  rw [if_neg (by simp [hc])] at h
  split at h
  · rbind h with x hx
    split at h
    · simp at h
      obtain ⟨rfl, rfl⟩ := h
      exact .inl ⟨0, rfl, rfl⟩
    · rename_i g0 o0
      rbind h with y hy
      simp at h
      obtain ⟨rfl, rfl⟩ := h
      rw [(adjustRight_same hy).2.1]
      clear hy
      unfold FileLine.moveMain at hx
      dsimp only at hx
      split at hx
      · split at hx
        · simp at hx
        · simp at hx
          obtain ⟨rfl, rfl⟩ := hx
          exact .inl ⟨0, rfl, rfl⟩
      · rename_i h0
        split at hx
        · split at hx
          · split at hx
            · simp at hx
            · simp at hx
              obtain ⟨rfl, rfl⟩ := hx
              exact .inl ⟨0, rfl, rfl⟩
          · split at hx
            · simp at hx
            · simp at hx
              obtain ⟨rfl, rfl⟩ := hx
              exact .inl ⟨0, rfl, rfl⟩
        · split at hx
          · split at hx
            · simp at hx
            · split at hx
              · simp at hx
                obtain ⟨rfl, rfl⟩ := hx
                exact .inr ⟨_, rfl, h0⟩
              · split at hx
                · simp at hx
                · rename_i pos hpos
                  simp only [Except.ok.injEq, Option.some.injEq, Prod.mk.injEq] at hx
                  obtain ⟨rfl, rfl⟩ := hx
                  obtain ⟨p1, p2, _⟩ := findFirst_blank_some hpos
                  refine .inl ⟨_, rfl, ?_⟩
                  generalize hm : min pos (f.left_txt.length + f.left_space.length - n) = m
                  have := congrArg (List.take m) p2
                  rw [List.take_take, show min m pos = m by omega] at this
                  rw [this]
                  simp [blanks]; omega
          · simp only [Except.ok.injEq, Option.some.injEq, Prod.mk.injEq] at hx
            obtain ⟨rfl, rfl⟩ := hx
            exact .inl ⟨0, rfl, rfl⟩
  · simp at h
    obtain ⟨rfl, rfl⟩ := h
    exact .inl ⟨0, rfl, rfl⟩

/-- What is in front of the text of a line with a label stays. -/
theorem setLeadingSpaces_label {f g : FileLine} {n : Nat} {b : Bool} (hc : f.bits.comment = false)
    (hl : f.left_txt ≠ [] → f.bits.label = true) (h : f.setLeadingSpaces n = .ok (g, b)) : g.left_txt = f.left_txt := by
  unfold FileLine.setLeadingSpaces at h
  rw [if_neg (by simp [hc])] at h
  split at h
  · rbind h with x hx
    split at h
    · simp at h
      obtain ⟨rfl, rfl⟩ := h
      rfl
    · rename_i g0 o0
      rbind h with y hy
      simp at h
      obtain ⟨rfl, rfl⟩ := h
      rw [(adjustRight_same hy).2.1]
      clear hy
      unfold FileLine.moveMain at hx
      dsimp only at hx
      split at hx
      · split at hx
        · simp at hx
        · simp at hx
          obtain ⟨rfl, rfl⟩ := hx
          rfl
      · rename_i h0
        rw [if_pos (hl h0)] at hx
        split at hx
        · split at hx
          · simp at hx
          · simp at hx
            obtain ⟨rfl, rfl⟩ := hx
            rfl
        · split at hx
          · simp at hx
          · simp at hx
            obtain ⟨rfl, rfl⟩ := hx
            rfl
  · simp at h
    obtain ⟨rfl, rfl⟩ := h
    rfl

theorem fortran_bits {f g : FileLine} (h : g.bits = f.bits) : g.isFortran = f.isFortran := by
  unfold FileLine.isFortran FileLine.isTrivial; rw [h]

theorem not_comment {f : FileLine} (h : f.isFortran = true) : f.bits.comment = false := by
  simp [FileLine.isFortran, FileLine.isTrivial] at h
  simp [h]

/-- Moving a line a second time to the same column changes nothing. -/
theorem setLeading_again {f g : FileLine} {n : Int} {b : Bool} (h : setLeading f n = .ok (g, b)) :
    ∃ b', setLeading g n = .ok (g, b') := by
  have hb := setLeading_bits h
  unfold setLeading at h ⊢
  split at h
  · rename_i h0
    simp only [if_pos h0]
    exact setLeadingSpaces_again h
  · rename_i h0
    simp only [if_neg h0]
    rw [hb, fortran_bits hb]
    split at h
    · rename_i hc
      simp only [if_pos hc]
      split at h
      · simp at h
      · rename_i hl
        split at h
        · rename_i pos hpos
          obtain ⟨t, ht⟩ := findChar_split hpos
          simp only [Except.ok.injEq, Prod.mk.injEq] at h
          have h1 : g.left_txt = f.left_txt ∧ g.main_txt = '!' :: t := by
            rw [← h.1]
            split
            · exact ⟨rfl, ht⟩
            · rename_i hp
              have : pos = 0 := by omega
              subst this
              exact ⟨rfl, by simpa using ht⟩
          refine ⟨false, ?_⟩
          have : findChar '!' ('!' :: t) = some 0 := by simp [findChar, List.findIdx?_cons]
          rw [h1.1, h1.2, hl, this]
          simp
        · rename_i hm
          simp only [Except.ok.injEq, Prod.mk.injEq] at h
          rw [← h.1, hl, hm]
          exact ⟨false, rfl⟩
    · rename_i hc
      simp only [if_neg hc]
      split at h
      · simp at h
      · rename_i hf
        rw [if_neg]
        · exact setLeadingSpaces_again h
        · rintro ⟨h1, h2⟩
          have hne : f.left_txt ≠ [] := fun h3 => hf ⟨h1, h3⟩
          rcases setLeadingSpaces_left (not_comment h1) h with ⟨k, k1, k2⟩ | ⟨k, k1, k2⟩
          · -- the text would be blank, and has an ampersand or a label
            rw [h2] at k1
            have hall : f.left_txt = blanks k := by
              have := List.take_append_drop k f.left_txt
              rw [k1, k2, List.append_nil] at this
              exact this.symm
            unfold FileLine.setLeadingSpaces at h
            rw [if_neg hc, if_pos h1] at h
            rbind h with x hx
            unfold FileLine.moveMain at hx
            dsimp only at hx
            rw [if_neg hne] at hx
            have hnone : findFirstNotOf [' '] f.left_txt = none := by
              rw [hall]
              unfold findFirstNotOf
              rw [List.findIdx?_eq_none_iff]
              intro c hcm
              simp [blanks] at hcm
              simp [hcm.2]
            have hx' : ∀ g0 o0, x = some (g0, o0) → g0.left_txt = f.left_txt := by
              intro g0 o0 he
              subst he
              split at hx
              · rw [if_neg (by omega)] at hx
                split at hx
                · simp at hx
                · simp at hx
                  rw [← hx.1]
              · split at hx
                · split at hx
                  · simp at hx
                  · rw [if_neg (by omega), hnone] at hx
                    simp at hx
                · simp at hx
                  rw [← hx.1]
            split at h
            · simp at h
              rw [h.1] at hne
              exact hne h2
            · rename_i g0 o0
              rbind h with y hy
              simp at h
              obtain ⟨rfl, rfl⟩ := h
              rw [(adjustRight_same hy).2.1, hx' _ _ rfl] at h2
              exact hne h2
          · rw [h2] at k1
            have := congrArg List.length k1
            simp at this
            exact hne (List.eq_nil_of_length_eq_zero (by omega))

/-! ### Lines that keep being what they are -/

theorem stmtLine_moved {f g : FileLine} {n : Int} {b : Bool} (hn : 0 ≤ n) (hf : StmtLine f) (h : setLeading f n = .ok (g, b)) :
    StmtLine g ∧ g.left_txt = f.left_txt ∧ SameStatement f g ∧ g.getLeadingSpaces = columnFor f n := by
  unfold setLeading at h
  rw [if_pos hn] at h
  have hc := not_comment hf.fortran
  have hs := (C11_text_kept f g _ b hc h).1
  have hb := hs.2.2.2.2.1
  have hl := setLeadingSpaces_label hc hf.left h
  refine ⟨⟨by rw [fortran_bits hb]; exact hf.fortran, by rw [hb]; exact hf.free, by rw [hs.2.1]; exact hf.text, ?_⟩, hl, hs, ?_⟩
  · rw [hl, hb]; exact hf.left
  · obtain ⟨h1, h2, _⟩ := C11_sets_indent_partial f g _ b hf.fortran hf.free hf.text (fun h => .inl (hf.left h)) h
    unfold columnFor
    split
    · rename_i h0
      rw [h1 h0]; omega
    · rename_i h0
      rw [h2 h0 (hf.left h0)]
      split <;> omega

/-- The outcome of moving a movable line. -/
theorem movable_defined {f : FileLine} (hf : Movable f) (n : Nat) : ∃ g b, f.setLeadingSpaces n = .ok (g, b) := by
  unfold FileLine.setLeadingSpaces
  rcases hf with hf | hf | ⟨hfix, hlt, hamp, hr⟩
  · rw [if_pos hf]; exact ⟨_, _, rfl⟩
  · split
    · exact ⟨_, _, rfl⟩
    · rw [if_neg (by simp [hf])]; exact ⟨_, _, rfl⟩
  have hadj : ∀ (g : FileLine) (i : Int), g.right_txt = f.right_txt → ∃ y, g.adjustRight (.val i) = .ok y := by
    intro g i hg
    unfold FileLine.adjustRight
    rw [hg]
    split
    · exact ⟨_, rfl⟩
    · dsimp only
      split
      · exact ⟨_, rfl⟩
      · rcases hr with hr | ⟨t, hr⟩
        · have : findChar '!' f.right_txt = none := by
            unfold findChar
            rw [List.findIdx?_eq_none_iff]
            intro c hc
            simp
            rintro rfl
            exact hr hc
          rw [this]
          exact ⟨_, rfl⟩
        · have : findChar '!' f.right_txt = some 0 := by
            rw [hr]; simp [findChar, List.findIdx?_cons]
          rw [this]
          dsimp only
          split
          · simp
          · exact ⟨_, rfl⟩
  have hmv : ∃ x, f.moveMain n = .ok x ∧ ∀ g o, x = some (g, o) → ∃ i, o = .val i := by
    unfold FileLine.moveMain
    dsimp only
    split
    · split
      · exact ⟨_, rfl, by simp⟩
      · exact ⟨_, rfl, fun g o hx => by simp at hx; exact ⟨_, hx.2.symm⟩⟩
    · rename_i h0
      split
      · split
        · split
          · exact ⟨_, rfl, by simp⟩
          · exact ⟨_, rfl, fun g o hx => by simp at hx; exact ⟨_, hx.2.symm⟩⟩
        · split
          · exact ⟨_, rfl, by simp⟩
          · exact ⟨_, rfl, fun g o hx => by simp at hx; exact ⟨_, hx.2.symm⟩⟩
      · rename_i hlab
        have hcn : f.bits.continuation = true := by
          rcases hlt h0 with h1 | h1
          · exact absurd h1 hlab
          · exact h1
        rw [if_pos (by simp [hcn, hfix])]
        split
        · exact ⟨_, rfl, by simp⟩
        · split
          · exact ⟨_, rfl, fun g o hx => by simp at hx; exact ⟨_, hx.2.symm⟩⟩
          · split
            · rename_i hn
              obtain ⟨c, hc1, hc2⟩ := hamp h0
              have := findFirst_blank_none hn
              rw [this] at hc1
              simp [blanks] at hc1
              exact absurd hc1.2 hc2
            · exact ⟨_, rfl, fun g o hx => by simp at hx; exact ⟨_, hx.2.symm⟩⟩
  split
  · exact ⟨_, _, rfl⟩
  · split
    · obtain ⟨x, hx, hv⟩ := hmv
      rw [hx]
      simp only [Res.ok_bind]
      cases x with
      | none => exact ⟨_, _, rfl⟩
      | some p =>
        obtain ⟨g, o⟩ := p
        obtain ⟨i, rfl⟩ := hv g o rfl
        obtain ⟨y, hy⟩ := hadj g i (moveMain_same hx).1.2.2.1
        dsimp only
        rw [hy]
        exact ⟨_, _, rfl⟩
    · exact ⟨_, _, rfl⟩

theorem movable_moved {f g : FileLine} {n : Nat} {b : Bool} (hf : Movable f) (h : f.setLeadingSpaces n = .ok (g, b)) : Movable g := by
  have hb := setLeadingSpaces_bits h
  rcases hf with hf | hf | ⟨hfix, hlt, hamp, hr⟩
  · exact .inl (by rw [hb]; exact hf)
  · exact .inr (.inl (by rw [fortran_bits hb]; exact hf))
  by_cases hc : f.bits.comment = true
  · exact .inl (by rw [hb]; exact hc)
  have hc : f.bits.comment = false := by simpa using hc
  have hs := (C11_text_kept f g n b hc h).1
  refine .inr (.inr ⟨by rw [hb]; exact hfix, ?_, ?_, by rw [hs.2.2.1]; exact hr⟩)
  · rw [hb]
    intro h0
    apply hlt
    intro h1
    rcases setLeadingSpaces_left hc h with ⟨k, k1, k2⟩ | ⟨k, k1, k2⟩
    · rw [h1] at k1; simp at k1; exact h0 k1
    · exact k2 h1
  · intro h0
    rcases setLeadingSpaces_left hc h with ⟨k, k1, k2⟩ | ⟨k, k1, k2⟩
    · have h1 : f.left_txt ≠ [] := by rintro h1; rw [h1] at k1; simp at k1; exact h0 k1
      obtain ⟨c, c1, c2⟩ := hamp h1
      refine ⟨c, ?_, c2⟩
      rw [← List.take_append_drop k f.left_txt, List.mem_append, k2, k1] at c1
      rcases c1 with c1 | c1
      · simp [blanks] at c1; exact absurd c1.2 c2
      · exact c1
    · obtain ⟨c, c1, c2⟩ := hamp k2
      exact ⟨c, by rw [k1]; simp [c1], c2⟩

end Ind
end FLPR
