import Verif.Comment.FixedLines
/-!
# Properties: comment lines do not matter in fixed format (C77)
-/

namespace FLPR
namespace Spec

/-- Lines may be put behind the lines `A` of a fixed-format file: they do not end within a character string that is continued, nor in a backslash. -/
def FixedSpot (lc : Int) (A : List Str) : Prop :=
  ∀ fs, analyzeAllFixed lc 1 NUL A = .ok (some fs) → ∀ f, fs.getLast? = some f → f.open_delim = NUL ∧ ¬ EndsBackslash f.print

/-- A comment line or a blank line of a fixed-format file. -/
def FixedNote (c : Str) : Prop := AsciiStr c ∧ (fixedCat false (detab c) = .comment ∨ fixedCat false (detab c) = .blank)

end Spec
open Spec SP PP PF

/-- The lines of a fixed-format file, and the lines of the file with more lines put in. -/
def FixedPutIn (o o' : Option (List FileLine)) : Prop :=
  match o, o' with
  | none, none => True
  | some l, some l' => (∀ f ∈ l, FixedKind f) ∧ (∀ f ∈ l', FixedKind f) ∧
      List.Forall₂ (List.Forall₂ CodeLine) (fixedRun .idle l) (fixedRun .idle l')
  | _, _ => False

theorem fixed_putIn (lc : Int) (A C B : List Str) (hs : FixedSpot lc A) (hc : ∀ c ∈ C, FixedNote c) :
    BothWays FixedPutIn (analyzeAllFixed lc 1 NUL (A ++ B)) (analyzeAllFixed lc 1 NUL (A ++ (C ++ B))) := by
  obtain ⟨h1, h2⟩ := analyzeAllFixed_append lc A 1 NUL
  by_cases hA : ∃ fs, analyzeAllFixed lc 1 NUL A = .ok (some fs)
  · obtain ⟨fs, hA⟩ := hA
    obtain ⟨pd, h3, h4, h5⟩ := h1 fs hA
    have hk := fun B gs (h : analyzeAllFixed lc 1 NUL B = .ok (some gs)) => analyzeAllFixed_kind h
    have hst : pd = NUL := by
      cases hl : fs.getLast? with
      | none => exact h4 (List.getLast?_eq_none_iff.mp hl)
      | some f => exact (h5 f hl).trans (hs fs hA f hl).1
    subst hst
    obtain ⟨fc, c1, c2⟩ := analyze_inserted_fixed lc C hc (1 + A.length)
    have k1 := hk (A ++ B)
    have k2 := hk (A ++ (C ++ B))
    rw [h3] at k1 k2 ⊢
    rw [h3]
    rw [c2 B] at k2 ⊢
    have hn := analyzeAllFixed_number lc B (1 + A.length) (1 + A.length + C.length) NUL
    revert hn k1 k2
    cases analyzeAllFixed lc (1 + A.length) NUL B with
    | error e =>
      cases analyzeAllFixed lc (1 + A.length + C.length) NUL B with
      | ok _ => intro _ _ h; exact h.elim
      | error e' => intro _ _ h; exact h
    | ok o =>
      cases analyzeAllFixed lc (1 + A.length + C.length) NUL B with
      | error e' => intro _ _ h; exact h.elim
      | ok o' =>
        intro k1 k2 h
        have h : Lists Renumbered o o' := h
        cases o with
        | none =>
          cases o' with
          | none => exact BW.ok (show FixedPutIn none none from trivial)
          | some _ => exact h.elim
        | some gs =>
          cases o' with
          | none => exact h.elim
          | some gs' =>
            have h : List.Forall₂ Renumbered gs gs' := h
            refine BW.ok (show FixedPutIn (some (fs ++ gs)) (some (fs ++ (fc ++ gs'))) from ⟨k1 _ rfl, k2 _ rfl, ?_⟩)
            have hrun : fixedRun .idle (fs ++ (fc ++ gs')) = fixedRun .idle (fs ++ gs') := by
              rw [fixedRun_append .idle fs (fc ++ gs'), fixedRun_append .idle fs gs', fixedRun_trivial ?_ fc gs' c1]
              intro t ht
              rcases fixedEnd_splice fs .idle (hk A fs hA) ht with ⟨_, h⟩ | ⟨f, e1, e2⟩
              · cases h
              · exact fun hb => (hs fs hA f e1).2 (e2.mp hb)
            rw [hrun]
            refine fixedRun_code (forall2_concat ?_ (h.imp (fun _ _ => renumbered_code))) .idle
            exact List.forall₂_same.mpr (fun f _ => codeLine_refl f)
  · have hA : ∀ fs, analyzeAllFixed lc 1 NUL A ≠ .ok (some fs) := fun fs h => hA ⟨fs, h⟩
    rw [h2 hA B, h2 hA (C ++ B)]
    revert hA
    cases analyzeAllFixed lc 1 NUL A with
    | error e => intro _; exact BW.err _
    | ok o =>
      intro hA
      cases o with
      | none => exact BW.ok (show FixedPutIn none none from trivial)
      | some fs => exact absurd rfl (hA fs)

/-- C77: comment lines and blank lines do not matter in fixed format either, between statements or within them.  Lines `C` put between the lines
`A` and `B` of a file do not change whether and how reading it fails, nor its statements, nor the state in which the scanner is left; only line
numbers differ.  `A` must not end in a character string that is continued or in a backslash. -/
theorem C77_fixed_comment_lines (lc : Int) (A C B : List Str) (hs : FixedSpot lc A) (hc : ∀ c ∈ C, FixedNote c) :
    BothWays SameReading (scanFixed (A ++ B) lc) (scanFixed (A ++ (C ++ B)) lc) := by
  unfold scanFixed
  refine BW.bind (fixed_putIn lc A C B hs hc) (fun o o' ho => ?_)
  cases o with
  | none =>
    cases o' with
    | none => exact BW.ok (show SameReading none none from trivial)
    | some _ => exact ho.elim
  | some l =>
    cases o' with
    | none => exact ho.elim
    | some l' =>
      obtain ⟨k1, k2, hr⟩ := ho
      obtain ⟨gs, gs', e1, e2, e3⟩ := groups_same_fixed k1 k2 hr
      dsimp only
      rw [e1, e2]
      exact BW.ok (show SameReading (some gs) (some gs') from e3)

/-- The labels of the statements of a fixed-format file and the texts of their tokens. -/
def fixedTexts (raws : List String) : Res (Option (List (Int × List String))) := do
  match ← scanFixed (raws.map (·.toList)) 72 with
  | none => .ok none
  | some gs =>
    let r ← buildLines {} gs
    .ok (some ((statementsIn r.1).map (fun s => (s.label, ((s.strm.all.take s.strm.hi).drop s.strm.lo).map (fun t => String.ofList t.text)))))

/-- C77: a comment line within a character string that is continued matters in fixed format, though the standard allows it: an exclamation mark in
the rest of the string is taken for a comment and the string is broken up. -/
theorem C77_violation_fixed_string : fixedTexts ["      x = 'ab", "     &c!d'"] = .ok (some [(0, ["x", "=", "'abc!d'"])]) ∧
    fixedTexts ["      x = 'ab", "C note", "     &c!d'"] = .ok (some [(0, ["x", "=", "'", "abc"])]) := by decide +kernel

/-- The hypotheses of `C77_fixed_comment_lines` hold within a statement, for a comment, a blank line and a line with nothing but a label. -/
example : FixedSpot 72 ["   10 x = 1 +".toList] ∧ (∀ c ∈ ["C note".toList, "  ".toList, "   20".toList], FixedNote c) ∧
    fixedTexts ["   10 x = 1 +", "C note", "  ", "   20", "     & 2", "      y=1"] =
      .ok (some [(10, ["x", "=", "1", "+", "2"]), (0, ["y", "=", "1"])]) := by
  refine ⟨?_, ?_, by decide +kernel⟩
  · intro fs hfs f hf
    have e' : ∃ b, analyzeAllFixed 72 1 NUL ["   10 x = 1 +".toList] = .ok (some [b]) ∧
      b.open_delim = NUL ∧ lastNonBlankChar b.print ≠ '\\' := ⟨_, rfl, by decide, by decide⟩
    obtain ⟨b, e1, e2, e4⟩ := e'
    rw [e1] at hfs
    injection hfs with e
    injection e with e
    subst e
    injection hf with hf
    have hf : b = f := hf
    subst hf
    exact ⟨e2, fun h => e4 ((lastNonBlankChar_iff _).mpr h)⟩
  · intro c hc
    simp only [List.mem_cons, List.not_mem_nil, or_false] at hc
    rcases hc with rfl | rfl | rfl
    · exact ⟨by unfold AsciiStr; decide, .inl ((C44_fixed_category 1 "C note".toList NUL 72 _ rfl .comment).mp (by decide))⟩
    · exact ⟨by unfold AsciiStr; decide, .inr ((C44_fixed_category 1 "  ".toList NUL 72 _ rfl .blank).mp (by decide))⟩
    · exact ⟨by unfold AsciiStr; decide, .inr ((C44_fixed_category 1 "   20".toList NUL 72 _ rfl .blank).mp (by decide))⟩

end FLPR
