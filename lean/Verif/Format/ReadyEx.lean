import Verif.Format.Ready
import Verif.Format.WholeEx
/-! # C82: examples of what may be split and what may not -/

namespace FLPR
namespace FlprFormat
open Spec PF PP

/-- A test of the conditions of `C82_ready`. -/
def plainOk (l : LLine) : Bool :=
  (!l.hasFortran || (match l.layout with
    | [] => false
    | f :: fs => f.isFortran && (f :: fs).all (fun f => !f.bits.blank && (f.bits.comment || f.isFortran)))) &&
  l.frags.all (fun t => !(t.token == Tag.UNKNOWN && t.text == ['&']))

theorem of_plainOk {l : LLine} (h : plainOk l = true) :
    (l.hasFortran = true → StatementLayout l.layout) ∧ ∀ t ∈ l.frags, ¬ (t.token = Tag.UNKNOWN ∧ t.text = ['&']) := by
  simp only [plainOk, Bool.and_eq_true] at h
  obtain ⟨h1, h2⟩ := h
  refine ⟨fun hf => ?_, fun t ht ⟨e1, e2⟩ => ?_⟩
  · rw [hf] at h1
    simp only [Bool.not_true, Bool.false_or] at h1
    cases hl : l.layout with
    | nil => rw [hl] at h1; cases h1
    | cons f fs =>
      rw [hl] at h1
      simp only [Bool.and_eq_true] at h1
      refine ⟨⟨f, fs, rfl, h1.1⟩, fun g hg => ?_⟩
      have := List.all_eq_true.mp h1.2 g hg
      simpa using this
  · have := List.all_eq_true.mp h2 t ht
    simp [e1, e2] at this

/-- A text with a statement over two lines, a comment between them, and two statements on a line. -/
example : LineState {} ∧ ∃ pf st', PFile.make {} (some (["x = a + &", "! c", "b; y = 2", "#if 1", "end"].map String.toList)) "a.f90".toList 0 .unknown = .ok (pf, st') ∧
    pf.good = true ∧ ∀ l ∈ pf.lines, Ready l := by
  refine ⟨.inl rfl, ?_⟩
  obtain ⟨pf, st', h1, h2, h3⟩ := readGood_make (raws := ["x = a + &", "! c", "b; y = 2", "#if 1", "end"]) (by decide +kernel)
  refine ⟨pf, st', h1, h2, fun l hl => ((C82_ready {} st' (.inl rfl) _ _ _ _ pf h1).2 l hl).mpr (of_plainOk ?_)⟩
  rw [h3] at hl
  exact List.all_eq_true.mp (show (linesOfText ["x = a + &", "! c", "b; y = 2", "#if 1", "end"]).all plainOk = true by decide +kernel) l hl

/-- C82 fails for a statement with a blank line in it, even though the standard takes it for a comment: when the line is split, its end is lost, and what
is left goes on into the next statement. -/
theorem C82_violation_blank :
    formatted "o" ["      xxxxxxxxxx = aaaaaaaaaaaaaaaaaaaaaaaaaaaaaaaaa + bbbbbbbbbbbbbbbbbbbbbb + &", "", "ccccccccccccccccccccccccccc; y = 2", "end"] =
      some (0, some ["      xxxxxxxxxx = aaaaaaaaaaaaaaaaaaaaaaaaaaaaaaaaa + &", "      y = 2", "end"]) := by decide +kernel

/-- Both tables of `C82_table`. -/
example : fileInfoType "b.f".toList .unknown = .ok .fixedfmt ∧ fileInfoType "b.f90".toList .unknown = .ok .freefmt ∧
    writesAll "io" [("b.f".toList, some ["      do i=1,2".toList, "      x=1".toList, "      end do".toList, "      end".toList])]
      [(0, some ["      do i=1,2".toList, "          x=1".toList, "      end do".toList, "      end".toList])] = true := by
  refine ⟨by decide +kernel, by decide +kernel, by decide +kernel⟩

end FlprFormat
end FLPR
