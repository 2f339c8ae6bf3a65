import Verif.Apps.CaliperProps
import Verif.Apps.ModuleEx
/-! # C80: examples -/

namespace FLPR
namespace Apps
open PP Reg Proc Spec

/-- `C80_exclude` and `C80_left_alone` apply to a pure subroutine with something to do. -/
example : ∃ fl o t n p, fileOf ["recursive pure subroutine s", "x=1", "return", "end"] = .ok (some fl) ∧ OfFresh (viewOf fl) o t n p ∧
    regionStmts n 5 ≠ [] ∧ PureProc (viewOf fl) n ∧ ∀ mk hooked, caliper mk o.s hooked fl n false = .ok (false, fl) := by
  obtain ⟨fl, h1, h2, _⟩ := file_of (raws := ["recursive pure subroutine s", "x=1", "return", "end"])
    (q := fun fl => freshOk fl (fun o _ n p => isTrue (excluded o.s p) && decide (regionStmts n 5 ≠ []))) (by decide +kernel)
  obtain ⟨o, t, n, p, h, h3⟩ := of_freshOk h2
  rw [Bool.and_eq_true, decide_eq_true_eq] at h3
  obtain ⟨b, b1, b2⟩ := C80_exclude _ o t n p h
  rw [of_isTrue h3.1] at b1
  injection b1 with b1
  have hp := b2.mp b1.symm
  exact ⟨fl, o, t, n, p, h1, h, h3.2, hp, fun mk hooked => C80_left_alone _ o t n p h mk hooked fl (.inr hp)⟩

/-- `C80_violation_emplace` applies to a subroutine that is not pure. -/
example : ∃ fl o t n p, fileOf ["recursive subroutine pure", "x=1", "end"] = .ok (some fl) ∧ OfFresh (viewOf fl) o t n p ∧
    regionStmts n 5 ≠ [] ∧ ¬ PureProc (viewOf fl) n ∧ ∀ mk hooked v, caliper mk o.s hooked fl n false ≠ .ok v := by
  obtain ⟨fl, h1, h2, _⟩ := file_of (raws := ["recursive subroutine pure", "x=1", "end"])
    (q := fun fl => freshOk fl (fun o _ n p => isTrue ((excluded o.s p).map (!·)) && decide (regionStmts n 5 ≠ []))) (by decide +kernel)
  obtain ⟨o, t, n, p, h, h3⟩ := of_freshOk h2
  rw [Bool.and_eq_true, decide_eq_true_eq] at h3
  obtain ⟨b, b1, b2⟩ := C80_exclude _ o t n p h
  have hp : ¬ PureProc (viewOf fl) n := by
    intro hp
    rw [b1, b2.mpr hp] at h3
    exact absurd h3.1 (by decide)
  exact ⟨fl, o, t, n, p, h1, h, h3.2, hp, fun mk hooked v => C80_violation_emplace _ o t n p h mk hooked fl h3.2 hp v⟩

/-- `C80_count_partial` applies to a subroutine with two returns in if statements, one in the middle and one at the end. -/
example : ∃ fl o t n p, fileOf ["subroutine s", "if (a) return", "x=1", "return", "if (b) return", "call c", "return", "end"] = .ok (some fl) ∧
    OfFresh (viewOf fl) o t n p ∧ regionStmts n 5 ≠ [] ∧ (∀ j ∈ regionStmts n 5, ∃ tag, (j, tag) ∈ ownLeaves t) ∧
    tally o.s (fun _ => true) p = .ok ⟨2, 1, 1⟩ := by
  obtain ⟨fl, h1, h2, _⟩ := file_of (raws := ["subroutine s", "if (a) return", "x=1", "return", "if (b) return", "call c", "return", "end"])
    (q := fun fl => freshOk fl (fun o t n p => decide (regionStmts n 5 ≠ []) &&
      (regionStmts n 5).all (fun j => decide (∃ e ∈ ownLeaves t, e.1 = j)) &&
      isTrue ((tally o.s (fun _ => true) p).map (fun c => decide (c = (⟨2, 1, 1⟩ : Tally)))))) (by decide +kernel)
  obtain ⟨o, t, n, p, h, h3⟩ := of_freshOk h2
  simp only [Bool.and_eq_true, decide_eq_true_eq, List.all_eq_true] at h3
  obtain ⟨⟨k1, k2⟩, k3⟩ := h3
  refine ⟨fl, o, t, n, p, h1, h, k1, fun j hj => ?_, ?_⟩
  · obtain ⟨e, e1, e2⟩ := k2 j hj
    exact ⟨e.2, by rw [← e2]; exact e1⟩
  · cases ht : tally o.s (fun _ => true) p with
    | error e => rw [ht] at k3; cases k3
    | ok c =>
      rw [ht] at k3
      have := of_isTrue k3
      injection this with this
      rw [of_decide_eq_true this]

/-- `C80_label` on a subroutine that has the greatest label, with something behind it. -/
example : ∃ fl o t n p, fileOf ["subroutine s", "9999 continue", "9997 x=1", "end"] = .ok (some fl) ∧
    OfFresh (viewOf fl) o t n p ∧ newLabel o.s p = .ok 9998 := by
  obtain ⟨fl, h1, h2, _⟩ := file_of (raws := ["subroutine s", "9999 continue", "9997 x=1", "end"])
    (q := fun fl => freshOk fl (fun o _ _ p => isTrue ((newLabel o.s p).map (fun k => decide (k = 9998))))) (by decide +kernel)
  obtain ⟨o, t, n, p, h, h3⟩ := of_freshOk h2
  refine ⟨fl, o, t, n, p, h1, h, ?_⟩
  cases ht : newLabel o.s p with
  | error e => rw [ht] at h3; cases h3
  | ok c =>
    rw [ht] at h3
    have := of_isTrue h3
    injection this with this
    rw [of_decide_eq_true this]

/-- A label is looked for below the labels in use, and there may be none. -/
example : pickLabel [3, 2] 3 = .ok 1 ∧ pickLabel [3, 2, 1] 3 = .error .assertion := ⟨rfl, rfl⟩

end Apps
end FLPR
