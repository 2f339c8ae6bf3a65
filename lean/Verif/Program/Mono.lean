import Verif.Program.TreeSpec
import Verif.StmtParser.Mono
/-! # More calls never change the result of a program level parser -/

namespace FLPR
namespace PP
open SP (R SNode Rng Strm PRes PFail up Le)

section mono
variable {f f' : T → PState → PRes POut} {sp sp' : StmtP}

theorem altsLoop_le (H : ∀ p s, Le (f p s) (f' p s)) : ∀ ps s, Le (altsLoop f ps s) (altsLoop f' ps s)
  | [], _ => .refl _
  | p :: ps, s => (H p s).bind (fun _ => .ite (.refl _) (altsLoop_le H ps _))

theorem seqLoop_le (H : ∀ p s, Le (f p s) (f' p s)) : ∀ ps s acc, Le (seqLoop f ps s acc) (seqLoop f' ps s acc)
  | [], _, _ => .refl _
  | p :: ps, s, _ => (H p s).bind (fun _ => .ite (seqLoop_le H ps _ _) (.refl _))

theorem starLoop_le (H : ∀ p s, Le (f p s) (f' p s)) (p : T) : ∀ k k' s acc, k ≤ k' →
    Le (starLoop f p k s acc) (starLoop f' p k' s acc)
  | 0, k', s, acc, _ => .inl rfl
  | k + 1, k', s, acc, hk => by
    obtain ⟨j, rfl⟩ : ∃ j, k' = j + 1 := ⟨k' - 1, by omega⟩
    rw [starLoop, starLoop]
    exact .ite ((H p s).bind (fun o => .ite (starLoop_le H p k j _ _ (by omega)) (.refl _))) (.refl _)

theorem blockLoop_le (H : ∀ p s, Le (f p s) (f' p s)) : ∀ k k' s acc, k ≤ k' →
    Le (blockLoop f k s acc) (blockLoop f' k' s acc)
  | 0, k', s, acc, _ => .inl rfl
  | k + 1, k', s, acc, hk => by
    obtain ⟨j, rfl⟩ : ∃ j, k' = j + 1 := ⟨k' - 1, by omega⟩
    rw [blockLoop, blockLoop]
    refine (H _ s).bind (fun o => ?_)
    cases o.tree with
    | some t => exact blockLoop_le H k j _ _ (by omega)
    | none => exact .refl _

theorem doEnd_le (hs : ∀ r s, Le (sp r s) (sp' r s)) (s : PState) : Le (doEnd sp s) (doEnd sp' s) := by
  unfold doEnd
  refine (Le.refl _).bind (fun st => .ite ?_ ((Le.refl _).bind (fun lv => .ite (.refl _) (.ite ?_ ?_))))
  · exact (hs _ _).bind (fun _ => .refl _)
  · exact (hs _ _).bind (fun _ => .refl _)
  · unfold endSingle
    refine (hs _ _).bind (fun o => ?_)
    cases o.1 with
    | some t => exact .refl _
    | none => exact (hs _ _).bind (fun _ => .refl _)

theorem runDo_le (H : ∀ p s, Le (f p s) (f' p s)) (hs : ∀ r s, Le (sp r s) (sp' r s)) {k k' : Nat} (hk : k ≤ k')
    (s : PState) : Le (runDo sp f k s) (runDo sp' f' k' s) := by
  unfold runDo
  refine (Le.refl _).bind (fun st => (hs _ _).bind (fun o => ?_))
  cases o.1 with
  | none => exact .refl _
  | some t =>
    exact (Le.refl _).bind (fun label => (blockLoop_le H _ _ _ _ hk).bind (fun r => (doEnd_le hs _).bind (fun _ => .refl _)))

theorem step_le (g : PR → PBody) (H : ∀ p s, Le (f p s) (f' p s)) (hs : ∀ r s, Le (sp r s) (sp' r s)) {k k' : Nat}
    (hk : k ≤ k') (p : T) (s : PState) : Le (step sp g f k p s) (step sp' g f' k' p s) := by
  cases p with
  | alts tag ps => exact (altsLoop_le H ps s).bind (fun _ => .refl _)
  | endStream => exact .refl _
  | opt p => exact (H p s).bind (fun _ => .refl _)
  | optSeq tag ps => exact (seqLoop_le H ps s _).bind (fun _ => .refl _)
  | plus tag p =>
    exact .ite ((H p s).bind (fun o => .ite ((starLoop_le H p _ _ _ _ hk).bind (fun _ => .refl _)) (.refl _))) (.refl _)
  | seq tag ps => exact (seqLoop_le H ps s _).bind (fun _ => .refl _)
  | seqIf tag p ps =>
    exact (H p s).bind (fun o => .ite ((seqLoop_le H ps _ _).bind (fun _ => .refl _)) (.refl _))
  | star p => exact (starLoop_le H p _ _ s _ hk).bind (fun _ => .refl _)
  | stmt r => exact (Le.refl _).bind (fun st => (hs _ _).bind (fun _ => .refl _))
  | tagIf tag p => exact (H p s).bind (fun _ => .refl _)
  | rule r =>
    simp only [step]
    cases g r with
    | comb p => exact H p s
    | exec p => exact (Le.refl _).bind (fun st => .ite (.refl _) (H p s))
    | legacyDo => exact runDo_le H hs hk s

end mono

theorem eval_le {sp sp' : StmtP} (g : PR → PBody) (hs : ∀ r s, Le (sp r s) (sp' r s)) :
    ∀ n m p s, n ≤ m → Le (eval sp g n p s) (eval sp' g m p s)
  | 0, m, p, s, _ => .inl rfl
  | n + 1, m, p, s, hm => by
    obtain ⟨j, rfl⟩ : ∃ j, m = j + 1 := ⟨m - 1, by omega⟩
    exact step_le g (fun p s => eval_le g hs n j p s (by omega)) hs (by omega) p s

theorem run_le {x : SP.Exts} {n m : Nat} (h : n ≤ m) (r : PR) (s : PState) : Le (run x n r s) (run x m r s) :=
  eval_le PR.body (fun r s => SP.evalRule_le SP.R.body x h r s) n m (.rule r) s h

end PP
end FLPR
