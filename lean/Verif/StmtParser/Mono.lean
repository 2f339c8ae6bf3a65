import Verif.StmtParser.EvalLemmas
/-! # More calls never change a result -/

namespace FLPR
namespace SP

/-- The first result is the second one, or there were not enough calls for it. -/
def Le {α : Type} (a b : PRes α) : Prop := a = .error .fuel ∨ a = b

theorem Le.refl {α : Type} (a : PRes α) : Le a a := .inr rfl

theorem Le.bind {α β : Type} {a b : PRes α} {h h' : α → PRes β} (ha : Le a b)
    (hh : ∀ v, Le (h v) (h' v)) : Le (a >>= h) (b >>= h') := by
  rcases ha with rfl | rfl
  · exact .inl rfl
  · match a with
    | .ok v => exact hh v
    | .error e => exact .inr rfl

theorem Le.ite {α : Type} {q : Prop} [Decidable q] {a b a' b' : PRes α} (ha : Le a a') (hb : Le b b') :
    Le (if q then a else b) (if q then a' else b') := by
  by_cases h : q
  · simpa only [if_pos h] using ha
  · simpa only [if_neg h] using hb

section mono
variable {f f' : P → Strm → PRes Out} (H : ∀ p s, Le (f p s) (f' p s))

include H in
theorem altsLoop_le : ∀ ps s, Le (altsLoop f ps s) (altsLoop f' ps s) := by
  intro ps
  induction ps with
  | nil => intro s; exact .refl _
  | cons p ps ih => intro s; exact (H p s).bind (fun o => .ite (.refl _) (ih _))

include H in
theorem seqLoop_le : ∀ ps s acc, Le (seqLoop f ps s acc) (seqLoop f' ps s acc) := by
  intro ps
  induction ps with
  | nil => intro s acc; exact .refl _
  | cons p ps ih => intro s acc; exact (H p s).bind (fun o => .ite (ih _ _) (.refl _))

include H in
theorem starLoop_le (p : P) : ∀ k k' s acc, k ≤ k' → Le (starLoop f p k s acc) (starLoop f' p k' s acc) := by
  intro k
  induction k with
  | zero => intro k' s acc _; exact .inl rfl
  | succ k ih =>
    intro k' s acc hk
    obtain ⟨j, rfl⟩ : ∃ j, k' = j + 1 := ⟨k' - 1, by omega⟩
    rw [starLoop, starLoop]
    exact (H p s).bind (fun o => .ite (ih _ _ _ (by omega)) (.refl _))

include H in
theorem untilBreak_le (real : P) : ∀ k k' s d ks, k ≤ k' →
    Le (untilBreak f real k s d ks) (untilBreak f' real k' s d ks) := by
  intro k
  induction k with
  | zero => intro k' s d ks _; exact .inl rfl
  | succ k ih =>
    intro k' s d ks hk
    obtain ⟨j, rfl⟩ : ∃ j, k' = j + 1 := ⟨k' - 1, by omega⟩
    rw [untilBreak, untilBreak]
    refine (Le.refl _).bind (fun t => ?_)
    cases breakStep t d with
    | stop => exact .refl _
    | fail => exact .refl _
    | take d' =>
      refine .ite ?_ ?_
      · exact (H real s).bind (fun o => (Le.refl _).bind (fun ks' => ih _ _ _ _ (by omega)))
      · exact (Le.refl _).bind (fun r => ih _ _ _ _ (by omega))

theorem parensLoop_le : ∀ k k' s d ks, k ≤ k' → Le (parensLoop k s d ks) (parensLoop k' s d ks) := by
  intro k
  induction k with
  | zero => intro k' s d ks _; exact .inl rfl
  | succ k ih =>
    intro k' s d ks hk
    obtain ⟨j, rfl⟩ : ∃ j, k' = j + 1 := ⟨k' - 1, by omega⟩
    rw [parensLoop, parensLoop]
    refine .ite ?_ (.refl _)
    refine (Le.refl _).bind (fun t => ?_)
    exact .ite ((Le.refl _).bind (fun _ => ih _ _ _ _ (by omega)))
      (.ite ((Le.refl _).bind (fun _ => ih _ _ _ _ (by omega)))
        (.ite (.refl _) ((Le.refl _).bind (fun _ => ih _ _ _ _ (by omega)))))

include H in
theorem runBody_le (x : Exts) {k k' : Nat} (hk : k ≤ k') (b : Body) (s : Strm) :
    Le (runBody x f k b s) (runBody x f' k' b s) := by
  cases b with
  | comb p => exact (H p s).bind (fun _ => .refl _)
  | expr tag real =>
    refine (Le.refl _).bind (fun t => .ite (.refl _) ?_)
    exact (untilBreak_le H real _ _ _ _ _ hk).bind (fun _ => .refl _)
  | parens =>
    refine (Le.refl _).bind (fun t => .ite (.refl _) ?_)
    exact (Le.refl _).bind (fun _ => (parensLoop_le _ _ _ _ _ hk).bind (fun _ => .refl _))
  | listName => exact .refl _
  | procDesignator p =>
    exact (Le.refl _).bind (fun _ => (Le.refl _).bind (fun _ => (H p _).bind (fun _ => .refl _)))
  | withExts a p => exact (H p s).bind (fun _ => .refl _)

include H in
theorem step_le (g : R → Body) (x : Exts) {k k' : Nat} (hk : k ≤ k') (p : P) (s : Strm) :
    Le (step g x f k p s) (step g x f' k' p s) := by
  cases p with
  | alts tag ps => exact (altsLoop_le H ps s).bind (fun _ => .refl _)
  | letter => exact .refl _
  | literal w => exact .refl _
  | name => exact .refl _
  | neg p => exact (H p s).bind (fun _ => .refl _)
  | opt p => exact (H p s).bind (fun _ => .refl _)
  | peek t => exact .refl _
  | rule r => exact (runBody_le H x hk (g r) s).bind (fun _ => .refl _)
  | seq tag ps => exact (seqLoop_le H ps s _).bind (fun _ => .refl _)
  | star p => exact (starLoop_le H p _ _ s _ hk).bind (fun _ => .refl _)
  | tagIf tag p => exact (H p s).bind (fun _ => .refl _)
  | tok t => exact .refl _

end mono

theorem eval_le (g : R → Body) (x : Exts) : ∀ n m p s, n ≤ m → Le (eval g x n p s) (eval g x m p s) := by
  intro n
  induction n with
  | zero => intro m p s _; exact .inl rfl
  | succ n ih =>
    intro m p s hm
    obtain ⟨j, rfl⟩ : ∃ j, m = j + 1 := ⟨m - 1, by omega⟩
    exact step_le (fun p s => ih j p s (by omega)) g x (by omega) p s

theorem evalRule_le (g : R → Body) (x : Exts) {n m : Nat} (h : n ≤ m) (r : R) (s : Strm) :
    Le (evalRule g x n r s) (evalRule g x m r s) :=
  runBody_le (fun p s => eval_le g x n m p s h) x h (g r) s

end SP
end FLPR
