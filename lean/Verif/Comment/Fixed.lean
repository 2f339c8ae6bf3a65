import Verif.Comment.Props
import Verif.LogicalFile.ScanProps
/-!
# Comment lines in fixed format: the grouping of lines and their analysis
-/

namespace FLPR
open Spec SP PP PF

/-- A line that is not within a statement or a preprocessor line. -/
def fixedIdle (f : FileLine) : List (List FileLine) × RunSt :=
  if f.isTrivial then ([], .idle) else if !f.isFortran then ([], .splice f.left_txt) else ([], .stmt [f])

/-- A line. -/
def fixedStep : RunSt → FileLine → List (List FileLine) × RunSt
  | .idle, f => fixedIdle f
  | .splice t, f => if lastNonBlankChar t = '\\' then ([], .splice f.makePreprocessor.left_txt) else fixedIdle f
  | .stmt acc, f =>
    if f.isTrivial then ([], .stmt acc) else if f.bits.continuation then ([], .stmt (acc ++ [f])) else ([acc], (fixedIdle f).2)

/-- The lines of the statements, without the comments. -/
def fixedRun : RunSt → List FileLine → List (List FileLine)
  | .stmt acc, [] => [acc]
  | _, [] => []
  | s, f :: fs => (fixedStep s f).1 ++ fixedRun (fixedStep s f).2 fs

/-- The state after some lines. -/
def fixedEnd : RunSt → List FileLine → RunSt
  | s, [] => s
  | s, f :: fs => fixedEnd (fixedStep s f).2 fs

/-- What some lines complete. -/
def fixedDone : RunSt → List FileLine → List (List FileLine)
  | _, [] => []
  | s, f :: fs => (fixedStep s f).1 ++ fixedDone (fixedStep s f).2 fs

/-- What is known of analysed fixed-format lines. -/
structure FixedKind (f : FileLine) : Prop where
  left : f.isFortran = false → LeftOnly f
  noText : f.isFortran = false → NoText f
  kind : f.isTrivial = false → f.isFortran = false → (f.bits.preprocessor || f.bits.flpr_pp || f.bits.incl) = true

theorem fixedRun_cons (s : RunSt) (f : FileLine) (fs : List FileLine) :
    fixedRun s (f :: fs) = (fixedStep s f).1 ++ fixedRun (fixedStep s f).2 fs := by
  cases s <;> rfl

theorem fixedRun_append : ∀ (s : RunSt) (l m : List FileLine), fixedRun s (l ++ m) = fixedDone s l ++ fixedRun (fixedEnd s l) m
  | s, [], m => rfl
  | s, f :: fs, m => by
    rw [List.cons_append, fixedRun_cons, fixedRun_append _ fs m, fixedDone, fixedEnd, List.append_assoc]

theorem fixedRun_idle : ∀ (c m : List FileLine), (∀ f ∈ c, f.isTrivial = true) → fixedRun .idle (c ++ m) = fixedRun .idle m
  | [], m, _ => rfl
  | f :: fs, m, hc => by
    rw [List.cons_append, fixedRun_cons, ← fixedRun_idle fs m (fun g hg => hc g (by simp [hg]))]
    simp [fixedStep, fixedIdle, hc f (by simp)]

theorem fixedRun_dropTrivial : ∀ (l : List FileLine), fixedRun .idle (l.dropWhile (·.isTrivial)) = fixedRun .idle l
  | [] => rfl
  | f :: fs => by
    rw [List.dropWhile_cons]
    split
    · rename_i h
      rw [fixedRun_dropTrivial fs, fixedRun_cons]
      simp [fixedStep, fixedIdle, h]
    · rfl

theorem fixedRun_absorb : ∀ (fs : List FileLine) (p : FileLine), fixedRun (.splice p.left_txt) fs = fixedRun .idle (absorb p fs).2
  | [], p => rfl
  | f :: fs, p => by
    rw [fixedRun_cons, absorb, fixedStep]
    split
    · exact fixedRun_absorb fs f.makePreprocessor
    · rw [fixedRun_cons]
      rfl

theorem lastCode_le : ∀ (fs : List FileLine) (i last : Nat), last ≤ i → last ≤ lastCode i last fs
  | [], _, last, _ => Nat.le_refl _
  | f :: fs, i, last, h => by
    rw [lastCode]
    split
    · exact h.trans (lastCode_le fs (i + 1) i (by omega))
    · split
      · exact lastCode_le fs (i + 1) last (by omega)
      · exact Nat.le_refl _

/-- A statement ends with its last continuation line. -/
theorem fixedRun_stmt : ∀ (fs sk acc : List FileLine) (last : Nat), (∀ f ∈ sk, f.isTrivial = true) →
    fixedRun (.stmt acc) fs =
      (acc ++ ((sk ++ fs).take (lastCode (last + 1 + sk.length) last fs - last)).filter (fun f => !f.isTrivial)) ::
        fixedRun .idle ((sk ++ fs).drop (lastCode (last + 1 + sk.length) last fs - last))
  | [], sk, acc, last, hs => by
    rw [lastCode]
    simp only [List.append_nil, Nat.sub_self, List.take_zero, List.drop_zero, List.filter_nil]
    have := fixedRun_idle sk [] hs
    rw [List.append_nil] at this
    rw [this]
    rfl
  | f :: fs, sk, acc, last, hs => by
    rw [fixedRun_cons, lastCode, fixedStep]
    have hsk : sk.filter (fun f => !f.isTrivial) = [] := by
      rw [List.filter_eq_nil_iff]
      intro g hg
      simp [hs g hg]
    by_cases hc : f.bits.continuation = true
    · simp only [if_pos hc]
      have hle := lastCode_le fs (last + 1 + sk.length + 1) (last + 1 + sk.length) (by omega)
      have ih := fun acc => fixedRun_stmt fs [] acc (last + 1 + sk.length) (by simp)
      simp only [List.length_nil, Nat.add_zero, List.nil_append] at ih
      generalize hk : lastCode (last + 1 + sk.length + 1) (last + 1 + sk.length) fs = k at hle ih ⊢
      have e : k - last = sk.length + (k - (last + 1 + sk.length) + 1) := by omega
      rw [e, List.take_length_add_append, List.drop_length_add_append, List.take_succ_cons, List.drop_succ_cons, List.filter_append, hsk,
        List.nil_append, List.filter_cons]
      by_cases ht : f.isTrivial = true
      · rw [if_pos ht, if_neg (by simp [ht])]
        exact ih acc
      · rw [if_neg ht, if_pos (by simp [ht])]
        dsimp only
        rw [List.nil_append, ih (acc ++ [f])]
        simp
    · simp only [if_neg hc]
      by_cases ht : f.isTrivial = true
      · simp only [if_pos ht]
        have ih := fixedRun_stmt fs (sk ++ [f]) acc last (by
          intro g hg
          rcases List.mem_append.mp hg with h | h
          · exact hs g h
          · rw [List.mem_singleton] at h; subst h; exact ht)
        rw [List.length_append, List.length_singleton, ← Nat.add_assoc, List.append_assoc] at ih
        exact ih
      · simp only [if_neg ht]
        rw [Nat.sub_self, List.take_zero, List.drop_zero, fixedRun_idle sk _ hs, fixedRun_cons]
        have : (fixedStep .idle f).1 = [] := by
          show (fixedIdle f).1 = []
          unfold fixedIdle
          split
          · rfl
          · split <;> rfl
        rw [this]
        simp [fixedStep]

theorem group_run_fixed : ∀ (n : Nat) (l : List FileLine), l.length ≤ n → (∀ f ∈ l, FixedKind f) →
    ∃ gs, groupLoop nextFixed n l = .ok gs ∧ Chunks gs (fixedRun .idle l)
  | n, [], _, _ => ⟨[], by cases n <;> rfl, .nil⟩
  | 0, _ :: _, h, _ => by simp at h
  | n + 1, f :: fs, h, hk => by
    have hlen : fs.length ≤ n := by simpa using h
    have hf := hk f (by simp)
    have rest : ∀ m, m <:+ fs → ∃ gs, groupLoop nextFixed n m = .ok gs ∧ Chunks gs (fixedRun .idle m) := by
      intro m hm
      exact group_run_fixed n m (hm.length_le.trans hlen) (fun g hg => hk g (by simp [hm.subset hg]))
    rw [groupLoop, nextFixed]
    by_cases ht : f.isTrivial = true
    · rw [if_pos ht]
      obtain ⟨gs, h1, h2⟩ := rest ((f :: fs).dropWhile (·.isTrivial)) (by
        rw [List.dropWhile_cons, if_pos ht]
        exact List.dropWhile_suffix _)
      refine ⟨_, by rw [Res.ok_bind]; dsimp only; rw [h1, Res.ok_bind], ?_⟩
      rw [fixedRun_dropTrivial] at h2
      refine .other (by simp [ht]) (fun g hg => ?_) h2
      have h3 := List.mem_takeWhile_imp hg
      exact (hk g ((List.takeWhile_subset _) hg)).noText (trivial_notFortran h3)
    · rw [if_neg ht]
      by_cases hn : f.isFortran = true
      · rw [if_neg (by simp [hn])]
        obtain ⟨gs, h1, h2⟩ := rest ((f :: fs).drop (lastCode 1 0 fs + 1)) (by
          rw [List.drop_succ_cons]
          exact List.drop_suffix _ _)
        refine ⟨_, by rw [Res.ok_bind]; dsimp only; rw [h1, Res.ok_bind], ?_⟩
        have hrun : fixedRun .idle (f :: fs) = ((f :: fs).take (lastCode 1 0 fs + 1)).filter (fun f => !f.isTrivial) ::
            fixedRun .idle ((f :: fs).drop (lastCode 1 0 fs + 1)) := by
          rw [fixedRun_cons]
          have e : fixedStep .idle f = ([], .stmt [f]) := by
            show fixedIdle f = _
            unfold fixedIdle
            rw [if_neg ht, if_neg (by simp [hn])]
          rw [e]
          dsimp only
          rw [List.nil_append, fixedRun_stmt fs [] [f] 0 (by simp)]
          simp [ht]
        rw [hrun]
        exact Chunks.code (g := { layout := (f :: fs).take (lastCode 1 0 fs + 1), needs_reformat := true }) (f := f)
          (fs := fs.take (lastCode 1 0 fs)) (by simp) hn h2
      · have hn' : f.isFortran = false := by simpa using hn
        rw [if_pos (by simp [hn']), if_pos (hf.kind (by simpa using ht) hn')]
        obtain ⟨gs, h1, h2⟩ := rest (absorb f fs).2 (absorb_suffix fs f)
        refine ⟨_, by rw [Res.ok_bind]; dsimp only; rw [h1, Res.ok_bind], ?_⟩
        rw [← fixedRun_absorb] at h2
        have hrun : fixedRun .idle (f :: fs) = fixedRun (.splice f.left_txt) fs := by
          rw [fixedRun_cons]
          simp [fixedStep, fixedIdle, ht, hn']
        rw [hrun]
        refine .other (by simp) (fun g hg => ?_) h2
        rcases List.mem_cons.mp hg with rfl | hg
        · exact hf.noText hn'
        · exact absorb_noText fs f g hg

/-! ### Comment lines between the lines -/

theorem fixedRun_trivial {s : RunSt} (hs : ∀ t, s = .splice t → lastNonBlankChar t ≠ '\\') (c m : List FileLine)
    (hc : ∀ f ∈ c, f.isTrivial = true) : fixedRun s (c ++ m) = fixedRun s m := by
  cases s with
  | idle => exact fixedRun_idle c m hc
  | stmt acc =>
    induction c with
    | nil => rfl
    | cons f fs ih =>
      rw [List.cons_append, fixedRun_cons, ← ih (fun g hg => hc g (by simp [hg]))]
      simp [fixedStep, hc f (by simp)]
  | splice t =>
    have ht := hs t rfl
    have key : ∀ m, fixedRun (.splice t) m = fixedRun .idle m := by
      intro m
      cases m with
      | nil => rfl
      | cons f fs =>
        have e : fixedStep (.splice t) f = fixedStep .idle f := by
          show (if lastNonBlankChar t = '\\' then _ else _) = _
          rw [if_neg ht]
          rfl
        rw [fixedRun_cons, fixedRun_cons, e]
    rw [key, key, fixedRun_idle c m hc]

theorem fixedEnd_splice {t : Str} : ∀ (l : List FileLine) (s : RunSt), (∀ f ∈ l, FixedKind f) → fixedEnd s l = .splice t →
    (l = [] ∧ s = .splice t) ∨ ∃ f, l.getLast? = some f ∧ (lastNonBlankChar t = '\\' ↔ EndsBackslash f.print)
  | [], s, _, h => .inl ⟨rfl, h⟩
  | f :: fs, s, hk, h => by
    right
    rw [fixedEnd] at h
    rcases fixedEnd_splice fs _ (fun g hg => hk g (by simp [hg])) h with ⟨h1, h2⟩ | ⟨g, h1, h2⟩
    · subst h1
      refine ⟨f, rfl, ?_⟩
      have idle : (fixedIdle f).2 = .splice t → (lastNonBlankChar t = '\\' ↔ EndsBackslash f.print) := by
        intro h
        unfold fixedIdle at h
        split at h
        · cases h
        · split at h
          · rename_i hn
            injection h with h
            rw [← h]
            have hn : f.isFortran = false := by simpa using hn
            exact left_print ((hk f (by simp)).left hn) hn
          · cases h
      cases s with
      | idle => exact idle h2
      | splice u =>
        rw [fixedStep] at h2
        split at h2
        · injection h2 with h2
          rw [← h2]
          exact makePre_left f
        · exact idle h2
      | stmt acc =>
        rw [fixedStep] at h2
        split at h2
        · cases h2
        · split at h2
          · cases h2
          · exact idle h2
    · refine ⟨g, ?_, h2⟩
      cases fs with
      | nil => simp at h1
      | cons a as => rw [List.getLast?_cons_cons]; exact h1

/-! ### Lines that agree but for the line number and the comment -/

theorem fixedIdle_code {f f' : FileLine} (h : CodeLine f f') :
    List.Forall₂ (List.Forall₂ CodeLine) (fixedIdle f).1 (fixedIdle f').1 ∧ CodeState (fixedIdle f).2 (fixedIdle f').2 := by
  unfold fixedIdle
  rw [codeLine_trivial h, codeLine_fortran h]
  have hl : f'.left_txt = f.left_txt := by rw [h.rest]
  rw [hl]
  split
  · exact ⟨.nil, .idle⟩
  · split
    · exact ⟨.nil, .splice Iff.rfl⟩
    · exact ⟨.nil, .stmt (.cons h .nil)⟩

theorem fixedStep_code {s s' : RunSt} (hs : CodeState s s') {f f' : FileLine} (h : CodeLine f f') :
    List.Forall₂ (List.Forall₂ CodeLine) (fixedStep s f).1 (fixedStep s' f').1 ∧ CodeState (fixedStep s f).2 (fixedStep s' f').2 := by
  cases hs with
  | idle => exact fixedIdle_code h
  | splice ht =>
    rw [fixedStep, fixedStep]
    simp only [ht]
    split
    · exact ⟨.nil, .splice (by rw [makePre_left, makePre_left, h.splice])⟩
    · exact fixedIdle_code h
  | stmt ha =>
    rw [fixedStep, fixedStep, codeLine_trivial h, codeLine_bits h]
    split
    · exact ⟨.nil, .stmt ha⟩
    · split
      · exact ⟨.nil, .stmt (forall2_join ha (.cons h .nil))⟩
      · exact ⟨.cons ha .nil, (fixedIdle_code h).2⟩

theorem fixedRun_code : ∀ {l l' : List FileLine}, List.Forall₂ CodeLine l l' → ∀ {s s' : RunSt}, CodeState s s' →
    List.Forall₂ (List.Forall₂ CodeLine) (fixedRun s l) (fixedRun s' l')
  | _, _, .nil, _, _, .idle => .nil
  | _, _, .nil, _, _, .splice _ => .nil
  | _, _, .nil, _, _, .stmt ha => .cons ha .nil
  | _, _, .cons h hs, s, s', hq => by
    rw [fixedRun_cons, fixedRun_cons]
    exact forall2_join (fixedStep_code hq h).1 (fixedRun_code hs (fixedStep_code hq h).2)

theorem groups_same_fixed {l l' : List FileLine} (hk : ∀ f ∈ l, FixedKind f) (hk' : ∀ f ∈ l', FixedKind f)
    (h : List.Forall₂ (List.Forall₂ CodeLine) (fixedRun .idle l) (fixedRun .idle l')) :
    ∃ gs gs', groupLoop nextFixed l.length l = .ok gs ∧ groupLoop nextFixed l'.length l' = .ok gs' ∧
      ∀ st, BothWays SameStatements (buildLines st gs) (buildLines st gs') := by
  obtain ⟨gs, h1, h2⟩ := group_run_fixed l.length l (le_refl _) hk
  obtain ⟨gs', h1', h2'⟩ := group_run_fixed l'.length l' (le_refl _) hk'
  refine ⟨gs, gs', h1, h1', fun st => ?_⟩
  have e1 := chunks_build h2 st
  have e2 := code_build h st
  have e3 : BothWays AllViews (buildCode st (fixedRun .idle l')) (buildLines st gs') :=
    bothWays_symm (fun _ _ h => allViews_symm h) (chunks_build h2' st)
  have e4 : BothWays AllViews (buildLines st gs) (buildCode st (fixedRun .idle l')) :=
    bothWays_trans (Q := AllViews) (S := AllViews) (T := AllViews) (fun _ _ _ h1 h2 => allViews_trans h1 h2) e1 e2
  have e5 : BothWays AllViews (buildLines st gs) (buildLines st gs') := bothWays_trans (Q := AllViews) (S := AllViews) (T := AllViews) (fun _ _ _ h1 h2 => allViews_trans h1 h2) e4 e3
  refine BW.mono e5 (fun x y hxy => ?_)
  exact ⟨by rw [statementsIn_eq, statementsIn_eq]; exact hxy.1, hxy.2⟩

end FLPR
