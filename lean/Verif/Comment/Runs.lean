import Verif.LogicalLine.Model
import Verif.LogicalFile.ScanLemmas2
import Mathlib.Data.List.Forall2
/-!
# Comment lines: the grouping of lines, read one line at a time
-/

namespace FLPR
open Spec

/-- Where the reading of the lines is: between statements, in a preprocessor line with the text `t`, or in a statement whose lines so far are
given. -/
inductive RunSt where
  | idle
  | splice (t : Str)
  | stmt (acc : List FileLine)

/-- A line that is not within a statement or a preprocessor line: what it completes, and the state after it. -/
def stepIdle (f : FileLine) : List (List FileLine) × RunSt :=
  if f.isTrivial || f.bits.flpr_lit then ([], .idle)
  else if !f.isFortran then ([], .splice f.left_txt)
  else if f.bits.continued then ([], .stmt [f])
  else ([[f]], .idle)

/-- A line. -/
def runStep : RunSt → FileLine → List (List FileLine) × RunSt
  | .idle, f => stepIdle f
  | .splice t, f => if lastNonBlankChar t = '\\' then ([], .splice f.makePreprocessor.left_txt) else stepIdle f
  | .stmt acc, f =>
    if f.isTrivial then ([], .stmt acc) else if f.bits.continued then ([], .stmt (acc ++ [f])) else ([acc ++ [f]], .idle)

/-- The lines of the statements, without the comments. -/
def runLines : RunSt → List FileLine → List (List FileLine)
  | .stmt acc, [] => acc.map (fun f => [f])
  | _, [] => []
  | s, f :: fs => (runStep s f).1 ++ runLines (runStep s f).2 fs

/-- The state after some lines. -/
def runEnd : RunSt → List FileLine → RunSt
  | s, [] => s
  | s, f :: fs => runEnd (runStep s f).2 fs

/-- What some lines complete. -/
def runDone : RunSt → List FileLine → List (List FileLine)
  | _, [] => []
  | s, f :: fs => (runStep s f).1 ++ runDone (runStep s f).2 fs

/-- What is known of analysed free-format lines. -/
structure FreeKind (f : FileLine) : Prop where
  left : f.isFortran = false → LeftOnly f ∧ f.bits.label = false
  cont : f.isTrivial = false → f.bits.continued = true → f.isFortran = true
  kind : f.isTrivial = false → f.bits.flpr_lit = false → f.isFortran = false →
    (f.bits.preprocessor || f.bits.flpr_pp || f.bits.incl) = true

theorem runLines_cons (s : RunSt) (f : FileLine) (fs : List FileLine) :
    runLines s (f :: fs) = (runStep s f).1 ++ runLines (runStep s f).2 fs := by
  cases s <;> rfl

theorem runLines_append : ∀ (s : RunSt) (l m : List FileLine), runLines s (l ++ m) = runDone s l ++ runLines (runEnd s l) m
  | s, [], m => rfl
  | s, f :: fs, m => by
    rw [List.cons_append, runLines_cons, runLines_append _ fs m, runDone, runEnd, List.append_assoc]

theorem runLines_dropTrivial : ∀ (l : List FileLine), runLines .idle (l.dropWhile (·.isTrivial)) = runLines .idle l
  | [] => rfl
  | f :: fs => by
    rw [List.dropWhile_cons]
    split
    · rename_i h
      rw [runLines_dropTrivial fs, runLines_cons]
      simp [runStep, stepIdle, h]
    · rfl

theorem runLines_dropLit : ∀ (l : List FileLine), runLines .idle (l.dropWhile (·.bits.flpr_lit)) = runLines .idle l
  | [] => rfl
  | f :: fs => by
    rw [List.dropWhile_cons]
    split
    · rename_i h
      rw [runLines_dropLit fs, runLines_cons]
      simp [runStep, stepIdle, h]
    · rfl

theorem runLines_absorb : ∀ (fs : List FileLine) (p : FileLine), runLines (.splice p.left_txt) fs = runLines .idle (absorb p fs).2
  | [], p => rfl
  | f :: fs, p => by
    rw [runLines_cons, absorb, runStep]
    split
    · exact runLines_absorb fs f.makePreprocessor
    · rw [runLines_cons]
      rfl

/-- The test that ends a statement. -/
def EndsStmt (f : FileLine) : Bool := !f.isTrivial && !f.bits.continued

theorem runLines_stmt : ∀ (fs : List FileLine) (k : Nat) (acc : List FileLine), fs.findIdx? EndsStmt = some k →
    runLines (.stmt acc) fs = (acc ++ (fs.take (k + 1)).filter (fun f => !f.isTrivial)) :: runLines .idle (fs.drop (k + 1))
  | [], _, _, h => by simp at h
  | f :: fs, k, acc, h => by
    rw [List.findIdx?_cons] at h
    rw [runLines_cons, runStep]
    by_cases ht : f.isTrivial = true
    · have he : EndsStmt f = false := by simp [EndsStmt, ht]
      rw [if_neg (by simp [he])] at h
      cases hk : fs.findIdx? EndsStmt with
      | none => simp [hk] at h
      | some j =>
        rw [hk] at h
        injection h with h
        subst h
        rw [if_pos ht, runLines_stmt fs j acc hk]
        simp [ht]
    · rw [if_neg ht]
      by_cases hc : f.bits.continued = true
      · have he : EndsStmt f = false := by simp [EndsStmt, hc]
        rw [if_neg (by simp [he])] at h
        cases hk : fs.findIdx? EndsStmt with
        | none => simp [hk] at h
        | some j =>
          rw [hk] at h
          injection h with h
          subst h
          rw [if_pos hc, runLines_stmt fs j _ hk]
          simp [ht]
      · have he : EndsStmt f = true := by simp [EndsStmt, hc, ht]
        rw [if_pos he] at h
        injection h with h
        subst h
        rw [if_neg hc]
        simp [ht]

theorem runLines_open : ∀ (fs : List FileLine) (acc : List FileLine), (∀ f ∈ fs, FreeKind f) → fs.findIdx? EndsStmt = none →
    runLines (.stmt acc) fs = acc.map (fun f => [f]) ++ runLines .idle fs
  | [], acc, _, _ => by simp [runLines]
  | f :: fs, acc, hk, h => by
    rw [List.findIdx?_cons] at h
    have hf := hk f (by simp)
    have hfs : ∀ g ∈ fs, FreeKind g := fun g hg => hk g (by simp [hg])
    have he : EndsStmt f = false := by
      by_contra hc
      rw [if_pos (by simpa using hc)] at h
      cases h
    rw [if_neg (by simp [he])] at h
    have hn : fs.findIdx? EndsStmt = none := by
      cases hk : fs.findIdx? EndsStmt with
      | none => rfl
      | some j => simp [hk] at h
    rw [runLines_cons, runLines_cons]
    by_cases ht : f.isTrivial = true
    · simp only [runStep, stepIdle, ht, if_true, Bool.true_or]
      rw [runLines_open fs acc hfs hn]
      simp
    · have hc : f.bits.continued = true := by
        unfold EndsStmt at he
        simpa [ht] using he
      have hft := hf.cont (by simpa using ht) hc
      have hl : f.bits.flpr_lit = false := by
        unfold FileLine.isFortran at hft
        simp at hft
        simp [hft]
      simp only [runStep, stepIdle, ht, hc, hl, hft, if_true]
      simp only [Bool.false_eq_true, Bool.or_self, if_false, Bool.not_true, List.nil_append]
      rw [runLines_open fs _ hfs hn, runLines_open fs [f] hfs hn]
      simp

/-! ### Groups -/

/-- A line without statement text, whose label, if it has one, can be read. -/
def NoText (f : FileLine) : Prop := (f.left_space = [] ∧ f.main_txt = [] ∧ f.right_space = []) ∧
  (f.bits.label = true → f.left_txt ≠ [] ∧ ∃ v, stoi f.left_txt = .ok v)

/-- The statements among the groups. -/
inductive Chunks : List Group → List (List FileLine) → Prop
  | nil : Chunks [] []
  | other {g : Group} {gs : List Group} {r : List (List FileLine)} : g.layout ≠ [] → (∀ f ∈ g.layout, NoText f) → Chunks gs r →
    Chunks (g :: gs) r
  | code {g : Group} {gs : List Group} {r : List (List FileLine)} {f : FileLine} {fs : List FileLine} : g.layout = f :: fs →
    f.isFortran = true → Chunks gs r → Chunks (g :: gs) (g.layout.filter (fun f => !f.isTrivial) :: r)

theorem FreeKind.noText {f : FileLine} (h : FreeKind f) (hf : f.isFortran = false) : NoText f := by
  obtain ⟨⟨h1, h2, h3, _⟩, h5⟩ := h.left hf
  exact ⟨⟨h1, h2, h3⟩, fun h => by rw [h5] at h; cases h⟩

theorem trivial_notFortran {f : FileLine} (h : f.isTrivial = true) : f.isFortran = false := by
  unfold FileLine.isFortran
  simp [h]

theorem lit_notFortran {f : FileLine} (h : f.bits.flpr_lit = true) : f.isFortran = false := by
  unfold FileLine.isFortran
  simp [h]

theorem absorb_noText : ∀ (fs : List FileLine) (p : FileLine), ∀ f ∈ (absorb p fs).1, NoText f
  | [], p, f, h => by simp [absorb] at h
  | g :: fs, p, f, h => by
    rw [absorb] at h
    split at h
    · rcases List.mem_cons.mp h with rfl | h
      · exact ⟨⟨rfl, rfl, rfl⟩, fun h => by cases h⟩
      · exact absorb_noText fs _ f h
    · simp at h

theorem absorb_suffix : ∀ (fs : List FileLine) (p : FileLine), (absorb p fs).2 <:+ fs
  | [], p => by simp [absorb]
  | g :: fs, p => by
    rw [absorb]
    split
    · exact (absorb_suffix fs g.makePreprocessor).trans (List.suffix_cons _ _)
    · exact List.suffix_refl _

theorem group_run : ∀ (n : Nat) (l : List FileLine), l.length ≤ n → (∀ f ∈ l, FreeKind f) →
    ∃ gs, groupLoop nextFree n l = .ok gs ∧ Chunks gs (runLines .idle l)
  | n, [], _, _ => ⟨[], by cases n <;> rfl, .nil⟩
  | 0, _ :: _, h, _ => by simp at h
  | n + 1, f :: fs, h, hk => by
    have hlen : fs.length ≤ n := by simpa using h
    have hf := hk f (by simp)
    -- the rest of the loop
    have rest : ∀ m, m <:+ fs → ∃ gs, groupLoop nextFree n m = .ok gs ∧ Chunks gs (runLines .idle m) := by
      intro m hm
      exact group_run n m (hm.length_le.trans hlen) (fun g hg => hk g (by simp [hm.subset hg]))
    rw [groupLoop, nextFree]
    by_cases ht : f.isTrivial = true
    · rw [if_pos ht]
      obtain ⟨gs, h1, h2⟩ := rest ((f :: fs).dropWhile (·.isTrivial)) (by
        rw [List.dropWhile_cons, if_pos ht]
        exact List.dropWhile_suffix _)
      refine ⟨_, by rw [Res.ok_bind]; dsimp only; rw [h1, Res.ok_bind], ?_⟩
      rw [runLines_dropTrivial] at h2
      refine .other (by simp [ht]) (fun g hg => ?_) h2
      have h3 := List.mem_takeWhile_imp hg
      exact (hk g ((List.takeWhile_subset _) hg)).noText (trivial_notFortran h3)
    · rw [if_neg ht]
      by_cases hl : f.bits.flpr_lit = true
      · rw [if_pos hl]
        obtain ⟨gs, h1, h2⟩ := rest ((f :: fs).dropWhile (·.bits.flpr_lit)) (by
          rw [List.dropWhile_cons, if_pos hl]
          exact List.dropWhile_suffix _)
        refine ⟨_, by rw [Res.ok_bind]; dsimp only; rw [h1, Res.ok_bind], ?_⟩
        rw [runLines_dropLit] at h2
        refine .other (by simp [hl]) (fun g hg => ?_) h2
        have hg : g ∈ (f :: fs).takeWhile (·.bits.flpr_lit) := hg
        have h3 := List.mem_takeWhile_imp hg
        exact (hk g ((List.takeWhile_subset _) hg)).noText (lit_notFortran h3)
      · rw [if_neg hl]
        by_cases hn : f.isFortran = true
        · rw [if_neg (by simp [hn])]
          obtain ⟨gs, h1, h2⟩ := rest ((f :: fs).drop (freeStmtLen (f :: fs))) (by
            obtain ⟨k, hkk⟩ : ∃ k, freeStmtLen (f :: fs) = k + 1 := ⟨freeStmtLen (f :: fs) - 1, by have := freeStmtLen_pos (f :: fs); omega⟩
            rw [hkk, List.drop_succ_cons]
            exact List.drop_suffix _ _)
          refine ⟨_, by rw [Res.ok_bind]; dsimp only; rw [h1, Res.ok_bind], ?_⟩
          have hrun : runLines .idle (f :: fs) = ((f :: fs).take (freeStmtLen (f :: fs))).filter (fun f => !f.isTrivial) ::
              runLines .idle ((f :: fs).drop (freeStmtLen (f :: fs))) := by
            have hfl : freeStmtLen (f :: fs) = match (f :: fs).findIdx? EndsStmt with | some k => k + 1 | none => 1 := rfl
            rw [hfl, List.findIdx?_cons, runLines_cons]
            simp only [runStep, stepIdle, ht, hl, hn]
            by_cases hc : f.bits.continued = true
            · have he : EndsStmt f = false := by simp [EndsStmt, hc]
              simp only [he, hc]
              simp only [Bool.false_eq_true, Bool.or_self, if_false, Bool.not_true, if_true, List.nil_append]
              cases hi : fs.findIdx? EndsStmt with
              | none =>
                rw [runLines_open fs [f] (fun g hg => hk g (by simp [hg])) hi]
                simp [ht]
              | some k =>
                rw [runLines_stmt fs k [f] hi]
                simp [ht]
            · have he : EndsStmt f = true := by simp [EndsStmt, hc, ht]
              simp [he, hc, ht]
          rw [hrun]
          obtain ⟨k, hkk⟩ : ∃ k, freeStmtLen (f :: fs) = k + 1 := ⟨freeStmtLen (f :: fs) - 1, by have := freeStmtLen_pos (f :: fs); omega⟩
          exact Chunks.code (g := { layout := (f :: fs).take (freeStmtLen (f :: fs)) }) (f := f) (fs := fs.take k) (by simp [hkk]) hn h2
        · have hn' : f.isFortran = false := by simpa using hn
          rw [if_pos (by simp [hn']), if_pos (hf.kind (by simpa using ht) (by simpa using hl) hn')]
          obtain ⟨gs, h1, h2⟩ := rest (absorb f fs).2 (absorb_suffix fs f)
          refine ⟨_, by rw [Res.ok_bind]; dsimp only; rw [h1, Res.ok_bind], ?_⟩
          rw [← runLines_absorb] at h2
          have hrun : runLines .idle (f :: fs) = runLines (.splice f.left_txt) fs := by
            rw [runLines_cons]
            simp [runStep, stepIdle, ht, hl, hn']
          rw [hrun]
          refine .other (by simp) (fun g hg => ?_) h2
          rcases List.mem_cons.mp hg with rfl | hg
          · exact hf.noText hn'
          · exact absorb_noText fs f g hg

/-! ### Comment lines between the lines -/

theorem runLines_trivial {s : RunSt} (hs : ∀ t, s = .splice t → lastNonBlankChar t ≠ '\\') : ∀ (c m : List FileLine),
    (∀ f ∈ c, f.isTrivial = true) → runLines s (c ++ m) = runLines s m := by
  have idle : ∀ (c m : List FileLine), (∀ f ∈ c, f.isTrivial = true) → runLines .idle (c ++ m) = runLines .idle m := by
    intro c m hc
    induction c with
    | nil => rfl
    | cons f fs ih =>
      rw [List.cons_append, runLines_cons, ← ih (fun g hg => hc g (by simp [hg]))]
      simp [runStep, stepIdle, hc f (by simp)]
  intro c m hc
  cases s with
  | idle => exact idle c m hc
  | stmt acc =>
    induction c with
    | nil => rfl
    | cons f fs ih =>
      rw [List.cons_append, runLines_cons, ← ih (fun g hg => hc g (by simp [hg]))]
      simp [runStep, hc f (by simp)]
  | splice t =>
    have ht := hs t rfl
    have key : ∀ m, runLines (.splice t) m = runLines .idle m := by
      intro m
      cases m with
      | nil => rfl
      | cons f fs =>
        have e : runStep (.splice t) f = runStep .idle f := by
          show (if lastNonBlankChar t = '\\' then _ else _) = _
          rw [if_neg ht]
          rfl
        rw [runLines_cons, runLines_cons, e]
    rw [key, key, idle c m hc]

theorem runEnd_splice {t : Str} : ∀ (l : List FileLine) (s : RunSt), (∀ f ∈ l, FreeKind f) → runEnd s l = .splice t →
    (l = [] ∧ s = .splice t) ∨ ∃ f, l.getLast? = some f ∧ (lastNonBlankChar t = '\\' ↔ EndsBackslash f.print)
  | [], s, _, h => .inl ⟨rfl, h⟩
  | f :: fs, s, hk, h => by
    right
    rw [runEnd] at h
    rcases runEnd_splice fs _ (fun g hg => hk g (by simp [hg])) h with ⟨h1, h2⟩ | ⟨g, h1, h2⟩
    · subst h1
      refine ⟨f, rfl, ?_⟩
      have idle : (stepIdle f).2 = .splice t → (lastNonBlankChar t = '\\' ↔ EndsBackslash f.print) := by
        intro h
        unfold stepIdle at h
        split at h
        · cases h
        · split at h
          · rename_i hn
            injection h with h
            rw [← h]
            have hn : f.isFortran = false := by simpa using hn
            exact left_print ((hk f (by simp)).left hn).1 hn
          · split at h <;> cases h
      cases s with
      | idle => exact idle h2
      | splice u =>
        rw [runStep] at h2
        split at h2
        · injection h2 with h2
          rw [← h2]
          exact makePre_left f
        · exact idle h2
      | stmt acc =>
        rw [runStep] at h2
        split at h2
        · cases h2
        · split at h2 <;> cases h2
    · refine ⟨g, ?_, h2⟩
      cases fs with
      | nil => simp at h1
      | cons a as => rw [List.getLast?_cons_cons]; exact h1

/-! ### Lines that agree but for the line number and the comment -/

/-- The same line but for its number and its trailing text. -/
structure CodeLine (f f' : FileLine) : Prop where
  rest : f' = { f with linenum := f'.linenum, right_txt := f'.right_txt }
  splice : EndsBackslash f'.print ↔ EndsBackslash f.print

theorem codeLine_bits {f f' : FileLine} (h : CodeLine f f') : f'.bits = f.bits := by rw [h.rest]
theorem codeLine_trivial {f f' : FileLine} (h : CodeLine f f') : f'.isTrivial = f.isTrivial := by
  unfold FileLine.isTrivial
  rw [codeLine_bits h]
theorem codeLine_fortran {f f' : FileLine} (h : CodeLine f f') : f'.isFortran = f.isFortran := by
  unfold FileLine.isFortran
  rw [codeLine_trivial h, codeLine_bits h]

/-- States that agree but for line numbers and comments. -/
inductive CodeState : RunSt → RunSt → Prop
  | idle : CodeState .idle .idle
  | splice {t t' : Str} : (lastNonBlankChar t' = '\\' ↔ lastNonBlankChar t = '\\') → CodeState (.splice t) (.splice t')
  | stmt {a a' : List FileLine} : List.Forall₂ CodeLine a a' → CodeState (.stmt a) (.stmt a')

theorem forall2_join {α : Type} {Q : α → α → Prop} : ∀ {l l' m m' : List α}, List.Forall₂ Q l l' → List.Forall₂ Q m m' →
    List.Forall₂ Q (l ++ m) (l' ++ m')
  | _, _, _, _, .nil, h => h
  | _, _, _, _, .cons h hs, h' => .cons h (forall2_join hs h')

theorem stepIdle_code {f f' : FileLine} (h : CodeLine f f') :
    List.Forall₂ (List.Forall₂ CodeLine) (stepIdle f).1 (stepIdle f').1 ∧ CodeState (stepIdle f).2 (stepIdle f').2 := by
  unfold stepIdle
  rw [codeLine_trivial h, codeLine_fortran h, codeLine_bits h]
  have hl : f'.left_txt = f.left_txt := by rw [h.rest]
  rw [hl]
  split
  · exact ⟨.nil, .idle⟩
  · split
    · exact ⟨.nil, .splice Iff.rfl⟩
    · split
      · exact ⟨.nil, .stmt (.cons h .nil)⟩
      · exact ⟨.cons (.cons h .nil) .nil, .idle⟩

theorem runStep_code {s s' : RunSt} (hs : CodeState s s') {f f' : FileLine} (h : CodeLine f f') :
    List.Forall₂ (List.Forall₂ CodeLine) (runStep s f).1 (runStep s' f').1 ∧ CodeState (runStep s f).2 (runStep s' f').2 := by
  cases hs with
  | idle => exact stepIdle_code h
  | splice ht =>
    rw [runStep, runStep]
    simp only [ht]
    split
    · exact ⟨.nil, .splice (by rw [makePre_left, makePre_left, h.splice])⟩
    · exact stepIdle_code h
  | stmt ha =>
    rw [runStep, runStep, codeLine_trivial h, codeLine_bits h]
    split
    · exact ⟨.nil, .stmt ha⟩
    · split
      · exact ⟨.nil, .stmt (forall2_join ha (.cons h .nil))⟩
      · exact ⟨.cons (forall2_join ha (.cons h .nil)) .nil, .idle⟩

theorem runLines_code : ∀ {l l' : List FileLine}, List.Forall₂ CodeLine l l' → ∀ {s s' : RunSt}, CodeState s s' →
    List.Forall₂ (List.Forall₂ CodeLine) (runLines s l) (runLines s' l')
  | _, _, .nil, _, _, .idle => .nil
  | _, _, .nil, _, _, .splice _ => .nil
  | _, _, .nil, _, _, .stmt (a := a) (a' := a') ha => by
    show List.Forall₂ _ (a.map (fun f => [f])) (a'.map (fun f => [f]))
    induction ha with
    | nil => exact .nil
    | cons h _ ih => exact .cons (.cons h .nil) ih
  | _, _, .cons h hs, s, s', hq => by
    rw [runLines_cons, runLines_cons]
    exact forall2_join (runStep_code hq h).1 (runLines_code hs (runStep_code hq h).2)

end FLPR
