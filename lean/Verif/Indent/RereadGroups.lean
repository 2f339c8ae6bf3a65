import Verif.Indent.RereadFile
/-!
# Reading an indented free-format file again (C74): the grouping of the lines
-/

namespace FLPR
open Spec

theorem SameKind.trivial {f f' : FileLine} (h : SameKind f f') : f'.isTrivial = f.isTrivial := by
  unfold FileLine.isTrivial; rw [h.1]

theorem SameKind.fortran {f f' : FileLine} (h : SameKind f f') : f'.isFortran = f.isFortran := by
  unfold FileLine.isFortran; rw [h.trivial, h.1]

theorem takeWhile_kind {p : FileLine → Bool} (hp : ∀ f f', SameKind f f' → p f' = p f) : ∀ {X X' : List FileLine},
    List.Forall₂ SameKind X X' → (X'.takeWhile p).length = (X.takeWhile p).length
  | _, _, .nil => rfl
  | f :: X, f' :: X', .cons h hs => by
    rw [List.takeWhile_cons, List.takeWhile_cons, hp _ _ h]
    cases p f
    · rfl
    · simpa using takeWhile_kind hp hs

theorem findIdx_kind {p : FileLine → Bool} (hp : ∀ f f', SameKind f f' → p f' = p f) : ∀ {X X' : List FileLine},
    List.Forall₂ SameKind X X' → X'.findIdx? p = X.findIdx? p
  | _, _, .nil => rfl
  | f :: X, f' :: X', .cons h hs => by
    rw [List.findIdx?_cons, List.findIdx?_cons, hp _ _ h, findIdx_kind hp hs]

theorem takeWhile_take {α : Type} (p : α → Bool) (l : List α) : l.takeWhile p = l.take (l.takeWhile p).length ∧
    l.dropWhile p = l.drop (l.takeWhile p).length := by
  refine ⟨List.prefix_iff_eq_take.mp (List.takeWhile_prefix p), ?_⟩
  conv_rhs => arg 2; rw [← List.takeWhile_append_dropWhile (p := p) (l := l)]
  rw [List.drop_left]

theorem absorb_again : ∀ (fs : List FileLine) (prev : FileLine), ∃ As, fs = As ++ (absorb prev fs).2 ∧
    (absorb prev fs).1 = As.map FileLine.makePreprocessor ∧
    ∀ rest', rest'.length = (absorb prev fs).2.length → absorb prev (As ++ rest') = ((absorb prev fs).1, rest')
  | [], prev => ⟨[], rfl, rfl, fun rest' h => by
      have : rest' = [] := List.length_eq_zero_iff.mp h
      subst this; rfl⟩
  | f :: fs, prev => by
    obtain ⟨As, h1, h2, h3⟩ := absorb_again fs f.makePreprocessor
    unfold absorb
    split
    · rename_i hp
      refine ⟨f :: As, ?_, ?_, fun rest' hr => ?_⟩
      · dsimp only; rw [List.cons_append, ← h1]
      · dsimp only; rw [h2]; rfl
      · dsimp only at hr ⊢
        rw [List.cons_append]
        dsimp only
        rw [h3 rest' hr]
    · rename_i hp
      refine ⟨[], rfl, rfl, fun rest' hr => ?_⟩
      cases rest' with
      | nil => simp at hr
      | cons x xs =>
        rfl

/-- How one turn of the grouping goes for other lines of the same kinds. -/
theorem nextFree_again {f : FileLine} {fs rest : List FileLine} {g : Group} (h : nextFree f fs = .ok (g, rest)) :
    (∃ A, f :: fs = A ++ rest ∧ g.layout = A ∧ A ≠ [] ∧ ∀ A' rest', List.Forall₂ SameKind A A' → List.Forall₂ SameKind rest rest' →
      ∃ f' fs', A' ++ rest' = f' :: fs' ∧ nextFree f' fs' = .ok ({ g with layout := A' }, rest')) ∨
    (∃ As, fs = As ++ rest ∧ g.layout = f :: As.map FileLine.makePreprocessor ∧ f.isFortran = false ∧ f.bits.comment = false ∧
      ∀ rest', rest'.length = rest.length → nextFree f (As ++ rest') = .ok (g, rest')) := by
  have split : ∀ (k : Nat) (A' rest' : List FileLine), 0 < k → k ≤ (f :: fs).length → List.Forall₂ SameKind ((f :: fs).take k) A' →
      List.Forall₂ SameKind ((f :: fs).drop k) rest' →
      ∃ f' fs', A' ++ rest' = f' :: fs' ∧ (f' :: fs').take k = A' ∧ (f' :: fs').drop k = rest' ∧ SameKind f f' ∧
        List.Forall₂ SameKind (f :: fs) (f' :: fs') := by
    intro k A' rest' hk hkl h1 h2
    have hl : A'.length = k := by rw [← h1.length_eq]; simp; simp at hkl; omega
    have hall := forall2_append h1 h2
    rw [List.take_append_drop] at hall
    cases hX : A' ++ rest' with
    | nil => rw [hX] at hall; cases hall
    | cons f' fs' =>
      rw [hX] at hall
      refine ⟨f', fs', rfl, ?_, ?_, ?_, hall⟩
      · rw [← hX, ← hl, List.take_left]
      · rw [← hX, ← hl, List.drop_left]
      · cases hall with | cons a _ => exact a
  unfold nextFree at h
  split at h
  · -- comments and blank lines
    rename_i ht
    simp only [Except.ok.injEq, Prod.mk.injEq] at h
    obtain ⟨rfl, rfl⟩ := h
    left
    have hpos : 0 < ((f :: fs).takeWhile (·.isTrivial)).length := by rw [List.takeWhile_cons, if_pos ht]; simp
    refine ⟨_, (List.takeWhile_append_dropWhile).symm, rfl, List.length_pos_iff.mp hpos, fun A' rest' h1 h2 => ?_⟩
    obtain ⟨e1, e2⟩ := takeWhile_take (·.isTrivial) (f :: fs)
    rw [e1] at h1
    rw [e2] at h2
    obtain ⟨f', fs', k1, k2, k3, k4, k5⟩ := split _ A' rest' hpos (List.takeWhile_prefix _).length_le h1 h2
    refine ⟨f', fs', k1, ?_⟩
    have hn := takeWhile_kind (p := (·.isTrivial)) (fun _ _ h => h.trivial) k5
    obtain ⟨d1, d2⟩ := takeWhile_take (·.isTrivial) (f' :: fs')
    unfold nextFree
    rw [if_pos (by rw [k4.trivial]; exact ht), d1, d2, hn, k2, k3]
  · rename_i ht
    split at h
    · -- literal blocks
      rename_i hlit
      simp only [Except.ok.injEq, Prod.mk.injEq] at h
      obtain ⟨rfl, rfl⟩ := h
      left
      have hpos : 0 < ((f :: fs).takeWhile (·.bits.flpr_lit)).length := by rw [List.takeWhile_cons, if_pos hlit]; simp
      refine ⟨_, (List.takeWhile_append_dropWhile).symm, rfl, List.length_pos_iff.mp hpos, fun A' rest' h1 h2 => ?_⟩
      obtain ⟨e1, e2⟩ := takeWhile_take (·.bits.flpr_lit) (f :: fs)
      rw [e1] at h1
      rw [e2] at h2
      obtain ⟨f', fs', k1, k2, k3, k4, k5⟩ := split _ A' rest' hpos (List.takeWhile_prefix _).length_le h1 h2
      refine ⟨f', fs', k1, ?_⟩
      have hn := takeWhile_kind (p := (·.bits.flpr_lit)) (fun _ _ h => by rw [h.1]) k5
      obtain ⟨d1, d2⟩ := takeWhile_take (·.bits.flpr_lit) (f' :: fs')
      unfold nextFree
      rw [if_neg (by rw [k4.trivial]; exact ht), if_pos (by rw [k4.1]; exact hlit), d1, d2, hn, k2, k3]
    · rename_i hlit
      split at h
      · rename_i hF
        split at h
        · -- preprocessor lines
          rename_i hP
          simp only [Except.ok.injEq, Prod.mk.injEq] at h
          obtain ⟨rfl, rfl⟩ := h
          right
          obtain ⟨As, h1, h2, h3⟩ := absorb_again fs f
          refine ⟨As, h1, by rw [h2], by simpa using hF, ?_, fun rest' hr => ?_⟩
          · unfold FileLine.isTrivial at ht
            simp at ht
            exact ht.1
          · unfold nextFree
            rw [if_neg ht, if_neg hlit, if_pos hF, if_pos hP, h3 rest' hr]
        · cases h
      · -- statements
        rename_i hF
        simp only [Except.ok.injEq, Prod.mk.injEq] at h
        obtain ⟨rfl, rfl⟩ := h
        left
        have hpos := freeStmtLen_pos (f :: fs)
        have hle : freeStmtLen (f :: fs) ≤ (f :: fs).length := by
          unfold freeStmtLen
          split
          · rename_i k hk
            have := (List.findIdx?_eq_some_iff_getElem.mp hk).1
            omega
          · simp
        refine ⟨_, (List.take_append_drop _ _).symm, rfl, ?_, fun A' rest' h1 h2 => ?_⟩
        · intro hc
          have := congrArg List.length hc
          rw [List.length_take] at this
          simp only [List.length_cons, List.length_nil] at this hle
          omega
        · obtain ⟨f', fs', k1, k2, k3, k4, k5⟩ := split _ A' rest' hpos hle h1 h2
          refine ⟨f', fs', k1, ?_⟩
          have hn : freeStmtLen (f' :: fs') = freeStmtLen (f :: fs) := by
            unfold freeStmtLen
            rw [findIdx_kind (fun _ _ h => by rw [h.trivial, h.1]) k5]
          unfold nextFree
          rw [if_neg (by rw [k4.trivial]; exact ht), if_neg (by rw [k4.1]; exact hlit), if_neg (by rw [k4.fortran]; exact hF), hn, k2, k3]

/-- A line that is read as it is, if it can be moved at all. -/
def Fine (f : FileLine) : Prop :=
  (f.isFortran = true → ∃ pd pc, LineOk pd pc f) ∧ (f.bits.comment = true → ∃ pc, CommentOk pc f)

theorem chain_fine {s e : Now} {fs : List FileLine} (h : Chain s fs e) : (∀ f ∈ fs, ∃ b, SteadyLine b f) →
    (∀ f ∈ fs, AsciiStr f.print) → ∀ f ∈ fs, Fine f := by
  induction h with
  | nil => simp
  | @cons s e f fs lit' h1 h3 _ ih =>
    intro hs ha g hg
    rcases List.mem_cons.mp hg with rfl | hg
    · obtain ⟨b, hb⟩ := hs g (by simp)
      exact ⟨fun hF => ⟨_, _, lineOk_of h3 h1 hF (ha g (by simp)) (hb.hash hF) (hb.label hF)⟩,
        fun hC => ⟨_, (commentOk_of h1 hC (hb.mark hC)).1⟩⟩
    · exact ih (fun g hg => hs g (by simp [hg])) (fun g hg => ha g (by simp [hg])) g hg

theorem makePre_fine (f : FileLine) : Fine f.makePreprocessor ∧ f.makePreprocessor.isFortran = false ∧ f.makePreprocessor.bits.comment = false :=
  ⟨⟨fun h => (by cases h), fun h => (by cases h)⟩, rfl, rfl⟩

theorem makePre_print {f : FileLine} (h : f.bits.fixed_format = false) : f.makePreprocessor.print = f.print := by
  unfold FileLine.print
  rw [h]
  simp [FileLine.makePreprocessor, FileLine.isFortran]

theorem steady_any {fs : List FileLine} (h : SteadyLayout fs) : ∀ f ∈ fs, ∃ b, SteadyLine b f := by
  cases fs with
  | nil => simp
  | cons f fs =>
    intro g hg
    rcases List.mem_cons.mp hg with rfl | hg
    · exact ⟨_, h.1⟩
    · exact ⟨_, h.2 g hg⟩

theorem shift_same : ∀ {a b : List FileLine}, List.Forall₂ (Shift false) a b → (∀ f ∈ a, f.isFortran = false ∧ f.bits.comment = false) → b = a
  | _, _, .nil, _ => rfl
  | _, _, .cons h hs, hf => by
    rw [h.other (hf _ (by simp)).1 (hf _ (by simp)).2, shift_same hs (fun f hm => hf f (by simp [hm]))]

theorem forall2_same {α : Type} {R : α → α → Prop} (h : ∀ a, R a a) (l : List α) : List.Forall₂ R l l := forall2_refl h l

/-- Lines that were moved are put into the same groups again. -/
theorem regroup : ∀ (n : Nat) {fl : List FileLine} {gs : List Group} {Ls : List (List FileLine)} {s e : Now},
    groupLoop nextFree n fl = .ok gs → List.Forall₂ (fun g L => ShiftAll g.layout L ∧ SteadyLayout g.layout) gs Ls →
    (∀ f ∈ fl, AsciiStr f.print) → Chain s fl e →
    (∀ g ∈ gs, ∀ f ∈ g.layout, Fine f) ∧
    ∃ fl', Chain s fl' e ∧ List.Forall₂ SameKind fl fl' ∧ fl'.map FileLine.print = Ls.flatten.map FileLine.print ∧
      groupLoop nextFree n fl' = .ok (List.zipWith (fun g L => { g with layout := L }) gs Ls)
  | n, [], gs, Ls, s, e, h, hL, _, hc => by
    unfold groupLoop at h
    simp only [Except.ok.injEq] at h
    subst h
    cases hL
    exact ⟨by simp, [], hc, .nil, rfl, by unfold groupLoop; rfl⟩
  | 0, _ :: _, _, _, _, _, h, _, _, _ => by unfold groupLoop at h; cases h
  | n + 1, f :: fs, gs, Ls, s, e, h, hL, ha, hc => by
    unfold groupLoop at h
    rbind h with r hr
    obtain ⟨g, rest⟩ := r
    dsimp only at h
    rbind h with gs' hgs
    simp only [Except.ok.injEq] at h
    subst h
    cases hL with
    | @cons _ L _ Ls' h1 h2 =>
      obtain ⟨hsh, hst⟩ := h1
      rcases nextFree_again hr with ⟨A, k1, k2, k3, k4⟩ | ⟨As, k1, k2, k3, k4, k5⟩
      · rw [k1] at hc ha
        rw [k2] at hsh hst
        obtain ⟨m, c1, c2⟩ := hc.split
        obtain ⟨i1, fl', i2, i3, i4, i5⟩ := regroup n hgs h2 (fun f hf => ha f (by simp [hf])) c2
        obtain ⟨j1, j2⟩ := chain_shift c1 hsh.weak (steady_any hst) (fun f hf => ha f (by simp [hf]))
        obtain ⟨f', fs', q1, q2⟩ := k4 L fl' j2 i3
        refine ⟨?_, L ++ fl', j1.append i2, by rw [k1]; exact forall2_append j2 i3, by simp [i4], ?_⟩
        · intro g' hg'
          rcases List.mem_cons.mp hg' with rfl | hg'
          · rw [k2]
            exact chain_fine c1 (steady_any hst) (fun f hf => ha f (by simp [hf]))
          · exact i1 g' hg'
        · rw [q1]
          unfold groupLoop
          rw [q2]
          simp only [Res.ok_bind]
          rw [i5]
          rfl
      · have hc' : Chain s ((f :: As) ++ rest) e := by rw [List.cons_append, ← k1]; exact hc
        obtain ⟨m, c1, c2⟩ := hc'.split
        have hfree := c1.free
        obtain ⟨i1, fl', i2, i3, i4, i5⟩ := regroup n hgs h2 (fun f hf => ha f (by rw [k1]; simp [hf])) c2
        rw [k2] at hsh
        have hsame : L = f :: As.map FileLine.makePreprocessor := by
          refine shift_same hsh.weak (fun x hx => ?_)
          rcases List.mem_cons.mp hx with rfl | hx
          · exact ⟨k3, k4⟩
          · obtain ⟨y, _, rfl⟩ := List.mem_map.mp hx
            exact (makePre_fine y).2
        refine ⟨?_, (f :: As) ++ fl', c1.append i2, ?_, ?_, ?_⟩
        · intro g' hg'
          rcases List.mem_cons.mp hg' with rfl | hg'
          · rw [k2]
            intro x hx
            rcases List.mem_cons.mp hx with rfl | hx
            · exact ⟨fun h => (by rw [k3] at h; cases h), fun h => (by rw [k4] at h; cases h)⟩
            · obtain ⟨y, _, rfl⟩ := List.mem_map.mp hx
              exact (makePre_fine y).1
          · exact i1 g' hg'
        · rw [k1, ← List.cons_append]
          exact forall2_append (forall2_refl SameKind.refl _) i3
        · rw [hsame, List.map_append, i4]
          simp only [List.flatten_cons, List.map_append, List.map_cons, List.map_map, List.append_cancel_right_eq]
          congr 1
          refine List.map_congr_left (fun x hx => ?_)
          exact (makePre_print (hfree x (by simp [hx]))).symm
        · rw [List.cons_append]
          unfold groupLoop
          rw [k5 fl' (i3.length_eq.symm)]
          simp only [Res.ok_bind]
          rw [i5, hsame]
          have : g = { g with layout := f :: As.map FileLine.makePreprocessor } := by rw [← k2]
          rw [List.zipWith_cons_cons, ← this]
          rfl

end FLPR
