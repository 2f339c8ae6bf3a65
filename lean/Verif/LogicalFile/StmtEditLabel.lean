import Verif.LogicalFile.StmtEditProps
import Verif.LogicalLine.TextEditMain
import Verif.Indent.LineLemmas
/-!
# The label of a line when its text is changed and when it is split (C64)
-/

namespace FLPR
open Spec

namespace Spec

/-- The label of the logical line is that of its first physical line. -/
def LabelRead (l : LLine) : Prop :=
  ∀ f, l.layout.head? = some f →
    (f.bits.label = true → stoi f.left_txt = .ok l.label) ∧ (f.bits.label = false → l.label = 0)

/-- The first physical lines have the same label field. -/
def SameHead (lay lay' : List FileLine) : Prop :=
  lay'.head?.map (fun f => (f.left_txt, f.bits.label)) = lay.head?.map (fun f => (f.left_txt, f.bits.label))

end Spec
open Spec

/-- **C64** A line is read with the label of its first physical line. -/
theorem init_label_read {st st' : Flex.State} {l l' : LLine} (h : LLine.initFromLayout st l = .ok (l', st')) :
    LabelRead l' ∧ l'.initStmts = l' ∧ l'.layout = l.layout ∧ l'.suppress = l.suppress ∧ l'.cat = l.cat := by
  have key : ∀ v, LLine.tokenize st { l with label := v } (accumAll ((l.layout.filter (fun f => !f.isTrivial)).map pieceOf)) = .ok (l', st') →
      l'.label = v ∧ l'.initStmts = l' ∧ l'.layout = l.layout ∧ l'.suppress = l.suppress ∧ l'.cat = l.cat := by
    intro v ht
    unfold LLine.tokenize at ht
    rbind ht with a ha
    rbind ht with b hb
    have e1 := congrArg (fun x => match x with | .ok (y, _) => some y | .error _ => none) ht
    simp only [Option.some.injEq] at e1
    rw [← e1]
    exact ⟨rfl, rfl, rfl, rfl, rfl⟩
  unfold LLine.initFromLayout at h
  cases hlay : l.layout with
  | nil => rw [hlay] at h; simp at h
  | cons f fs =>
    rw [hlay] at h key
    dsimp only at h
    by_cases hb : f.bits.label = true
    · rw [if_pos hb] at h
      by_cases hn : f.left_txt = []
      · rw [if_pos hn] at h; simp at h
      rw [if_neg hn] at h
      rbind h with v hv
      obtain ⟨k1, k2, k3, k4, k5⟩ := key v h
      refine ⟨?_, k2, k3, k4, k5⟩
      intro g hg
      rw [k3] at hg
      obtain rfl := Option.some.inj hg
      exact ⟨fun _ => by rw [hv, k1], fun hh => by rw [hb] at hh; cases hh⟩
    · rw [if_neg hb] at h
      obtain ⟨k1, k2, k3, k4, k5⟩ := key 0 h
      refine ⟨?_, k2, k3, k4, k5⟩
      intro g hg
      rw [k3] at hg
      obtain rfl := Option.some.inj hg
      exact ⟨fun hh => absurd hh hb, fun _ => k1⟩

theorem label_same {l l' : LLine} (hl : LabelRead l) (hl' : LabelRead l') (hs : SameHead l.layout l'.layout)
    (hne : l.layout ≠ []) : l'.label = l.label := by
  unfold SameHead at hs
  cases h1 : l.layout with
  | nil => exact absurd h1 hne
  | cons f fs =>
    cases h2 : l'.layout with
    | nil => rw [h1, h2] at hs; simp at hs
    | cons g gs =>
      rw [h1, h2] at hs
      simp only [List.head?_cons, Option.map_some, Option.some.injEq, Prod.mk.injEq] at hs
      obtain ⟨a1, a2⟩ := hl f (by rw [h1]; rfl)
      obtain ⟨b1, b2⟩ := hl' g (by rw [h2]; rfl)
      by_cases hb : f.bits.label = true
      · have := a1 hb
        have h3 := b1 (by rw [hs.2]; exact hb)
        rw [hs.1, this] at h3
        injection h3 with h3
        exact h3.symm
      · have hb' : f.bits.label = false := by simpa using hb
        rw [a2 hb', b2 (by rw [hs.2]; exact hb')]

/-! ## The edits of a line keep the label field -/

theorem sameHead_refl (lay : List FileLine) : SameHead lay lay := rfl

theorem sameHead_trans {a b c : List FileLine} (h : SameHead a b) (h' : SameHead b c) : SameHead a c := by
  unfold SameHead at *
  rw [h', h]

theorem sameHead_set {lay : List FileLine} {k : Nat} {f g : FileLine} (h : lay[k]? = some f)
    (h1 : g.left_txt = f.left_txt) (h2 : g.bits.label = f.bits.label) : SameHead lay (lay.set k g) := by
  unfold SameHead
  cases lay with
  | nil => simp at h
  | cons x xs =>
    cases k with
    | zero =>
      obtain rfl := Option.some.inj h
      simp [h1, h2]
    | succ k => simp

theorem lineAt_eq {lay : List FileLine} {i : Int} {f : FileLine} (h : lineAt lay i = .ok f) :
    0 ≤ i ∧ lay[i.toNat]? = some f := by
  unfold lineAt at h
  split at h
  · simp at h
  · split at h
    · simp at h
    · rename_i g hg
      injection h with h
      subst h
      exact ⟨by omega, hg⟩

theorem insertText_head {lay lay' : List FileLine} {line col : Int} {new : Str}
    (h : insertText lay line col new = .ok lay') : SameHead lay lay' := by
  unfold insertText at h
  split at h
  · simp at h
  rbind h with f hf
  split at h
  · simp at h
  rbind h with m hm
  injection h with h
  subst h
  exact sameHead_set (lineAt_eq hf).2 rfl rfl

theorem eraseUncontinue_head (f : FileLine) (fs : List FileLine) :
    (eraseUncontinue f fs).left_txt = f.left_txt ∧ (eraseUncontinue f fs).bits.label = f.bits.label := by
  unfold eraseUncontinue
  split
  · exact ⟨(makeUncontinued_fields f).2.1, by rw [makeUncontinued_bits]⟩
  · exact ⟨rfl, rfl⟩

theorem eraseText_head {lay lay' : List FileLine} {sl sc el ec : Int}
    (h : eraseText lay sl sc el ec = .ok lay') : SameHead lay lay' := by
  unfold eraseText at h
  split at h
  · simp at h
  split at h
  · simp at h
  split at h
  · simp at h
  rbind h with f hf
  obtain ⟨hsl, hget⟩ := lineAt_eq hf
  split at h
  · simp at h
  split at h
  · rbind h with g hg
    split at h
    · simp at h
    rbind h with m hm
    rbind h with mid hmid
    rbind h with g1 hg1
    injection h with h
    subst h
    cases lay with
    | nil => simp at hget
    | cons x xs =>
      cases hn : sl.toNat with
      | zero =>
        rw [hn] at hget
        obtain rfl := Option.some.inj hget
        unfold SameHead
        simp only [List.take_zero, List.nil_append, List.head?_cons, Option.map_some, Option.some.injEq, Prod.mk.injEq]
        exact eraseUncontinue_head _ _
      | succ n => simp [SameHead]
  · rbind h with f1 hf1
    injection h with h
    subst h
    have h1 : f1.left_txt = f.left_txt ∧ f1.bits.label = f.bits.label := by
      unfold eraseLast at hf1
      split at hf1
      · simp at hf1
      split at hf1
      · simp at hf1
      split at hf1
      · simp at hf1
      rbind hf1 with m hm
      split at hf1
      · injection hf1 with hf1; subst hf1; exact ⟨rfl, rfl⟩
      · simp only [if_false, Bool.false_eq_true] at hf1
        injection hf1 with hf1; subst hf1; exact ⟨rfl, rfl⟩
    obtain ⟨h2, h3⟩ := eraseUncontinue_head f1 [f1]
    exact sameHead_set hget (h2.trans h1.1) (h3.trans h1.2)

theorem changeLine_head (lay : List FileLine) (i : Nat) (g : FileLine → FileLine)
    (h : ∀ f, (g f).left_txt = f.left_txt ∧ (g f).bits.label = f.bits.label) : SameHead lay (changeLine lay i g) := by
  unfold changeLine
  split
  · exact sameHead_refl _
  · rename_i f hf
    exact sameHead_set hf (h f).1 (h f).2

theorem putTexts_head (lay : List FileLine) (ts : List Str) : SameHead lay (putTexts lay ts) := by
  cases lay with
  | nil => cases ts <;> exact sameHead_refl _
  | cons f fs => cases ts <;> rfl

/-- Reading the line again after a change that keeps the label field. -/
theorem reread_label {st st' : Flex.State} {l l' : LLine} {lay : List FileLine} (hl : LabelRead l)
    (hh : SameHead l.layout lay) (h : LLine.initFromLayout st { l with layout := lay } = .ok (l', st')) :
    l'.label = l.label ∧ l'.initStmts = l' ∧ LabelRead l' := by
  obtain ⟨h1, h2, h3, _⟩ := init_label_read h
  have h3' : l'.layout = lay := h3
  refine ⟨?_, h2, h1⟩
  by_cases hne : l.layout = []
  · unfold SameHead at hh
    rw [hne] at hh
    simp only [List.head?_nil, Option.map_none, Option.map_eq_none_iff, List.head?_eq_none_iff] at hh
    subst hh
    unfold LLine.initFromLayout at h
    simp at h
  · exact label_same hl h1 (by rw [h3']; exact hh) hne

theorem replaceMain_label {st st' : Flex.State} {l l' : LLine} {new : List Str} (hl : LabelRead l)
    (hi : l.stmts = l.initStmts.stmts) (h : l.replaceMain st new = .ok (l', st')) :
    l'.label = l.label ∧ l'.stmts = l'.initStmts.stmts ∧ LabelRead l' := by
  unfold LLine.replaceMain at h
  split at h
  · injection h with h
    injection h with h _
    subst h
    exact ⟨rfl, hi, hl⟩
  split at h
  · simp at h
  rename_i ref href
  split at h
  · simp at h
  split at h
  · simp at h
  split at h
  · simp at h
  rbind h with lay hlay
  split at h
  · simp at h
  suffices hh : SameHead l.layout _ by
    obtain ⟨k1, k2, k3⟩ := reread_label hl hh h
    exact ⟨k1, by rw [k2], k3⟩
  refine sameHead_trans ?_ (changeLine_head _ _ _ (fun f => ⟨(makeUncontinued_fields f).2.1, by rw [makeUncontinued_bits]⟩))
  have h1 : SameHead l.layout lay := by
    split at hlay
    · rbind hlay with f hf
      injection hlay with hlay
      subst hlay
      cases hh : l.layout with
      | nil => rw [hh] at href; simp at href
      | cons x xs => simp [SameHead]
    · injection hlay with hlay
      subst hlay
      exact sameHead_refl _
  have h2 := sameHead_trans h1 (putTexts_head lay new)
  split
  · exact sameHead_trans h2 (changeLine_head _ _ _ (fun f => ⟨(makeContinued_fields f).2.1, by rw [makeContinued_bits]⟩))
  · exact h2

theorem replaceSubstr_label {st st' : Flex.State} {l l' : LLine} {i j : Nat} {new : Str} (hl : LabelRead l)
    (h : l.replaceSubstr st i j new = .ok (l', st')) : l'.label = l.label ∧ l'.initStmts = l' ∧ LabelRead l' := by
  unfold LLine.replaceSubstr at h
  split at h
  · simp at h
  split at h
  · split at h
    · rbind h with lay hlay
      rbind h with f hf
      rbind h with m hm
      refine reread_label hl ?_ h
      exact sameHead_trans (eraseText_head hlay) (sameHead_set (lineAt_eq hf).2 rfl rfl)
    · simp at h
  · simp at h

theorem insertAfter_label {st st' : Flex.State} {l l' : LLine} {i : Nat} {new : Str} (hl : LabelRead l)
    (h : l.insertAfter st i new = .ok (l', st')) : l'.label = l.label ∧ l'.initStmts = l' ∧ LabelRead l' := by
  unfold LLine.insertAfter at h
  split at h
  · simp at h
  split at h
  · simp at h
  split at h
  · simp at h
  rbind h with lay hlay
  exact reread_label hl (insertText_head hlay) h

theorem insertBefore_label {st st' : Flex.State} {l l' : LLine} {i : Nat} {new : Str} (hl : LabelRead l)
    (h : l.insertBefore st i new = .ok (l', st')) : l'.label = l.label ∧ l'.initStmts = l' ∧ LabelRead l' := by
  unfold LLine.insertBefore at h
  split at h
  · split at h
    · simp at h
    split at h
    · simp at h
    rbind h with lay hlay
    exact reread_label hl (insertText_head hlay) h
  · split at h
    · simp at h
    split at h
    · simp at h
    rbind h with lay hlay
    exact reread_label hl (insertText_head hlay) h

/-! ## Splitting -/

theorem splitSource_head {f f1 : FileLine} {ec : Int} (h : splitSource f ec = .ok f1) :
    f1.left_txt = f.left_txt ∧ f1.bits.label = f.bits.label := by
  unfold splitSource at h
  rbind h with rs hrs
  split at h
  · injection h with h
    subst h
    exact ⟨(makeUncontinued_fields _).2.1, by rw [makeUncontinued_bits]⟩
  · simp at h

theorem splitNew_bits {f f2 : FileLine} {bc left : Int} (h : splitNew f bc left = .ok f2) : f2.bits = f.bits := by
  unfold splitNew at h
  rbind h with g hg
  rbind h with r hr
  injection h with h
  subst h
  rw [Ind.setLeading_bits (b := r.2) hr]
  split at hg
  · rbind hg with rs hrs
    injection hg with hg; subst hg; rfl
  · injection hg with hg; subst hg; rfl

theorem splitFollow_bits {left : Int} {fs gs : List FileLine} (h : splitFollow left fs = .ok gs) :
    gs.map (·.bits) = fs.map (·.bits) := by
  induction fs generalizing gs with
  | nil => simp [splitFollow] at h; subst h; rfl
  | cons f fs ih =>
    unfold splitFollow at h
    split at h
    · rbind h with x hx
      rbind h with y hy
      injection h with h; subst h
      have := ih hy
      simp only [List.map_cons, this]
      congr 1
      split at hx
      · rbind hx with ls hls
        injection hx with hx; subst hx; rfl
      · injection hx with hx; subst hx; rfl
    · rbind h with x hx
      injection h with h; subst h
      simp only [List.map_cons]
      rw [Ind.setLeading_bits (b := x.2) hx]

theorem sameHead_take {lay : List FileLine} {k : Nat} {f g : FileLine} (h : lay[k]? = some f)
    (h1 : g.left_txt = f.left_txt) (h2 : g.bits.label = f.bits.label) : SameHead lay (lay.take k ++ [g]) := by
  unfold SameHead
  cases lay with
  | nil => simp at h
  | cons x xs =>
    cases k with
    | zero =>
      obtain rfl := Option.some.inj h
      simp [h1, h2]
    | succ k => simp

/-- The line that is split keeps its label field; the label flags of the new line are copies. -/
theorem splitAfter_head {l l1 n1 : LLine} {i : Nat} (h : l.splitAfter i {} = .ok (true, l1, n1)) :
    SameHead l.layout l1.layout ∧ l1.label = l.label ∧ n1.label = 0 ∧
    ∀ g ∈ n1.layout, ∃ f ∈ l.layout, g.bits.label = f.bits.label := by
  have hf := C20_fields l l1 n1 {} i h
  refine ⟨?_, hf.1, by rw [hf.2.2.2.2.2.2], ?_⟩
  · cases splitAfter_outcome h with
    | between hs hb hff hu hsu =>
      exact sameHead_take hs.line (makeUncontinued_fields _).2.1 (by rw [makeUncontinued_bits])
    | inside hs hu hsu h1 h2 =>
      obtain ⟨a1, a2⟩ := splitSource_head h1
      exact sameHead_take hs.line a1 a2
  · cases splitAfter_outcome h with
    | between hs hb hff hu hsu =>
      intro g hg
      have this := List.mem_map_of_mem (f := FileLine.bits) hg
      change g.bits ∈ List.map FileLine.bits _ at this
      rw [splitFollow_bits hff] at this
      obtain ⟨f, hf, he⟩ := List.mem_map.mp this
      exact ⟨f, List.mem_of_mem_drop hf, by rw [← he]⟩
    | inside hs hu hsu h1 h2 =>
      intro g hg
      rcases List.mem_cons.mp hg with rfl | hg
      · exact ⟨_, List.mem_of_getElem? hs.line, by rw [splitNew_bits h2]⟩
      · exact ⟨g, List.mem_of_mem_drop hg, rfl⟩

theorem splitAfter_keeps {l l1 n1 : LLine} {i : Nat} (h : l.splitAfter i {} = .ok (true, l1, n1)) (hl : LabelRead l) :
    LabelRead l1 := by
  obtain ⟨h1, h2, _⟩ := splitAfter_head h
  intro g hg
  unfold SameHead at h1
  rw [hg] at h1
  cases hh : l.layout.head? with
  | none => rw [hh] at h1; simp at h1
  | some f =>
    rw [hh] at h1
    simp only [Option.map_some, Option.some.injEq, Prod.mk.injEq] at h1
    obtain ⟨a1, a2⟩ := hl f hh
    rw [h1.1, h1.2, h2]
    exact ⟨a1, a2⟩

theorem splitAfter_new {l l1 n1 : LLine} {i : Nat} (h : l.splitAfter i {} = .ok (true, l1, n1))
    (hno : ∀ f ∈ l.layout, f.bits.label = false) : LabelRead n1 := by
  obtain ⟨_, _, h3, h4⟩ := splitAfter_head h
  intro g hg
  obtain ⟨f, hf, e⟩ := h4 g (List.mem_of_head? hg)
  have := hno f hf
  exact ⟨fun hh => absurd hh (by rw [e, this]; simp), fun _ => h3⟩

end FLPR
